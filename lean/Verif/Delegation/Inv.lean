import Verif.Delegation.Ops

/-!
# Invariants of x/delegation: balances, ranking, queue (proofs)
-/

namespace Verif.Delegation
open Verif

/-! ## Ranking -/

structure IdxInv (s : State) : Prop where
  has : ∀ st, (s.at st).data.isSome = true → s.index.get? (maxU64 - s.amount st, st) = some ()
  only : ∀ k st, s.index.get? (k, st) = some () → k = maxU64 - s.amount st

theorem IdxInv.of_eq {s s' : State} (h : IdxInv s) (hi : s'.index = s.index)
    (hd : ∀ st, (s'.at st).data.isSome = true → (s.at st).data.isSome = true)
    (ha : ∀ st, s'.amount st = s.amount st) : IdxInv s' := by
  refine ⟨fun st h1 => ?_, fun k st h1 => ?_⟩
  · rw [hi, ha]; exact h.has st (hd st h1)
  · rw [hi] at h1; rw [ha]; exact h.only k st h1

theorem amount_apply_ne (s : State) (a st : Addr) (op : Op) (h : st ≠ a) : (s.apply a op).amount st = s.amount st := by
  unfold State.amount; rw [at_apply, if_neg h]

theorem IdxInv.applyIndexed {s : State} (h : IdxInv s) (a : Addr) (op : Op) : IdxInv (s.applyIndexed a op) := by
  have hidx : (s.applyIndexed a op).index
      = (s.index.del (maxU64 - s.amount a, a)).set (maxU64 - (s.applyIndexed a op).amount a, a) () := rfl
  have hamt : ∀ st, st ≠ a → (s.applyIndexed a op).amount st = s.amount st :=
    fun st hst => amount_apply_ne (s.removeIndex a) a st op hst
  refine ⟨fun st h1 => ?_, fun k st h1 => ?_⟩
  · rw [hidx, Map.get?_set]
    by_cases e : st = a
    · subst e; rw [if_pos rfl]
    · rw [if_neg (fun e' => e (congrArg Prod.snd e')), Map.get?_del, if_neg (fun e' => e (congrArg Prod.snd e')),
        hamt st e]
      apply h.has
      rw [at_applyIndexed, if_neg e] at h1
      exact h1
  · rw [hidx, Map.get?_set] at h1
    by_cases e : st = a
    · subst e
      split at h1
      · rename_i e'; exact congrArg Prod.fst e'
      · rw [Map.get?_del] at h1
        split at h1
        · cases h1
        · rename_i _ h2
          exact absurd (congrArg (fun k => (k, st)) (h.only k st h1)) h2
    · rw [if_neg (fun e' => e (congrArg Prod.snd e')), Map.get?_del, if_neg (fun e' => e (congrArg Prod.snd e'))] at h1
      rw [hamt st e]; exact h.only k st h1

theorem data_withdraw {f : F1} (h : F1Inv f) (who : Addr) :
    (withdraw f who).1.data.isSome = true → f.data.isSome = true := by
  intro h1
  unfold withdraw at h1
  cases hw : f.dels.get? who with
  | none => rw [hw] at h1; exact h1
  | some x => obtain ⟨d, hd⟩ := h.data_of_del hw; rw [hd]; rfl

theorem data_payout (f : F1) (c : Coins) : (payout f c).data.isSome = true → f.data.isSome = true := by
  unfold payout
  cases hd : f.data with
  | none => intro h; rw [← hd]; exact h
  | some d => intro _; rfl

theorem IdxInv.withdraw {s : State} (h : IdxInv s) (ht : Tied s) (a who : Addr) : IdxInv (s.apply a (.withdraw who)) := by
  refine h.of_eq rfl ?_ ?_
  · intro st h1
    rw [at_apply] at h1
    split at h1
    · subst_vars; exact data_withdraw (ht.f1inv st) who h1
    · exact h1
  · intro st
    have := ht.total_apply a (.withdraw who) (by rintro _ ⟨⟩) (ht.calm a) st
    rw [this]
    split
    · subst_vars; rfl
    · rfl

theorem IdxInv.payout {s : State} (h : IdxInv s) (ht : Tied s) (a : Addr) (c : Coins) :
    IdxInv (s.apply a (.payout c)) := by
  refine h.of_eq rfl ?_ ?_
  · intro st h1
    rw [at_apply] at h1
    split at h1
    · subst_vars; exact data_payout _ c h1
    · exact h1
  · intro st
    have := ht.total_apply a (.payout c) (by rintro _ ⟨⟩) (ht.calm a) st
    rw [this]
    split
    · subst_vars; rfl
    · rfl

theorem IdxInv.initMem_aux (l : List Addr) (s : State) (h : ∀ k st, s.index.get? (k, st) = some () → k = maxU64 - s.amount st) :
    (∀ st, (l.foldl State.setIndex s).amount st = s.amount st) ∧
    (∀ st, (l.foldl State.setIndex s).at st = s.at st) ∧
    (∀ k st, (l.foldl State.setIndex s).index.get? (k, st) = some () → k = maxU64 - s.amount st) ∧
    (∀ st, st ∈ l ∨ s.index.get? (maxU64 - s.amount st, st) = some () →
      (l.foldl State.setIndex s).index.get? (maxU64 - s.amount st, st) = some ()) := by
  induction l generalizing s with
  | nil => exact ⟨fun _ => rfl, fun _ => rfl, h, fun st h => by simpa using h⟩
  | cons x t ih =>
    have hi : (s.setIndex x).index = s.index.set (maxU64 - s.amount x, x) () := rfl
    have ha : ∀ st, (s.setIndex x).amount st = s.amount st := fun _ => rfl
    obtain ⟨h1, h2, h3, h4⟩ := ih (s.setIndex x) (by
      intro k st hk
      rw [hi, Map.get?_set] at hk
      rw [ha]
      split at hk
      · rename_i e
        cases e; rfl
      · exact h k st hk)
    refine ⟨h1, h2, h3, fun st hst => ?_⟩
    have := h4 st
    rw [ha] at this
    apply this
    rw [hi, Map.get?_set]
    rcases hst with hst | hst
    · rcases List.mem_cons.1 hst with e | e
      · right; subst e; rw [if_pos rfl]
      · left; exact e
    · right
      split
      · rfl
      · exact hst

theorem f1_foldl_setIndex (l : List Addr) (s : State) : (l.foldl State.setIndex s).f1 = s.f1
    ∧ (l.foldl State.setIndex s).trace = s.trace ∧ (l.foldl State.setIndex s).halted = s.halted
    ∧ (l.foldl State.setIndex s).params = s.params ∧ (l.foldl State.setIndex s).queue = s.queue
    ∧ (l.foldl State.setIndex s).low = s.low ∧ (l.foldl State.setIndex s).high = s.high
    ∧ (l.foldl State.setIndex s).spells = s.spells ∧ (l.foldl State.setIndex s).gifts = s.gifts := by
  induction l generalizing s with
  | nil => exact ⟨rfl, rfl, rfl, rfl, rfl, rfl, rfl, rfl, rfl⟩
  | cons x t ih => exact ih (s.setIndex x)

theorem initMem_idx (s : State) : IdxInv (initMemStore s) := by
  obtain ⟨h1, h2, h3, h4⟩ := IdxInv.initMem_aux (s.f1.keys.filter (fun st => (s.at st).data.isSome)) { s with index := ∅ }
    (by intro k st hk; simp at hk)
  refine ⟨fun st hst => ?_, fun k st hk => ?_⟩
  · show (initMemStore s).index.get? (maxU64 - (initMemStore s).amount st, st) = _
    have e : (initMemStore s).amount st = s.amount st := h1 st
    rw [e]
    apply h4 st
    left
    have hd : (s.at st).data.isSome = true := by
      have e' : (initMemStore s).at st = s.at st := h2 st
      rw [← e']; exact hst
    rw [List.mem_filter]
    refine ⟨?_, hd⟩
    rw [Map.mem_keys_iff]
    cases hh : s.f1.get? st with
    | some f => exact ⟨f, rfl⟩
    | none => unfold State.at at hd; rw [hh] at hd; cases hd
  · have e : (initMemStore s).amount st = s.amount st := h1 st
    rw [e]; exact h3 k st hk

/-! ## The world -/

/-- The invariant of balances, F1 stores, parameters and ranking. -/
structure WInv (w : World) : Prop where
  tied : Tied w.s
  par : w.s.params.validate = true
  idx : IdxInv w.s
  backed : Backed w 0

theorem WInv.of_eq {w w' : World} (h : WInv w) (hf : w'.s.f1 = w.s.f1)
    (ht : ∀ st, ledgerOf w'.s.trace st = ledgerOf w.s.trace st) (hp : w'.s.params = w.s.params)
    (hi : w'.s.index = w.s.index) (hh : w'.s.halted = w.s.halted)
    (hb : w'.b (.mod .delegation) = w.b (.mod .delegation)) (hg : w'.s.gifts = w.s.gifts := by rfl) : WInv w' := by
  have hat : ∀ st, w'.s.at st = w.s.at st := fun st => by unfold State.at; rw [hf]
  refine ⟨h.tied.of_eq hf ht, by rw [hp]; exact h.par, h.idx.of_eq hi ?_ ?_, h.backed.of_eq ?_ hf ht hb hg⟩
  · intro st h1; rw [hat] at h1; exact h1
  · intro st; unfold State.amount; rw [hat]
  · intro h1; rw [hh] at h1; exact h1

theorem bank_orKeep_ne {b : Bank} {src dst : Acct} {c : Coins} {a : Acct} (h1 : a ≠ src) (h2 : a ≠ dst) (d : Denom) :
    ((b.orKeep (b.send src dst c)) a).amt d = (b a).amt d := by
  cases hs : b.send src dst c with
  | error e => rfl
  | ok b' =>
    have := (Bank.send_ok hs).2 a d
    rw [if_neg h1, if_neg h2] at this
    show (b' a).amt d = _
    rw [this]; omega

theorem Backed.of_amt {w w' : World} {x : Int} (h : Backed w x)
    (hh : w'.s.halted = false → w.s.halted = false)
    (hf : w'.s.f1 = w.s.f1) (ht : ∀ st, ledgerOf w'.s.trace st = ledgerOf w.s.trace st) (y : Int)
    (hb : w'.s.halted = false → ∀ d, ((w'.b (.mod .delegation)).amt d : Int)
      = (w.b (.mod .delegation)).amt d + (if d = kyve then y - x else 0))
    (hg : w'.s.gifts = w.s.gifts := by rfl) : Backed w' y := by
  intro h0 d
  have := h (hh h0) d
  rw [hb h0, this]
  unfold totalAll inAll outAll
  simp only [hf, ht, hg]
  by_cases hd : d = kyve
  · simp only [hd, if_true]; omega
  · simp only [hd, if_false]; omega

theorem amt_single_kyve (n : Nat) (d : Denom) : (Coins.single kyve n).amt d = if d = kyve then n else 0 := by
  simp

theorem WInv.delegate {w w' : World} (h : WInv w) {ex : Bool} {c st : Addr} {n : Nat}
    (hok : delegateMsg w ex c st n = .ok w') : WInv w' := by
  unfold delegateMsg at hok
  split at hok
  · cases hok
  · split at hok
    · cases hok
    · rename_i b hb
      injection hok with hok
      subst hok
      have hB : Backed (performDelegation w st c n) _ :=
        h.backed.performOp h.tied st (op := .delegate c n) rfl (fun _ _ => rfl) c
      unfold transferUser at hb
      split at hb
      · refine ⟨h.tied.mildIndexed st rfl |>.of_eq rfl (fun _ => rfl), h.par,
          (h.idx.applyIndexed st (.delegate c n)).of_eq rfl (fun _ h => h) (fun _ => rfl), ?_⟩
        refine hB.of_amt (w' := ⟨(performDelegation w st c n).s, b⟩) (fun h => h) rfl (fun _ => rfl) 0 ?_
        intro _ d
        have hs := (Bank.send_ok hb).2 (.mod .delegation) d
        rw [if_neg (by simp), if_pos rfl, amt_single_kyve] at hs
        show ((b (.mod .delegation)).amt d : Int) = _
          + (if d = kyve then (0 : Int) - (0 + w.s.amount st - ((w.s.amount st + n : Nat) : Int)) else 0)
        rw [hs]
        by_cases hd : d = kyve
        · simp only [hd, if_true]; omega
        · simp only [hd, if_false]; omega
      · cases hb

/-- an undelegation leaves the paid amount uncovered by delegations -/
theorem Backed.undelegation {w : World} (h : WInv w) (st who : Addr) (n : Nat) :
    Backed (performUndelegation w st who n) (undelegated (w.s.at st) who n) := by
  have hB := h.backed.performOp h.tied st (op := .undelegate who n) rfl (fun _ _ => rfl) who
  have hle := undelegated_le_total h.tied st who n
  have e : (0 : Int) + w.s.amount st - opTotal (w.s.at st) (w.s.amount st) (.undelegate who n)
      = undelegated (w.s.at st) who n := by
    show (0 : Int) + w.s.amount st - ((w.s.amount st - undelegated (w.s.at st) who n : Nat) : Int) = _
    omega
  rw [e] at hB
  exact hB

theorem Tied.performOp {w : World} (h : Tied w.s) (st : Addr) {op : Op} (hm : op.mild = true) (who : Addr) :
    Tied (Delegation.performOp w st op who).s := h.mildIndexed st hm |>.of_eq rfl (fun _ => rfl)

theorem IdxInv.performOp {w : World} (h : IdxInv w.s) (st : Addr) (op : Op) (who : Addr) :
    IdxInv (Delegation.performOp w st op who).s :=
  (h.applyIndexed st op).of_eq rfl (fun _ h => h) (fun _ => rfl)

theorem WInv.spells {w : World} (h : WInv w) (m : Map (Addr × Nat) Unit) : WInv ⟨{ w.s with spells := m }, w.b⟩ :=
  h.of_eq rfl (fun _ => rfl) rfl rfl rfl rfl

theorem consumeSpell_ok {s s' : State} {now : Nat} {who : Addr} (h : consumeSpell s now who = .ok s') :
    s' = { s with spells := s'.spells } := by
  unfold consumeSpell takeSpell at h
  split at h
  · cases h
  · split at h
    · cases h
    · injection h with h; rw [← h]; rfl

theorem WInv.redelegate {w w' : World} (h : WInv w) {now : Nat} {ex ac : Bool} {m : RedelegateMsg}
    (hok : redelegateMsg w now ex ac m = .ok w') : WInv w' := by
  unfold redelegateMsg at hok
  split at hok
  · cases hok
  · split at hok
    · cases hok
    · split at hok
      · cases hok
      · split at hok
        · cases hok
        · split at hok
          · cases hok
          · rename_i s hs
            have hs' := consumeSpell_ok hs
            have h1 : WInv ⟨s, w.b⟩ := by rw [hs']; exact h.spells _
            unfold finishRedelegate at hok
            split at hok
            · cases hok
            · rename_i hu
              injection hok with hok
              subst hok
              have hu' : undelegated (s.at m.src) m.creator m.amount = m.amount := by
                by_contra hne; exact hu hne
              have hB1 := Backed.undelegation h1 m.src m.creator m.amount
              have hT1 : Tied (performUndelegation ⟨s, w.b⟩ m.src m.creator m.amount).s := h1.tied.performOp m.src rfl _
              have hB2 := hB1.performOp hT1 m.dst (op := .delegate m.creator m.amount) rfl (fun _ _ => rfl) m.creator
              refine ⟨(hT1.performOp m.dst (op := .delegate m.creator m.amount) rfl m.creator).of_eq rfl (fun _ => rfl),
                h1.par, ?_, ?_⟩
              · exact ((h1.idx.performOp m.src _ _).performOp m.dst (.delegate m.creator m.amount) m.creator).of_eq rfl
                  (fun _ h => h) (fun _ => rfl)
              · have e : ((undelegated (s.at m.src) m.creator m.amount : Nat) : Int)
                    + (performUndelegation ⟨s, w.b⟩ m.src m.creator m.amount).s.amount m.dst
                    - opTotal ((performUndelegation ⟨s, w.b⟩ m.src m.creator m.amount).s.at m.dst)
                      ((performUndelegation ⟨s, w.b⟩ m.src m.creator m.amount).s.amount m.dst)
                      (.delegate m.creator m.amount) = 0 := by
                  show ((undelegated (s.at m.src) m.creator m.amount : Nat) : Int) + _ - ((_ + m.amount : Nat) : Int) = 0
                  rw [hu']; omega
                rw [e] at hB2
                exact hB2.of_eq (fun h => h) rfl (fun _ => rfl) rfl

theorem WInv.withdraw {w w' : World} (h : WInv w) {c st : Addr} (hok : withdrawMsg w c st = .ok w') : WInv w' := by
  unfold withdrawMsg at hok
  split at hok
  · cases hok
  · split at hok
    · cases hok
    · rename_i b hb
      injection hok with hok
      subst hok
      refine ⟨h.tied.mild st rfl, h.par, h.idx.withdraw h.tied st c, ?_⟩
      intro h0 d
      have hB := h.backed h0 d
      have hs := Bank.send_ok hb
      have hle := hs.1 d
      have hs := hs.2 (.mod .delegation) d
      rw [if_pos rfl, if_neg (by simp)] at hs
      have e1 := inAll_apply h.tied st (.withdraw c) d
      have e2 := outAll_apply h.tied st (.withdraw c) d
      have e3 := totalAll_apply (s := w.s) st (.withdraw c)
      rw [h.tied.total_apply st (.withdraw c) (by rintro _ ⟨⟩) (h.tied.calm st) st, if_pos rfl] at e3
      have e3' : totalAll (w.s.apply st (.withdraw c)) = totalAll w.s := by
        have : opTotal (w.s.at st) (w.s.amount st) (.withdraw c) = w.s.amount st := rfl
        omega
      have e1' : inAll (w.s.apply st (.withdraw c)) d = inAll w.s d := e1
      show ((b (.mod .delegation)).amt d : Int) = _
      rw [hs, e1', e2, e3', show (w.s.apply st (.withdraw c)).gifts = w.s.gifts from rfl]
      omega

theorem WInv.payout {w w' : World} (h : WInv w) {st : Addr} {c : Coins}
    (hok : payoutRewards w .pool st c = .ok w') : WInv w' := by
  unfold payoutRewards at hok
  split at hok
  · injection hok with hok; subst hok; exact h
  · split at hok
    · cases hok
    · rename_i hdata
      split at hok
      · cases hok
      · rename_i b hb
        injection hok with hok
        subst hok
        refine ⟨h.tied.mild st rfl, h.par, h.idx.payout h.tied st c, ?_⟩
        intro h0 d
        have hB := h.backed h0 d
        have hs := (Bank.send_ok hb).2 (.mod .delegation) d
        rw [if_neg (by simp), if_pos rfl] at hs
        have e1 := inAll_apply h.tied st (.payout c) d
        have e2 := outAll_apply h.tied st (.payout c) d
        have e3 := totalAll_apply (s := w.s) st (.payout c)
        rw [h.tied.total_apply st (.payout c) (by rintro _ ⟨⟩) (h.tied.calm st) st, if_pos rfl] at e3
        have e3' : totalAll (w.s.apply st (.payout c)) = totalAll w.s := by
          have : opTotal (w.s.at st) (w.s.amount st) (.payout c) = w.s.amount st := rfl
          omega
        have hact : (ledgerOf w.s.trace st).ideal.active = true := by
          obtain ⟨hr, _⟩ := (h.tied.reach st).rinv
          rw [hr.active, ← h.tied.at_eq]
          cases hh : (w.s.at st).data with
          | none => rw [hh] at hdata; exact absurd rfl hdata
          | some _ => rfl
        have e1' : inAll (w.s.apply st (.payout c)) d = inAll w.s d + c.amt d := by
          rw [e1]
          show _ + (if (ledgerOf w.s.trace st).ideal.active then c.amt d else 0) = _
          rw [hact]; rfl
        have e2' : outAll (w.s.apply st (.payout c)) d = outAll w.s d := e2
        show ((b (.mod .delegation)).amt d : Int) = _
        rw [hs, e1', e2', e3', show (w.s.apply st (.payout c)).gifts = w.s.gifts from rfl]
        omega

theorem slashFraction_le {p : Params} (h : p.validate = true) (t : SlashType) : p.slashFraction t ≤ Dec.one := by
  unfold Params.validate at h
  simp only [Bool.and_eq_true, decide_eq_true_eq] at h
  cases t
  · exact h.2
  · exact h.1.1
  · exact h.1.2

theorem slash_le_total {f : F1} {q : Dec} (hq : q ≤ Dec.one) : (slash f q).2 ≤ f.d.total := by
  rw [slash_snd]
  exact Dec.mulTrunc_le_left hq

theorem WInv.slash {w : World} (h : WInv w) (st : Addr) (t : SlashType)
    (hd : Calm (slashDelegators w st t).s) : WInv (slashDelegators w st t) := by
  have hq := slashFraction_le h.par t
  unfold slashDelegators at hd ⊢
  split
  · exact h
  · rename_i hdata
    rw [if_neg hdata] at hd
    have hdust : ((ledgerOf w.s.trace st).step (.slash (w.s.params.slashFraction t))).dust < Dec.one := by
      have := hd st
      have e : ledgerOf (w.s.applyIndexed st (.slash (w.s.params.slashFraction t))).trace st
          = (ledgerOf w.s.trace st).step (.slash (w.s.params.slashFraction t)) := by
        show ledgerOf (.f1 st _ :: w.s.trace) st = _
        rw [ledgerOf_f1, if_pos rfl]
      rw [← e]; exact this
    have hqq : ∀ q, Op.slash (w.s.params.slashFraction t) = .slash q → q ≤ Dec.one := by rintro _ ⟨⟩; exact hq
    refine ⟨(h.tied.applyIndexed st _ hqq hdust).of_eq rfl (fun _ => rfl), h.par,
      (h.idx.applyIndexed st _).of_eq rfl (fun _ h => h) (fun _ => rfl), ?_⟩
    intro h0 d
    have h0' : (w.s.halted || Bank.failed (slashTransfer w st (w.s.params.slashFraction t))) = false := h0
    rw [Bool.or_eq_false_iff] at h0'
    have hB := h.backed h0'.1 d
    cases hr : slashTransfer w st (w.s.params.slashFraction t) with
    | error e => rw [hr] at h0'; exact absurd h0'.2 (by simp [Bank.failed])
    | ok b =>
      have hs := Bank.send_ok hr
      have hle := hs.1 d
      have hs := hs.2 (.mod .delegation) d
      rw [if_pos rfl, if_neg (by simp), amt_single_kyve] at hs
      rw [amt_single_kyve] at hle
      have e1 : inAll (w.s.applyIndexed st (.slash (w.s.params.slashFraction t))) d = inAll w.s d :=
        inAll_applyIndexed h.tied st _ d
      have e2 : outAll (w.s.applyIndexed st (.slash (w.s.params.slashFraction t))) d = outAll w.s d :=
        outAll_applyIndexed h.tied st _ d
      have e3 := totalAll_applyIndexed (s := w.s) st (.slash (w.s.params.slashFraction t))
      rw [amount_applyIndexed h.tied st _ hqq hdust st, if_pos rfl] at e3
      have e4 : opTotal (w.s.at st) (w.s.amount st) (.slash (w.s.params.slashFraction t))
          = w.s.amount st - (Delegation.slash (w.s.at st) (w.s.params.slashFraction t)).2 := rfl
      have e5 : (Delegation.slash (w.s.at st) (w.s.params.slashFraction t)).2 ≤ w.s.amount st := slash_le_total hq
      show ((b (.mod .delegation)).amt d : Int) = (if d = kyve then
        (totalAll (w.s.applyIndexed st (.slash (w.s.params.slashFraction t))) : Int) + 0 else 0)
        + inAll (w.s.applyIndexed st (.slash (w.s.params.slashFraction t))) d + w.s.gifts.amt d
        - outAll (w.s.applyIndexed st (.slash (w.s.params.slashFraction t))) d
      rw [hs, e1, e2]
      rw [e4] at e3
      by_cases hd : d = kyve
      · simp only [hd, if_true] at *; omega
      · simp only [hd, if_false] at *; omega

theorem WInv.payEntry {w : World} (h : WInv w) (now i : Nat) (e : QEntry) : WInv (payEntry w now i e) := by
  have hB := Backed.undelegation h e.staker e.delegator e.amount
  have hT : Tied (performUndelegation w e.staker e.delegator e.amount).s := h.tied.performOp e.staker rfl _
  refine ⟨hT.of_eq rfl (fun _ => rfl), h.par,
    (h.idx.performOp e.staker (.undelegate e.delegator e.amount) e.delegator).of_eq rfl (fun _ h => h) (fun _ => rfl), ?_⟩
  have hh : (Delegation.payEntry w now i e).s.halted = false →
      (performUndelegation w e.staker e.delegator e.amount).s.halted = false ∧
      ∃ b, entryTransfer w e = .ok b ∧ (Delegation.payEntry w now i e).b = b := by
    intro h0
    have h0' : ((performUndelegation w e.staker e.delegator e.amount).s.halted || Bank.failed (entryTransfer w e)) = false := h0
    rw [Bool.or_eq_false_iff] at h0'
    refine ⟨h0'.1, ?_⟩
    cases hr : entryTransfer w e with
    | error x => rw [hr] at h0'; exact absurd h0'.2 (by simp [Bank.failed])
    | ok b =>
      refine ⟨b, rfl, ?_⟩
      unfold Delegation.payEntry
      rw [hr]; rfl
  refine hB.of_amt (fun h0 => (hh h0).1) rfl (fun _ => rfl) 0 ?_
  intro h0 d
  obtain ⟨_, b, hb, eb⟩ := hh h0
  rw [eb]
  have hs := Bank.send_ok hb
  have hle := hs.1 d
  have hs := hs.2 (.mod .delegation) d
  rw [if_pos rfl, if_neg (by simp), amt_single_kyve] at hs
  rw [amt_single_kyve] at hle
  unfold entryPays at hs hle
  rw [hs]
  by_cases hd : d = kyve
  · simp only [hd, if_true] at *; omega
  · simp only [hd, if_false] at *; omega

theorem WInv.queueRound {w w' : World} (h : WInv w) {now : Nat} (hr : queueRound w now = some w') : WInv w' := by
  unfold Delegation.queueRound at hr
  split at hr
  · split at hr
    · injection hr with hr; subst hr; exact h.of_eq rfl (fun _ => rfl) rfl rfl rfl rfl
    · cases hr
  · split at hr
    · injection hr with hr; subst hr; exact h.payEntry now _ _
    · cases hr

theorem WInv.queueLoop {w : World} (h : WInv w) (now fuel : Nat) : WInv (queueLoop now fuel w) := by
  induction fuel generalizing w with
  | zero => exact h
  | succ n ih =>
    unfold Delegation.queueLoop
    split
    · exact h
    · rename_i w' hr; exact ih (h.queueRound hr)

theorem WInv.initMem {w : World} (h : WInv w) : WInv ⟨initMemStore w.s, w.b⟩ := by
  obtain ⟨e1, e2, e3, e4, _, _, _, _, e9⟩ :=
    f1_foldl_setIndex (w.s.f1.keys.filter (fun st => (w.s.at st).data.isSome)) { w.s with index := ∅ }
  refine ⟨h.tied.of_eq e1 (fun st => by rw [show (initMemStore w.s).trace = w.s.trace from e2]), ?_, initMem_idx w.s, ?_⟩
  · show (initMemStore w.s).params.validate = true
    rw [show (initMemStore w.s).params = w.s.params from e4]; exact h.par
  · refine h.backed.of_eq (fun h0 => ?_) e1 (fun st => by rw [show (initMemStore w.s).trace = w.s.trace from e2]) rfl
      e9
    rw [← show (initMemStore w.s).halted = w.s.halted from e3]; exact h0

theorem validate_payload {y : ParamsPayload} {p : Params} (h1 : (y.apply .default).validate = true)
    (h2 : p.validate = true) : (y.apply p).validate = true := by
  unfold Params.validate ParamsPayload.apply at *
  simp only [Bool.and_eq_true, decide_eq_true_eq] at *
  obtain ⟨⟨a1, a2⟩, a3⟩ := h1
  obtain ⟨⟨b1, b2⟩, b3⟩ := h2
  refine ⟨⟨?_, ?_⟩, ?_⟩
  · cases hy : y.voteSlash <;> rw [hy] at a1 <;> simp_all
  · cases hy : y.uploadSlash <;> rw [hy] at a2 <;> simp_all
  · cases hy : y.timeoutSlash <;> rw [hy] at a3 <;> simp_all

theorem WInv.orElse {w : World} (h : WInv w) (r : Except String World) (hr : ∀ w', r = .ok w' → WInv w') :
    WInv (Delegation.orElse w r) := by
  cases r with
  | error e => exact h
  | ok w' => exact hr w' rfl

theorem WInv.init (p : Params) (b : Bank) (now : Nat) (hp : p.validate = true) : WInv (Sys.init p b now).w := by
  refine ⟨⟨fun _ => rfl, fun _ _ => rfl, fun _ => .init⟩, hp, ⟨fun st h => ?_, fun k st h => ?_⟩, ?_⟩
  · cases h
  · simp [Sys.init] at h
  · intro _ d
    simp [Sys.init, totalAll, inAll, outAll]

theorem Sys.Reachable.winv {gov : Addr} {y : Sys} (h : Sys.Reachable gov y) : WInv y.w := by
  induction h with
  | init p b now hp => exact WInv.init p b now hp
  | @step y a _ hc ih =>
    cases a with
    | delegate ex c st n => exact ih.orElse _ (fun _ h => ih.delegate h)
    | redelegate ex ac m => exact ih.orElse _ (fun _ h => ih.redelegate h)
    | undelegate c st n =>
      refine ih.orElse _ (fun w' h => ?_)
      unfold undelegateMsg at h
      split at h
      · cases h
      · injection h with h; subst h; exact ih.of_eq rfl (fun _ => rfl) rfl rfl rfl rfl
    | withdraw c st => exact ih.orElse _ (fun _ h => ih.withdraw h)
    | updateParams a p =>
      refine ih.orElse _ (fun w' h => ?_)
      unfold Delegation.updateParams at h
      split at h
      · cases h
      · rename_i hv
        split at h
        · cases h
        · injection h with h
          subst h
          exact ⟨ih.tied.of_eq rfl (fun _ => rfl), validate_payload (by simpa using hv) ih.par,
            ih.idx.of_eq rfl (fun _ h => h) (fun _ => rfl), ih.backed.of_eq (fun h => h) rfl (fun _ => rfl) rfl⟩
    | payout st c => exact ih.orElse _ (fun _ h => ih.payout h)
    | slash st t => exact ih.slash st t hc
    | beginBlock dt r =>
      show WInv (Delegation.beginBlock y.w (y.now + dt) r)
      unfold Delegation.beginBlock processQueue
      cases r with
      | false => exact ih.queueLoop _ _
      | true => exact ih.initMem.queueLoop _ _
    | external b g =>
      refine ⟨ih.tied.of_eq rfl (fun _ => rfl), ih.par, ih.idx.of_eq rfl (fun _ h => h) (fun _ => rfl), ?_⟩
      intro h0 d
      have hB := ih.backed h0 d
      show (((y.w.b (.mod .delegation)).add g).amt d : Int) = (if d = kyve then (totalAll y.w.s : Int) + 0 else 0)
        + inAll y.w.s d + (y.w.s.gifts.add g).amt d - outAll y.w.s d
      rw [Coins.amt_add, Coins.amt_add]
      omega

end Verif.Delegation
