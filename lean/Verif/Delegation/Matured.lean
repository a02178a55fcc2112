import Verif.Delegation.Earned
import Verif.Delegation.QueueProps

/-!
# What a block pays for matured requests (C08)

The unbonding queue, processed as a whole: every delegator loses exactly the requested amounts (or all it has left) and gets
exactly what it lost, together with the rewards that processing its requests pays out.
-/

namespace Verif.Delegation
open Verif

/-- how much `a` asked to undelegate from `st` in the requests `l` -/
def asked (l : List QEntry) (st a : Addr) : Nat :=
  ((l.filter (fun e => e.staker = st ∧ e.delegator = a)).map (·.amount)).sum

/-! ## rewards after one's own undelegation -/

theorem payable_create_self {s : F1} (hi : F1Inv s) {w : Addr} (hw : s.dels.get? w = none) {n : Nat} (hn : n ≠ 0)
    (dn : Denom) : payable (createDelegator s w n) w dn = 0 := by
  have hi' := hi.create (n := n) hw
  have hx' : (createDelegator s w n).dels.get? w = some ⟨n, (s.data.getD Data.fresh).latest + 1⟩ := by
    unfold createDelegator; rw [if_neg hn]; exact (Map.get?_set _ _ _ _).trans (if_pos rfl)
  have hs' : (createDelegator s w n).slashes = s.slashes := by unfold createDelegator; rw [if_neg hn]
  obtain ⟨d', hd'⟩ : ∃ d', d' = { newData (s.data.getD Data.fresh) with
      total := (s.data.getD Data.fresh).total + n, count := (s.data.getD Data.fresh).count + 1 } := ⟨_, rfl⟩
  have hd : (createDelegator s w n).data = some d' := by
    unfold createDelegator; rw [if_neg hn, hd']
  have hl : d'.latest = (s.data.getD Data.fresh).latest + 1 := by rw [hd']; rfl
  have hc : d'.cur = Coins.zero := by rw [hd']; rfl
  rw [payable_eq hd (hi'.dsome _ hd) hx']
  have e : slashesBetween (createDelegator s w n).slashes ((s.data.getD Data.fresh).latest + 1) d'.latest = [] := by
    rw [hs']
    refine slashesBetween_empty ?_
    intro j q hj
    cases hd0 : s.data with
    | none =>
      rw [(hi.dnone hd0).2.2] at hj; cases hj
    | some d0 =>
      have := (hi.dsome d0 hd0).slash_le j q hj
      simp only [Option.getD_some]
      omega
  rw [e]
  have e2 : topN (createDelegator s w n) d' dn = entN (createDelegator s w n).entries dn ((s.data.getD Data.fresh).latest + 1) := by
    unfold topN
    rw [hc, periodQuo_zero, hl]
    simp
  simp only [evalN, e2, Nat.sub_self]
  simp [Dec.mul, Dec.trunc, Dec.chop]

theorem payable_undelegate_self {s : F1} (hi : F1Inv s) (w : Addr) (n : Nat) (dn : Denom) :
    payable (undelegate s w n).1 w dn = 0 := by
  show payable (undelegateRest (remove (withdraw s w).1 w).1 w n _) w dn = 0
  unfold undelegateRest
  split
  · rename_i hlt
    exact payable_create_self ((hi.withdraw w).remove w) (remove_get? _ w) (by omega) dn
  · exact payable_none (remove_get? _ w) dn

/-! ## the queue -/

theorem sum_single {T : List Addr} (hT : T.Nodup) {s : Addr} (hs : s ∈ T) (f : Addr → Nat) (h : ∀ x, x ≠ s → f x = 0) :
    (T.map f).sum = f s := by
  induction T with
  | nil => cases hs
  | cons y T ih =>
    rw [List.nodup_cons] at hT
    rw [List.map_cons, List.sum_cons]
    by_cases e : y = s
    · subst e
      have : (T.map f).sum = 0 := by
        rw [List.sum_eq_zero_iff_forall_eq_nat]
        intro n hn
        obtain ⟨x, hx, rfl⟩ := List.mem_map.1 hn
        exact h x (fun e => hT.1 (e ▸ hx))
      rw [this]; rfl
    · rw [h y e, ih hT.2 ((List.mem_cons.1 hs).resolve_left (fun x => e x.symm)), Nat.zero_add]

theorem sum_zero (T : List Addr) (f : Addr → Nat) (h : ∀ x, f x = 0) : (T.map f).sum = 0 := by
  induction T with
  | nil => rfl
  | cons y T ih => rw [List.map_cons, List.sum_cons, h, ih]

theorem sum_add (T : List Addr) (f g k : Addr → Nat) (h : ∀ x, f x + g x = k x) :
    (T.map f).sum + (T.map g).sum = (T.map k).sum := by
  induction T with
  | nil => rfl
  | cons y T ih =>
    simp only [List.map_cons, List.sum_cons]
    have := h y
    omega

/-- what `a` got out of staker `st` between two states: the delegation it lost and the rewards it no longer has -/
def got (w w' : World) (a : Addr) (d : Denom) (st : Addr) : Nat :=
  (if d = kyve then curDel (w.s.at st) a - curDel (w'.s.at st) a else 0) +
    (payable (w.s.at st) a d - payable (w'.s.at st) a d)

/-- the requests `l` were paid -/
structure Settled (l : List QEntry) (w w' : World) : Prop where
  cur : ∀ st a, curDel (w'.s.at st) a = curDel (w.s.at st) a - asked l st a
  paid : ∀ st a d, (∃ e ∈ l, e.staker = st ∧ e.delegator = a) → payable (w'.s.at st) a d = 0
  same : ∀ st a d, (¬ ∃ e ∈ l, e.staker = st ∧ e.delegator = a) → payable (w'.s.at st) a d = payable (w.s.at st) a d
  user : ∀ a d (T : List Addr), T.Nodup → (∀ e ∈ l, e.delegator = a → e.staker ∈ T) →
    (w'.b (.user a)).amt d = (w.b (.user a)).amt d + (T.map (got w w' a d)).sum
  other : ∀ x, x ≠ .mod .delegation → (∀ a, x ≠ .user a) → w'.b x = w.b x

theorem Settled.refl (w : World) : Settled [] w w := by
  refine ⟨fun st a => by simp [asked], fun st a d ⟨e, he, _⟩ => (by cases he), fun _ _ _ _ => rfl, fun a d T _ _ => ?_, fun _ _ _ => rfl⟩
  rw [sum_zero T _ (fun x => by simp [got])]; rfl

theorem Settled.trans {l l' : List QEntry} {w w' w'' : World} (h : Settled l w w') (h' : Settled l' w' w'') :
    Settled (l ++ l') w w'' := by
  have hle : ∀ st a d, payable (w'.s.at st) a d ≤ payable (w.s.at st) a d := by
    intro st a d
    by_cases hc : ∃ e ∈ l, e.staker = st ∧ e.delegator = a
    · rw [h.paid st a d hc]; exact Nat.zero_le _
    · rw [h.same st a d hc]
  have hle' : ∀ st a d, payable (w''.s.at st) a d ≤ payable (w'.s.at st) a d := by
    intro st a d
    by_cases hc : ∃ e ∈ l', e.staker = st ∧ e.delegator = a
    · rw [h'.paid st a d hc]; exact Nat.zero_le _
    · rw [h'.same st a d hc]
  refine ⟨fun st a => ?_, fun st a d => ?_, fun st a d hn => ?_, fun a d T hT hm => ?_, fun x h1 h2 => ?_⟩
  · rw [h'.cur, h.cur]
    have : asked (l ++ l') st a = asked l st a + asked l' st a := by simp [asked]
    omega
  · rintro ⟨e, he, h1⟩
    rcases List.mem_append.1 he with he | he
    · have := hle' st a d
      rw [h.paid st a d ⟨e, he, h1⟩] at this
      exact Nat.le_zero.1 this
    · exact h'.paid st a d ⟨e, he, h1⟩
  · rw [h'.same st a d (fun ⟨e, he, h1⟩ => hn ⟨e, List.mem_append_right _ he, h1⟩),
      h.same st a d (fun ⟨e, he, h1⟩ => hn ⟨e, List.mem_append_left _ he, h1⟩)]
  · rw [h'.user a d T hT (fun e he => hm e (List.mem_append_right _ he)),
      h.user a d T hT (fun e he => hm e (List.mem_append_left _ he)), Nat.add_assoc]
    congr 1
    refine sum_add T _ _ _ (fun st => ?_)
    have h1 := h.cur st a
    have h2 := h'.cur st a
    have h3 := hle st a d
    have h4 := hle' st a d
    unfold got
    split <;> omega
  · rw [h'.other x h1 h2, h.other x h1 h2]

theorem asked_one (e : QEntry) (st a : Addr) :
    asked [e] st a = if st = e.staker ∧ a = e.delegator then e.amount else 0 := by
  unfold asked
  by_cases h : e.staker = st ∧ e.delegator = a
  · rw [List.filter_cons_of_pos (by simpa using h), if_pos ⟨h.1.symm, h.2.symm⟩]; simp
  · rw [List.filter_cons_of_neg (by simpa using h), if_neg (fun x => h ⟨x.1.symm, x.2.symm⟩)]; rfl

theorem Settled.entry {w : World} (h : WInv w) (t i : Nat) (e : QEntry) (hh : (payEntry w t i e).s.halted = false) :
    Settled [e] w (payEntry w t i e) := by
  obtain ⟨h1, -, h3⟩ := unbond_spec h t i e
  have h3 := h3 hh
  have hat : ∀ y, (payEntry w t i e).s.at y
      = if y = e.staker then f1Step (w.s.at e.staker) (.undelegate e.delegator e.amount) else w.s.at y :=
    fun y => at_applyIndexed _ _ _ _
  have hcur : ∀ st a, curDel ((payEntry w t i e).s.at st) a = curDel (w.s.at st) a - asked [e] st a := by
    intro st a
    have := h1 st a
    rw [asked_one]
    split at this
    · rename_i hc
      rw [if_pos hc]
      obtain ⟨rfl, rfl⟩ := hc
      omega
    · rename_i hc
      rw [if_neg hc]
      omega
  have hpaid : ∀ d, payable ((payEntry w t i e).s.at e.staker) e.delegator d = 0 := by
    intro d
    rw [hat, if_pos rfl]
    exact payable_undelegate_self (h.tied.f1inv e.staker) e.delegator e.amount d
  have hsame : ∀ st a d, ¬ (st = e.staker ∧ a = e.delegator) →
      payable ((payEntry w t i e).s.at st) a d = payable (w.s.at st) a d := by
    intro st a d hn
    rw [hat]
    split
    · rename_i hs
      subst hs
      refine (payable_step (h.tied.f1inv e.staker) (.undelegate e.delegator e.amount) (by rintro q ⟨⟩) a ?_ d).2
        (by rintro c ⟨⟩)
      intro he
      injection he with he
      exact hn ⟨rfl, he.symm⟩
    · rfl
  refine ⟨hcur, ?_, ?_, ?_, ?_⟩
  · rintro st a d ⟨e', he', rfl, rfl⟩
    rw [List.mem_singleton] at he'
    subst he'
    exact hpaid d
  · intro st a d hn
    exact hsame st a d (fun ⟨x, y⟩ => hn ⟨e, List.mem_singleton_self _, x.symm, y.symm⟩)
  · intro a d T hT hm
    obtain ⟨x, hx, -, h5, h6⟩ := h3 d
    by_cases ha : a = e.delegator
    · subst ha
      rw [h5]
      congr 1
      rw [sum_single hT (hm e (List.mem_singleton_self _) rfl)]
      · have h7 := hcur e.staker e.delegator
        rw [asked_one, if_pos (And.intro rfl rfl)] at h7
        unfold got
        rw [hpaid, h7, hx]
        show _ + payable (w.s.at e.staker) e.delegator d = _
        split <;> omega
      · intro st hst
        have h7 := hcur st e.delegator
        rw [asked_one, if_neg (fun x => hst x.1)] at h7
        unfold got
        rw [h7, hsame st _ d (fun x => hst x.1)]
        simp
    · rw [h6 (.user a) (by rintro ⟨⟩) (by rintro ⟨⟩; exact ha rfl), sum_zero]
      · rfl
      · intro st
        have h7 := hcur st a
        rw [asked_one, if_neg (fun x => ha x.2)] at h7
        unfold got
        rw [h7, hsame st _ d (fun x => ha x.2)]
        simp
  · intro x hx hu
    refine Coins.ext (fun d => ?_)
    obtain ⟨_, _, _, _, h6⟩ := h3 d
    exact h6 x hx (hu _)

theorem payEntry_halted {w : World} {t i : Nat} {e : QEntry} (h : (payEntry w t i e).s.halted = false) :
    w.s.halted = false := by
  have hh' : ((performUndelegation w e.staker e.delegator e.amount).s.halted
      || Bank.failed (entryTransfer w e)) = false := h
  rw [Bool.or_eq_false_iff] at hh'
  exact (performOp_halted hh'.1).1

theorem queueLoop_halted (t fuel : Nat) (w : World) (h : (queueLoop t fuel w).s.halted = false) : w.s.halted = false := by
  induction fuel generalizing w with
  | zero => exact h
  | succ n ih =>
    unfold Delegation.queueLoop at h
    split at h
    · exact h
    · rename_i w' hr
      have h1 := ih w' h
      unfold Delegation.queueRound at hr
      split at hr
      · split at hr
        · injection hr with hr; subst hr; exact h1
        · cases hr
      · split at hr
        · injection hr with hr; subst hr; exact payEntry_halted h1
        · cases hr

theorem settled_loop {now t : Nat} (fuel : Nat) {w : World} (h : QInv w.s now) (hw : WInv w) (hf : w.s.queue.size ≤ fuel)
    (hh : (queueLoop t fuel w).s.halted = false) :
    Settled ((w.s.queue.toList.takeWhile (fun p => due w.s.params t p.2)).map (·.2)) w (queueLoop t fuel w) := by
  induction fuel generalizing w with
  | zero =>
    have hz : w.s.queue = ∅ := Map.eq_empty_of_size _ (by omega)
    have : w.s.queue.toList = [] := by rw [hz]; rfl
    rw [this]
    exact Settled.refl w
  | succ n ih =>
    cases hq : w.s.queue.get? (w.s.low + 1) with
    | none =>
      have hl : w.s.queue.toList = [] := by
        cases hl : w.s.queue.toList with
        | nil => rfl
        | cons p l =>
          exfalso
          have hp : w.s.queue.get? p.1 = some p.2 := (Map.mem_iff _ p.1 p.2).1 (by rw [hl]; simp)
          have h1 := (h.dense p.1).1 (by rw [hp]; rfl)
          have h2 := (h.dense (w.s.low + 1)).2 (by omega)
          rw [hq] at h2; cases h2
      have hr : queueRound w t = none := by
        unfold queueRound
        rw [hq]
        simp only
        split
        · rename_i hlt
          exfalso
          have h2 := (h.dense (w.s.low + 1)).2 (by omega)
          rw [hq] at h2; cases h2
        · rfl
      have e : queueLoop t (n + 1) w = w := by
        show (match queueRound w t with | none => w | some w' => queueLoop t n w') = w
        rw [hr]
      rw [e, hl]
      exact Settled.refl w
    | some e =>
      by_cases hd : due w.s.params t e = true
      · have hr : queueRound w t = some (payEntry w t (w.s.low + 1) e) := by
          unfold queueRound; rw [hq]; simp only [hd, if_true]
        have e1 : queueLoop t (n + 1) w = queueLoop t n (payEntry w t (w.s.low + 1) e) := by
          show (match queueRound w t with | none => w | some w' => queueLoop t n w') = _
          rw [hr]
        rw [e1] at hh ⊢
        obtain ⟨hp, hl⟩ := h.pay (t := t) hq
        have hsz : (payEntry w t (w.s.low + 1) e).s.queue.size ≤ n := by
          have : w.s.queue.size = (payEntry w t (w.s.low + 1) e).s.queue.size + 1 := by
            unfold Map.size; rw [hl]; rfl
          omega
        have h2 := (Settled.entry hw t (w.s.low + 1) e (queueLoop_halted t n _ hh)).trans
          (ih hp (hw.payEntry t (w.s.low + 1) e) hsz hh)
        rw [hl, List.takeWhile_cons]
        simp only [hd, if_true]
        exact h2
      · have hr : queueRound w t = none := by
          unfold queueRound; rw [hq]; simp only [hd]; rfl
        have e1 : queueLoop t (n + 1) w = w := by
          show (match queueRound w t with | none => w | some w' => queueLoop t n w') = w
          rw [hr]
        rw [e1, (h.pay (t := t) hq).2, List.takeWhile_cons]
        simp only [hd]
        exact Settled.refl w

/-- the begin block as a whole -/
theorem settled_block {w : World} {now : Nat} (h : QInv' w.s now) (hw : WInv w) (r : Bool)
    (ho : now + w.s.params.unbonding < 2 ^ 64) (hh : (beginBlock w now r).s.halted = false) :
    Settled ((w.s.queue.toList.filter (fun p => decide (p.2.creation + w.s.params.unbonding ≤ now))).map (·.2)) w
      (beginBlock w now r) ∧
    (beginBlock w now r).s.queue.toList =
      w.s.queue.toList.filter (fun p => decide (now < p.2.creation + w.s.params.unbonding)) := by
  have h1 : QInv' (preQueue w r).s now := h.pre r
  obtain ⟨e1, e2, e3, e4, e5, _⟩ := preQueue_eq w r
  have hw1 : WInv (preQueue w r) := by
    unfold preQueue; split
    · exact hw.initMem
    · exact hw
  have hfuel := Nat.le_add_left (preQueue w r).s.queue.size ((preQueue w r).s.high - (preQueue w r).s.low)
  have htw := takeWhile_due h1.inv (le_refl _) (by rw [e5]; exact ho)
  rw [beginBlock_eq] at hh ⊢
  generalize (preQueue w r).s.high - (preQueue w r).s.low + (preQueue w r).s.queue.size = N at hh hfuel ⊢
  have hs := settled_loop _ h1.inv hw1 hfuel hh
  obtain ⟨_, _, _, _, _, _, hq, _, _⟩ := queueLoop_spec (now := now) (t := now) _ h1.inv hfuel
  rw [htw.1, e1, e5] at hs
  rw [htw.2, e1, e5] at hq
  refine ⟨?_, hq⟩
  have hf1 : (preQueue w r).s.f1 = w.s.f1 := by
    cases r with
    | false => rfl
    | true =>
      exact (f1_foldl_setIndex (w.s.f1.keys.filter (fun st => (w.s.at st).data.isSome)) { w.s with index := ∅ }).1
  have hat : ∀ st, (preQueue w r).s.at st = w.s.at st := fun st => by unfold State.at; rw [hf1]
  have hb : (preQueue w r).b = w.b := by cases r <;> rfl
  refine ⟨fun st a => by rw [hs.cur, hat], hs.paid, fun st a d hn => by rw [hs.same st a d hn, hat],
    fun a d T hT hm => ?_, fun x p q => by rw [hs.other x p q, hb]⟩
  rw [hs.user a d T hT hm, hb]
  congr 3
  funext st
  unfold got
  rw [hat]

end Verif.Delegation
