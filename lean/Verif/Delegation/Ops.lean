import Verif.Delegation.Spec

/-!
# Invariants of x/delegation (proofs)
-/

namespace Verif.Delegation
open Verif

/-! ## Sums over stakers -/

theorem sum_point {V : Type} (m : Map Addr V) (g g' : Addr → V → Nat) (k : Addr) (v : V)
    (h : ∀ j w, j ≠ k → g' j w = g j w) : (m.set k v).sum g' + m.at' g k = m.sum g + g' k v := by
  have h1 := m.sum_set g' k v
  have h2 := m.sum_del g k
  have h3 := m.sum_del g' k
  have h4 : (m.del k).sum g' = (m.del k).sum g := by
    apply Map.sum_congr
    intro j w hj
    apply h
    rintro rfl
    rw [Map.get?_del, if_pos rfl] at hj; cases hj
  omega

/-! ## The recorded ledger -/

/-- The store is what the recorded operations produce. -/
structure Tied (s : State) : Prop where
  at_eq : ∀ st, s.at st = (ledgerOf s.trace st).f1
  fresh : ∀ st, s.f1.get? st = none → ledgerOf s.trace st = Ledger.init
  reach : ∀ st, Ledger.Reachable (ledgerOf s.trace st)

theorem ledgerOf_f1 (t : List Event) (a st : Addr) (op : Op) :
    ledgerOf (.f1 a op :: t) st = if a = st then (ledgerOf t st).step op else ledgerOf t st := rfl

theorem at_apply (s : State) (a st : Addr) (op : Op) :
    (s.apply a op).at st = if st = a then f1Step (s.at a) op else s.at st := by
  unfold State.apply State.at
  simp only [Map.get?_set]
  split <;> simp_all

theorem Tied.apply {s : State} (h : Tied s) (a : Addr) (op : Op)
    (hq : ∀ q, op = .slash q → q ≤ Dec.one) (hd : ((ledgerOf s.trace a).step op).dust < Dec.one) :
    Tied (s.apply a op) := by
  refine ⟨?_, ?_, ?_⟩
  · intro st
    rw [at_apply]
    show _ = (ledgerOf (.f1 a op :: s.trace) st).f1
    rw [ledgerOf_f1]
    by_cases e : st = a
    · subst e; rw [if_pos rfl, if_pos rfl, h.at_eq]; rfl
    · rw [if_neg e, if_neg (fun e' => e e'.symm), h.at_eq]
  · intro st hst
    show ledgerOf (.f1 a op :: s.trace) st = _
    rw [ledgerOf_f1]
    have : (s.f1.set a (f1Step (s.at a) op)).get? st = none := hst
    rw [Map.get?_set] at this
    by_cases e : st = a
    · rw [if_pos e] at this; cases this
    · rw [if_neg e] at this
      rw [if_neg (fun e' => e e'.symm)]; exact h.fresh st this
  · intro st
    show Ledger.Reachable (ledgerOf (.f1 a op :: s.trace) st)
    rw [ledgerOf_f1]
    by_cases e : a = st
    · subst e
      rw [if_pos rfl]
      exact .step op (h.reach a) hq hd
    · rw [if_neg e]; exact h.reach st

/-- Changing other parts of the state. -/
theorem Tied.of_eq {s s' : State} (h : Tied s) (hf : s'.f1 = s.f1)
    (ht : ∀ st, ledgerOf s'.trace st = ledgerOf s.trace st) : Tied s' := by
  refine ⟨?_, ?_, ?_⟩
  · intro st; rw [ht, ← h.at_eq]; unfold State.at; rw [hf]
  · intro st; rw [ht, hf]; exact h.fresh st
  · intro st; rw [ht]; exact h.reach st

theorem Tied.calm {s : State} (h : Tied s) : Calm s := fun st => (h.reach st).rinv.2

theorem Tied.f1inv {s : State} (h : Tied s) (st : Addr) : F1Inv (s.at st) := by
  rw [h.at_eq]; exact (h.reach st).f1inv

/-- not a slash -/
def Op.mild : Op → Bool
  | .slash _ => false
  | _ => true

theorem Op.mild_ne {op : Op} (hm : op.mild = true) (q : Dec) : op ≠ .slash q := by
  rintro rfl; cases hm

theorem dust_mild (l : Ledger) {op : Op} (hm : op.mild = true) : (l.step op).dust = l.dust := by
  cases op <;> first | rfl | cases hm

theorem Tied.mild {s : State} (h : Tied s) (a : Addr) {op : Op} (hm : op.mild = true) : Tied (s.apply a op) :=
  h.apply a op (fun q e => absurd e (Op.mild_ne hm q)) (by rw [dust_mild _ hm]; exact h.calm a)

theorem at_removeIndex (s : State) (a st : Addr) : (s.removeIndex a).at st = s.at st := rfl
theorem at_setIndex (s : State) (a st : Addr) : (s.setIndex a).at st = s.at st := rfl

theorem at_applyIndexed (s : State) (a st : Addr) (op : Op) :
    (s.applyIndexed a op).at st = if st = a then f1Step (s.at a) op else s.at st := by
  unfold State.applyIndexed
  rw [at_setIndex, at_apply]; rfl

theorem Tied.applyIndexed {s : State} (h : Tied s) (a : Addr) (op : Op)
    (hq : ∀ q, op = .slash q → q ≤ Dec.one) (hd : ((ledgerOf s.trace a).step op).dust < Dec.one) :
    Tied (s.applyIndexed a op) := by
  have h1 : Tied (s.removeIndex a) := h.of_eq rfl (fun _ => rfl)
  exact (h1.apply a op hq hd).of_eq rfl (fun _ => rfl)

theorem Tied.mildIndexed {s : State} (h : Tied s) (a : Addr) {op : Op} (hm : op.mild = true) :
    Tied (s.applyIndexed a op) :=
  h.applyIndexed a op (fun q e => absurd e (Op.mild_ne hm q)) (by rw [dust_mild _ hm]; exact h.calm a)

/-! ## What F1 operations do to the total -/

theorem undelegated_eq {f : F1} (h : F1Inv f) (who : Addr) (n : Nat) :
    undelegated f who n = min n (curDel f who) := by
  have e : (remove (withdraw f who).1 who).2 = curDel f who := by
    rw [remove_snd, balance_withdraw h, if_pos rfl, Dec.trunc_ofNat, curDel_eq]
  unfold undelegated
  rw [e]
  split <;> omega

theorem Tied.total {s : State} (h : Tied s) (st : Addr) : s.amount st = (ledgerOf s.trace st).ideal.total := by
  obtain ⟨hr, _⟩ := (h.reach st).rinv
  unfold State.amount
  rw [h.at_eq st, hr.total]
  rfl

theorem Tied.stake {s : State} (h : Tied s) (st who : Addr) :
    curDel (s.at st) who = Dec.trunc ((ledgerOf s.trace st).ideal.stake who) := by
  rw [h.at_eq]; exact (C05_eager (h.reach st)).1 who

/-- the total delegation after an operation -/
def opTotal (f : F1) (total : Nat) : Op → Nat
  | .delegate _ n => total + n
  | .undelegate who n => total - undelegated f who n
  | .slash q => total - (slash f q).2
  | _ => total

theorem slash_snd (f : F1) (q : Dec) : (slash f q).2 = f.d.total * q / Dec.one := by
  unfold slash
  cases hdd : f.data with
  | none => simp [F1.d, hdd, Data.fresh]
  | some d => simp [F1.d, hdd, slashedAmount_eq]

theorem Tied.total_apply {s : State} (h : Tied s) (a : Addr) (op : Op)
    (hq : ∀ q, op = .slash q → q ≤ Dec.one) (hd : ((ledgerOf s.trace a).step op).dust < Dec.one) (st : Addr) :
    (s.apply a op).amount st = if st = a then opTotal (s.at a) (s.amount a) op else s.amount st := by
  have h' := h.apply a op hq hd
  rw [h'.total]
  show (ledgerOf (.f1 a op :: s.trace) st).ideal.total = _
  rw [ledgerOf_f1]
  by_cases e : st = a
  · subst e
    rw [if_pos rfl, if_pos rfl, h.total]
    have hs := fun who => h.stake st who
    have hi := h.f1inv st
    have ht := h.total st
    cases op with
    | delegate w n => rfl
    | undelegate w n =>
      show _ - min n _ = _ - undelegated _ _ _
      rw [undelegated_eq hi, hs]
    | withdraw w => rfl
    | slash q =>
      show _ - _ * q / Dec.one = _ - (slash (s.at st) q).2
      rw [slash_snd, ← ht]; rfl
    | payout c => rfl
  · rw [if_neg e, if_neg (fun e' => e e'.symm), h.total]

theorem undelegated_le_total {s : State} (h : Tied s) (a who : Addr) (n : Nat) :
    undelegated (s.at a) who n ≤ s.amount a := by
  rw [undelegated_eq (h.f1inv a)]
  have := (C02_total (h.reach a)).2.1 who
  rw [← h.at_eq] at this
  have e : s.amount a = (s.at a).d.total := rfl
  omega

/-! ## The bank -/

/-- sum of the total delegations of all stakers -/
def totalAll (s : State) : Nat := s.f1.sum (fun _ f => f.d.total)
/-- sum of all rewards accepted, of one coin -/
def inAll (s : State) (d : Denom) : Nat := s.f1.sum (fun st _ => (ledgerOf s.trace st).paidIn d)
/-- sum of all rewards paid to delegators, of one coin -/
def outAll (s : State) (d : Denom) : Nat := s.f1.sum (fun st _ => (ledgerOf s.trace st).paidOut d)

theorem totalAll_apply {s : State} (a : Addr) (op : Op) :
    totalAll (s.apply a op) + s.amount a = totalAll s + (s.apply a op).amount a := by
  have h := sum_point s.f1 (fun _ f => f.d.total) (fun _ f => f.d.total) a (f1Step (s.at a) op) (fun _ _ _ => rfl)
  have e1 : s.f1.at' (fun _ f => f.d.total) a = s.amount a := by
    unfold Map.at' State.amount State.at
    cases s.f1.get? a <;> rfl
  have e2 : (s.apply a op).amount a = (f1Step (s.at a) op).d.total := by
    unfold State.amount
    rw [at_apply, if_pos rfl]; rfl
  rw [e1] at h
  rw [e2]
  exact h

theorem inAll_apply {s : State} (h : Tied s) (a : Addr) (op : Op) (d : Denom) :
    inAll (s.apply a op) d = inAll s d + (ledgerOf s.trace a).ideal.paysIn op d := by
  have h1 := sum_point s.f1 (fun st _ => (ledgerOf s.trace st).paidIn d)
    (fun st _ => (ledgerOf (.f1 a op :: s.trace) st).paidIn d) a (f1Step (s.at a) op)
    (fun j _ hj => by rw [ledgerOf_f1, if_neg (fun e => hj e.symm)])
  have e1 : s.f1.at' (fun st _ => (ledgerOf s.trace st).paidIn d) a = (ledgerOf s.trace a).paidIn d := by
    unfold Map.at'
    cases hh : s.f1.get? a with
    | none => rw [h.fresh a hh]; rfl
    | some f => rfl
  rw [e1] at h1
  have e2 : (ledgerOf (.f1 a op :: s.trace) a).paidIn d
      = (ledgerOf s.trace a).paidIn d + (ledgerOf s.trace a).ideal.paysIn op d := by
    rw [ledgerOf_f1, if_pos rfl]; rfl
  rw [e2] at h1
  show (s.f1.set a (f1Step (s.at a) op)).sum (fun st _ => (ledgerOf (.f1 a op :: s.trace) st).paidIn d) = _
  unfold inAll
  omega

theorem outAll_apply {s : State} (h : Tied s) (a : Addr) (op : Op) (d : Denom) :
    outAll (s.apply a op) d = outAll s d + (f1Reward (s.at a) op).amt d := by
  have h1 := sum_point s.f1 (fun st _ => (ledgerOf s.trace st).paidOut d)
    (fun st _ => (ledgerOf (.f1 a op :: s.trace) st).paidOut d) a (f1Step (s.at a) op)
    (fun j _ hj => by rw [ledgerOf_f1, if_neg (fun e => hj e.symm)])
  have e1 : s.f1.at' (fun st _ => (ledgerOf s.trace st).paidOut d) a = (ledgerOf s.trace a).paidOut d := by
    unfold Map.at'
    cases hh : s.f1.get? a with
    | none => rw [h.fresh a hh]; rfl
    | some f => rfl
  rw [e1] at h1
  have e2 : (ledgerOf (.f1 a op :: s.trace) a).paidOut d
      = (ledgerOf s.trace a).paidOut d + (f1Reward (s.at a) op).amt d := by
    rw [ledgerOf_f1, if_pos rfl, h.at_eq]; rfl
  rw [e2] at h1
  show (s.f1.set a (f1Step (s.at a) op)).sum (fun st _ => (ledgerOf (.f1 a op :: s.trace) st).paidOut d) = _
  unfold outAll
  omega

/-- The module account holds all delegations plus `x`, plus rewards in, minus rewards out. -/
def Backed (w : World) (x : Int) : Prop :=
  w.s.halted = false → ∀ d, ((w.b (.mod .delegation)).amt d : Int) =
    (if d = kyve then (totalAll w.s : Int) + x else 0) + inAll w.s d + w.s.gifts.amt d - outAll w.s d

theorem Backed.of_eq {w w' : World} {x : Int} (h : Backed w x)
    (hh : w'.s.halted = false → w.s.halted = false)
    (hf : w'.s.f1 = w.s.f1) (ht : ∀ st, ledgerOf w'.s.trace st = ledgerOf w.s.trace st)
    (hb : w'.b (.mod .delegation) = w.b (.mod .delegation)) (hg : w'.s.gifts = w.s.gifts := by rfl) : Backed w' x := by
  intro h0 d
  have := h (hh h0) d
  rw [hb, this]
  unfold totalAll inAll outAll
  simp only [hf, ht, hg]

theorem performOp_halted {w : World} {st : Addr} {op : Op} {who : Addr}
    (h : (performOp w st op who).s.halted = false) :
    w.s.halted = false ∧ ∃ b, rewardTransfer w st op who = .ok b ∧ (performOp w st op who).b = b := by
  have h' : (w.s.halted || Bank.failed (rewardTransfer w st op who)) = false := h
  rw [Bool.or_eq_false_iff] at h'
  refine ⟨h'.1, ?_⟩
  cases hr : rewardTransfer w st op who with
  | error e => rw [hr] at h'; exact absurd h'.2 (by simp [Bank.failed])
  | ok b =>
    refine ⟨b, rfl, ?_⟩
    unfold performOp
    rw [hr]; rfl

theorem inAll_applyIndexed {s : State} (h : Tied s) (a : Addr) (op : Op) (d : Denom) :
    inAll (s.applyIndexed a op) d = inAll s d + (ledgerOf s.trace a).ideal.paysIn op d :=
  inAll_apply (s := s.removeIndex a) (h.of_eq rfl (fun _ => rfl)) a op d

theorem outAll_applyIndexed {s : State} (h : Tied s) (a : Addr) (op : Op) (d : Denom) :
    outAll (s.applyIndexed a op) d = outAll s d + (f1Reward (s.at a) op).amt d :=
  outAll_apply (s := s.removeIndex a) (h.of_eq rfl (fun _ => rfl)) a op d

theorem totalAll_applyIndexed {s : State} (a : Addr) (op : Op) :
    totalAll (s.applyIndexed a op) + s.amount a = totalAll s + (s.applyIndexed a op).amount a :=
  totalAll_apply (s := s.removeIndex a) a op

theorem amount_applyIndexed {s : State} (h : Tied s) (a : Addr) (op : Op)
    (hq : ∀ q, op = .slash q → q ≤ Dec.one) (hd : ((ledgerOf s.trace a).step op).dust < Dec.one) (st : Addr) :
    (s.applyIndexed a op).amount st = if st = a then opTotal (s.at a) (s.amount a) op else s.amount st :=
  Tied.total_apply (s := s.removeIndex a) (h.of_eq rfl (fun _ => rfl)) a op hq hd st

theorem Backed.performOp {w : World} {x : Int} (h : Backed w x) (ht : Tied w.s) (st : Addr) {op : Op}
    (hm : op.mild = true) (hp : ∀ i d, Ideal.paysIn i op d = 0) (who : Addr) :
    Backed (performOp w st op who)
      (x + w.s.amount st - opTotal (w.s.at st) (w.s.amount st) op) := by
  intro h0 d
  obtain ⟨h1, b, hb, e⟩ := performOp_halted h0
  have hB := h h1 d
  rw [e]
  have hs := (Bank.send_ok hb)
  have hle := hs.1 d
  have hs := hs.2 (.mod .delegation) d
  have e1 : inAll (Delegation.performOp w st op who).s d = inAll w.s d := by
    have := inAll_applyIndexed ht st op d
    rw [hp] at this
    exact this
  have e2 : outAll (Delegation.performOp w st op who).s d = outAll w.s d + (f1Reward (w.s.at st) op).amt d :=
    outAll_applyIndexed ht st op d
  have e3 : totalAll (Delegation.performOp w st op who).s + w.s.amount st
      = totalAll w.s + opTotal (w.s.at st) (w.s.amount st) op := by
    have h3 := totalAll_applyIndexed (s := w.s) st op
    rw [amount_applyIndexed ht st op (fun q e => absurd e (Op.mild_ne hm q))
      (by rw [dust_mild _ hm]; exact ht.calm st) st, if_pos rfl] at h3
    exact h3
  have e4 : (Delegation.performOp w st op who).s.gifts = w.s.gifts := rfl
  rw [e1, e2, hs, e4]
  simp only [if_pos, reduceCtorEq, if_false] at *
  by_cases hd : d = kyve
  · simp only [hd, if_true] at *; omega
  · simp only [hd, if_false] at *; omega

end Verif.Delegation
