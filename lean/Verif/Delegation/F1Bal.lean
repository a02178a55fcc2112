import Verif.Delegation.F1Inv

/-!
# Balances and totals: the lazily computed delegations are the eager stakes
-/

namespace Verif.Delegation

open Verif

theorem DInv.slash_le {s : F1} {d : Data} (h : DInv s d) : ∀ j q, s.slashes.get? j = some q → j ≤ d.latest :=
  fun j q hj => (h.sent j q hj).1

/-- Starting a period does not change a balance. -/
theorem DInv.balUpTo_succ {s : F1} {d : Data} (h : DInv s d) (x : Del) :
    balUpTo s.slashes x (d.latest + 1) = balUpTo s.slashes x d.latest := by
  unfold balUpTo
  rw [slashesBetween_hi (Nat.le_succ _) h.slash_le]

/-- The balance of a record created in a fresh period. -/
theorem DInv.balUpTo_new {s : F1} {d : Data} (h : DInv s d) (n : Nat) :
    balUpTo s.slashes ⟨n, d.latest + 1⟩ (d.latest + 1) = Dec.ofNat n := by
  unfold balUpTo
  rw [slashesBetween_empty (fun j q hj => by have := h.slash_le j q hj; simp only; omega)]
  rfl

theorem balance_create {s : F1} (h : F1Inv s) {w : Addr} (hw : s.dels.get? w = none) (n : Nat) (a : Addr) :
    balance (createDelegator s w n) a = if a = w then Dec.ofNat n else balance s a := by
  unfold createDelegator
  split
  · rename_i hn
    subst hn
    split
    · rename_i ha
      subst ha
      rw [balance_none hw]; simp [Dec.ofNat]
    · rfl
  · have hd := h.dinv
    unfold balance
    simp only [Map.get?_set, Option.getD_some]
    by_cases ha : a = w
    · rw [if_pos ha, if_pos ha]
      exact hd.balUpTo_new n
    · rw [if_neg ha, if_neg ha]
      cases s.dels.get? a with
      | none => rfl
      | some x => exact hd.balUpTo_succ x

theorem balance_withdraw {s : F1} (h : F1Inv s) (w a : Addr) :
    balance (withdraw s w).1 a = if a = w then Dec.ofNat (Dec.trunc (balance s w)) else balance s a := by
  unfold withdraw
  cases hw : s.dels.get? w with
  | none =>
    simp only
    split
    · subst_vars; rw [balance_none hw]; simp [Dec.trunc, Dec.ofNat]
    · rfl
  | some x =>
    obtain ⟨d, hd⟩ := h.data_of_del hw
    have hD := h.dsome d hd
    simp only [hd, Option.getD_some, withdrawFound]
    rw [balance_some hw hd, hD.balUpTo_succ x]
    unfold balance
    simp only [Map.get?_set, Option.getD_some, newData, hd]
    by_cases ha : a = w
    · rw [if_pos ha, if_pos ha]
      exact hD.balUpTo_new _
    · rw [if_neg ha, if_neg ha]
      cases s.dels.get? a with
      | none => rfl
      | some y => exact hD.balUpTo_succ y

theorem balance_remove {s : F1} (h : F1Inv s) (w a : Addr) :
    balance (remove s w).1 a = if a = w then 0 else balance s a := by
  unfold remove
  cases hw : s.dels.get? w with
  | none =>
    simp only
    split
    · subst_vars; exact balance_none hw
    · rfl
  | some x =>
    obtain ⟨d, hd⟩ := h.data_of_del hw
    have hD := h.dsome d hd
    simp only [hd, Option.getD_some, removeFound]
    unfold balance
    simp only [Map.get?_del, Option.getD_some, newData, hd]
    by_cases ha : a = w
    · rw [if_pos ha, if_pos ha]
    · rw [if_neg ha, if_neg ha]
      cases s.dels.get? a with
      | none => rfl
      | some y => exact hD.balUpTo_succ y

theorem balance_slash {s : F1} (h : F1Inv s) (q : Dec) (a : Addr) :
    balance (slash s q).1 a = slashOne (balance s a) q := by
  unfold slash
  cases hd : s.data with
  | none =>
    have : s.dels.get? a = none := by rw [(h.dnone hd).1]; rfl
    simp only
    rw [balance_none this, slashOne_zero]
  | some d =>
    have hD := h.dsome d hd
    unfold balance
    simp only [Option.getD_some, newData, hd]
    cases ha : s.dels.get? a with
    | none => rw [slashOne_zero]
    | some x =>
      have hk := hD.klt a x ha
      simp only
      unfold balUpTo
      rw [slashesBetween_set (by omega) (fun j q hj => by have := hD.slash_le j q hj; omega),
        slashBal_append, slashesBetween_hi (Nat.le_succ _) hD.slash_le]

theorem balance_payout (s : F1) (c : Coins) (a : Addr) : balance (payout s c) a = balance s a := by
  unfold payout
  cases hd : s.data with
  | none => rfl
  | some d => unfold balance; simp only [Option.getD_some, hd]

/-! ## Totals -/

/-- the metadata, the zero value if there is none -/
def F1.d (s : F1) : Data := s.data.getD Data.fresh

theorem total_create (s : F1) (w : Addr) (n : Nat) : (createDelegator s w n).d.total = s.d.total + n := by
  unfold createDelegator
  split
  · subst_vars; rfl
  · rfl

theorem total_withdraw {s : F1} (h : F1Inv s) (w : Addr) : (withdraw s w).1.d.total = s.d.total := by
  unfold withdraw
  cases hw : s.dels.get? w with
  | none => rfl
  | some x =>
    obtain ⟨d, hd⟩ := h.data_of_del hw
    simp [hd, withdrawFound, F1.d, newData]

theorem remove_snd (s : F1) (w : Addr) : (remove s w).2 = Dec.trunc (balance s w) := by
  rw [← curDel_eq]
  unfold remove curDel
  cases s.dels.get? w <;> rfl

theorem total_remove {s : F1} (h : F1Inv s) (w : Addr) :
    (remove s w).1.d.total = s.d.total - Dec.trunc (balance s w) := by
  rw [← curDel_eq]
  unfold remove
  cases hw : s.dels.get? w with
  | none => simp [curDel, hw]
  | some x =>
    obtain ⟨d, hd⟩ := h.data_of_del hw
    simp [hd, removeFound, F1.d]

theorem slashedAmount_eq (t : Nat) (q : Dec) : slashedAmount t q = t * q / Dec.one := by
  unfold slashedAmount
  rw [Dec.ofNat_mul]; rfl

theorem total_slash (s : F1) (q : Dec) : (slash s q).1.d.total = s.d.total - s.d.total * q / Dec.one := by
  unfold slash
  cases hd : s.data with
  | none => simp [F1.d, hd, Data.fresh]
  | some d => simp [F1.d, hd, slashedAmount_eq]

theorem total_payout (s : F1) (c : Coins) : (payout s c).d.total = s.d.total := by
  unfold payout
  cases hd : s.data with
  | none => rfl
  | some d => simp [F1.d, hd]

theorem wrapped_create (s : F1) (w : Addr) (n : Nat) : (createDelegator s w n).wrapped = s.wrapped := by
  unfold createDelegator; split <;> rfl

theorem wrapped_withdraw (s : F1) (w : Addr) : (withdraw s w).1.wrapped = s.wrapped := by
  unfold withdraw; cases s.dels.get? w <;> rfl

theorem wrapped_remove {s : F1} (h : F1Inv s) (w : Addr) (hb : Dec.trunc (balance s w) ≤ s.d.total) :
    (remove s w).1.wrapped = s.wrapped := by
  rw [← curDel_eq] at hb
  unfold remove
  cases hw : s.dels.get? w with
  | none => rfl
  | some x =>
    obtain ⟨d, hd⟩ := h.data_of_del hw
    have hc := (h.dsome d hd).cnt
    have := Map.size_pos_of_get? _ hw
    simp [hd, F1.d] at hb ⊢
    unfold removeFound
    have h1 : decide (d.total < curDel s w) = false := by simp; omega
    have h2 : decide (d.count = 0) = false := by simp; omega
    simp [h1, h2]

theorem wrapped_slash (s : F1) {q : Dec} (hq : q ≤ Dec.one) : (slash s q).1.wrapped = s.wrapped := by
  unfold slash
  cases hd : s.data with
  | none => rfl
  | some d =>
    have : d.total * q / Dec.one ≤ d.total := Dec.mulTrunc_le_left (a := d.total) hq
    simp [slashedAmount_eq]
    omega

theorem wrapped_payout (s : F1) (c : Coins) : (payout s c).wrapped = s.wrapped := by
  unfold payout
  cases hd : s.data <;> rfl

/-! ## The sum of all balances -/

/-- The sum of the decimal balances of all delegators. -/
def balSum (s : F1) : Nat := s.dels.sum (fun w _ => balance s w)

theorem dels_create (s : F1) (w : Addr) (n : Nat) :
    (createDelegator s w n).dels = if n = 0 then s.dels else s.dels.set w ⟨n, s.d.latest + 1⟩ := by
  unfold createDelegator
  split
  · subst_vars; rfl
  · rfl

theorem balSum_create {s : F1} (h : F1Inv s) {w : Addr} (hw : s.dels.get? w = none) (n : Nat) :
    balSum (createDelegator s w n) = balSum s + Dec.ofNat n := by
  by_cases hn : n = 0
  · subst hn
    unfold createDelegator
    simp [Dec.ofNat]
  · unfold balSum
    rw [Map.sum_congr _ _ (fun a _ => if a = w then Dec.ofNat n else balance s a)
      (fun a _ _ => balance_create h hw n a), dels_create, if_neg hn, Map.sum_set_absent _ _ _ hw]
    rw [if_pos rfl, Map.sum_congr _ _ (fun a _ => balance s a)]
    intro a v ha
    have : a ≠ w := by rintro rfl; rw [hw] at ha; cases ha
    rw [if_neg this]

theorem sum_dels_del (s : F1) (f : Addr → Nat) (w : Addr) :
    (s.dels.del w).sum (fun a _ => f a) + (if (s.dels.get? w).isSome then f w else 0)
      = s.dels.sum (fun a _ => f a) := by
  have := s.dels.sum_del (fun a _ => f a) w
  unfold Map.at' at this
  cases hw : s.dels.get? w <;> simp [hw] at this ⊢ <;> omega

theorem dels_withdraw (s : F1) (w : Addr) :
    (s.dels.get? w = none ∧ (withdraw s w).1 = s) ∨
    ∃ x y, s.dels.get? w = some x ∧ (withdraw s w).1.dels = s.dels.set w y := by
  unfold withdraw
  cases hw : s.dels.get? w with
  | none => exact Or.inl ⟨rfl, rfl⟩
  | some x => exact Or.inr ⟨x, _, rfl, rfl⟩

theorem sum_dels_set {s : F1} (f : Addr → Nat) {w : Addr} {x : Del} (hw : s.dels.get? w = some x) (y : Del) :
    (s.dels.set w y).sum (fun a _ => f a) = s.dels.sum (fun a _ => f a) := by
  have := s.dels.sum_set (fun a _ => f a) w y
  unfold Map.at' at this
  simp [hw] at this
  omega

theorem balSum_withdraw {s : F1} (h : F1Inv s) (w : Addr) : balSum (withdraw s w).1 ≤ balSum s := by
  rcases dels_withdraw s w with ⟨_, e⟩ | ⟨x, y, hw, hy⟩
  · rw [e]
  · unfold balSum
    rw [hy]
    refine le_trans (Map.sum_le _ _ (fun a _ => balance s a) ?_) (le_of_eq (sum_dels_set _ hw y))
    intro a v _
    rw [balance_withdraw h]
    split
    · subst_vars; exact Dec.trunc_mul_le _
    · exact Nat.le_refl _

theorem dels_remove (s : F1) (w : Addr) : (remove s w).1.dels = s.dels.del w := by
  unfold remove
  cases hw : s.dels.get? w with
  | none => simp only; rw [Map.del_absent _ hw]
  | some x => rfl

theorem balSum_remove {s : F1} (h : F1Inv s) (w : Addr) : balSum (remove s w).1 + balance s w = balSum s := by
  unfold balSum
  rw [dels_remove, ← sum_dels_del s (balance s) w]
  congr 1
  · apply Map.sum_congr
    intro a v ha
    rw [balance_remove h, if_neg]
    rintro rfl
    rw [Map.get?_del_self] at ha; cases ha
  · cases hw : s.dels.get? w with
    | none => simp [balance_none hw]
    | some x => simp

theorem dels_slash (s : F1) (q : Dec) : (slash s q).1.dels = s.dels := by
  unfold slash; cases s.data <;> rfl

/-- The arithmetic of one slash for a single balance. -/
theorem slashOne_bound (b q one : Nat) (h0 : 0 < one) (hq : q ≤ one) :
    (b - b * q / one) * one + b * q ≤ b * one + one := by
  have h1 : b * q < (b * q / one + 1) * one := by
    have := Nat.lt_mul_div_succ (b * q) h0
    rwa [mul_comm one] at this
  have hle : b * q / one ≤ b := by
    apply Nat.div_le_of_le_mul
    rw [mul_comm one b]
    exact Nat.mul_le_mul_left b hq
  have : (b - b * q / one) * one = b * one - b * q / one * one := Nat.sub_mul _ _ _
  have h2 : b * q / one * one ≤ b * one := Nat.mul_le_mul_right _ hle
  rw [this]
  have : (b * q / one + 1) * one = b * q / one * one + one := by ring
  omega

/-- The arithmetic of one slash for the sum of the balances. -/
theorem slash_sum_bound {B B' T D n q one : Nat} (h0 : 0 < one) (hq : q ≤ one)
    (h : B ≤ T * one + D) (h' : B' * one + B * q ≤ B * one + n * one) :
    B' ≤ (T - T * q / one) * one + (D + n) := by
  have h1 : T * q / one * one ≤ T * q := Nat.div_mul_le_self _ _
  have h2 : T * q / one ≤ T := by
    apply Nat.div_le_of_le_mul
    rw [mul_comm one T]
    exact Nat.mul_le_mul_left T hq
  obtain ⟨r, hr⟩ := Nat.exists_eq_add_of_le hq
  have h3 : B' * one ≤ B * r + n * one := by
    have : B * one = B * q + B * r := by rw [hr]; ring
    omega
  have h4 : B * r ≤ (T * one + D) * r := Nat.mul_le_mul_right _ h
  obtain ⟨t', ht'⟩ := Nat.exists_eq_add_of_le h2
  have h5 : T - T * q / one = t' := by omega
  rw [h5]
  have h6 : T * r ≤ t' * one := by
    have e1 : T * one = T * q + T * r := by rw [hr]; ring
    have e2 : T * one = T * q / one * one + t' * one := by rw [← Nat.add_mul, ← ht']
    omega
  have h7 : B' * one ≤ (t' * one + (D + n)) * one := by
    calc B' * one ≤ B * r + n * one := h3
      _ ≤ (T * one + D) * r + n * one := by omega
      _ = (T * r) * one + D * r + n * one := by ring
      _ ≤ (t' * one) * one + D * one + n * one := by
        have : r ≤ one := by omega
        gcongr
      _ = _ := by ring
  exact Nat.le_of_mul_le_mul_right h7 h0

theorem sum_mul_right {m : Map Addr Del} (f : Addr → Nat) (c : Nat) :
    m.sum (fun a _ => f a * c) = m.sum (fun a _ => f a) * c := by
  unfold Map.sum
  induction m.toList with
  | nil => simp
  | cons p t ih => simp only [List.map_cons, List.sum_cons, ih]; ring

theorem sum_const {m : Map Addr Del} (c : Nat) : m.sum (fun _ _ => c) = m.size * c := by
  unfold Map.sum Map.size
  induction m.toList with
  | nil => simp
  | cons p t ih => simp only [List.map_cons, List.sum_cons, ih, List.length_cons]; ring

theorem balSum_slash {s : F1} (h : F1Inv s) {q : Dec} (hq : q ≤ Dec.one) {D : Nat}
    (hD : balSum s ≤ s.d.total * Dec.one + D) :
    balSum (slash s q).1 ≤ (slash s q).1.d.total * Dec.one + (D + s.dels.size) := by
  rw [total_slash]
  refine slash_sum_bound Dec.one_pos hq hD ?_
  unfold balSum
  rw [dels_slash, ← sum_mul_right, ← sum_mul_right, ← sum_mul_right, ← Map.sum_add, ← sum_const,
    ← Map.sum_add]
  apply Map.sum_le
  intro a v _
  rw [balance_slash h]
  exact slashOne_bound _ _ _ Dec.one_pos hq

theorem balSum_payout (s : F1) (c : Coins) : balSum (payout s c) = balSum s := by
  unfold balSum
  have : (payout s c).dels = s.dels := by unfold payout; cases s.data <;> rfl
  rw [this]
  apply Map.sum_congr
  intro a _ _; exact balance_payout s c a

/-- While the dust stays below one token, the total covers the truncated balances. -/
theorem sum_trunc_le {s : F1} {D : Nat} (h : balSum s ≤ s.d.total * Dec.one + D) (hD : D < Dec.one) :
    s.dels.sum (fun w _ => Dec.trunc (balance s w)) ≤ s.d.total := by
  have h1 : s.dels.sum (fun w _ => Dec.trunc (balance s w)) * Dec.one ≤ balSum s := by
    rw [← sum_mul_right (fun w => Dec.trunc (balance s w))]
    exact Map.sum_le _ _ _ (fun a _ _ => Dec.trunc_mul_le _)
  by_contra hc
  have h2 : (s.d.total + 1) * Dec.one ≤ s.dels.sum (fun w _ => Dec.trunc (balance s w)) * Dec.one :=
    Nat.mul_le_mul_right _ (by omega)
  have h3 : (s.d.total + 1) * Dec.one = s.d.total * Dec.one + Dec.one := by ring
  omega

theorem trunc_balance_le {s : F1} {D : Nat} (h : balSum s ≤ s.d.total * Dec.one + D) (hD : D < Dec.one)
    (w : Addr) : Dec.trunc (balance s w) ≤ s.d.total := by
  cases hw : s.dels.get? w with
  | none => rw [balance_none hw]; simp [Dec.trunc]
  | some x => exact le_trans (Map.le_sum s.dels (fun w _ => Dec.trunc (balance s w)) hw) (sum_trunc_le h hD)

/-- Removing a delegator keeps the cover. -/
theorem balSum_remove_le {s : F1} (h : F1Inv s) (w : Addr) {D : Nat} (hD : balSum s ≤ s.d.total * Dec.one + D)
    (hD' : D < Dec.one) : balSum (remove s w).1 ≤ (remove s w).1.d.total * Dec.one + D := by
  have h1 := balSum_remove h w
  have h2 := trunc_balance_le hD hD' w
  have h3 := Dec.trunc_mul_le (balance s w)
  rw [total_remove h, Nat.sub_mul]
  have h4 : Dec.trunc (balance s w) * Dec.one ≤ s.d.total * Dec.one := Nat.mul_le_mul_right _ h2
  omega

/-! ## Refinement: balances, totals, existence -/

/-- The code's store agrees with the eager bookkeeping on stakes and totals. -/
structure RInv (s : F1) (i : Ideal) (D : Nat) : Prop where
  inv : F1Inv s
  active : i.active = s.data.isSome
  total : i.total = s.d.total
  stake : ∀ a, i.stake a = balance s a
  cover : balSum s ≤ s.d.total * Dec.one + D
  nowrap : s.wrapped = false

theorem isSome_create (s : F1) (w : Addr) (n : Nat) :
    (createDelegator s w n).data.isSome = (s.data.isSome || decide (n ≠ 0)) := by
  unfold createDelegator
  split
  · subst_vars; simp
  · rename_i h; simp [h]

theorem isSome_withdraw (s : F1) (h : F1Inv s) (w : Addr) : (withdraw s w).1.data.isSome = s.data.isSome := by
  unfold withdraw
  cases hw : s.dels.get? w with
  | none => rfl
  | some x =>
    obtain ⟨d, hd⟩ := h.data_of_del hw
    simp [hd, withdrawFound]

theorem isSome_remove (s : F1) (h : F1Inv s) (w : Addr) : (remove s w).1.data.isSome = s.data.isSome := by
  unfold remove
  cases hw : s.dels.get? w with
  | none => rfl
  | some x =>
    obtain ⟨d, hd⟩ := h.data_of_del hw
    simp [hd, removeFound]

theorem isSome_slash (s : F1) (q : Dec) : (slash s q).1.data.isSome = s.data.isSome := by
  unfold slash; cases hd : s.data <;> simp [hd]

theorem isSome_payout (s : F1) (c : Coins) : (payout s c).data.isSome = s.data.isSome := by
  unfold payout; cases hd : s.data <;> simp [hd]

theorem trunc_ofNat_trunc (b : Dec) : Dec.trunc (Dec.ofNat (Dec.trunc b)) = Dec.trunc b := Dec.trunc_ofNat _

theorem withdraw_has (s : F1) (w a : Addr) : (withdraw s w).1.dels.has a = s.dels.has a := by
  rcases dels_withdraw s w with ⟨_, e⟩ | ⟨x, y, hw, hy⟩
  · rw [e]
  · unfold Map.has
    rw [hy, Map.get?_set]
    split
    · subst_vars; rw [hw]; rfl
    · rfl

theorem RInv.delegate {s : F1} {i : Ideal} {D : Nat} (h : RInv s i D) (hD : D < Dec.one) (w : Addr) (n : Nat) :
    RInv (delegate s w n).1 (i.step (.delegate w n)) D := by
  have hi := h.inv
  have hi1 := hi.withdraw w
  have hi2 := hi1.remove w
  have hT1 : Dec.trunc (balance (withdraw s w).1 w) = Dec.trunc (balance s w) := by
    rw [balance_withdraw hi, if_pos rfl, trunc_ofNat_trunc]
  have hle := trunc_balance_le h.cover hD w
  by_cases hh : s.dels.has w = true
  · have e : (Verif.Delegation.delegate s w n).1
        = createDelegator (remove (withdraw s w).1 w).1 w (Dec.trunc (balance s w) + n) := by
      unfold Verif.Delegation.delegate
      rw [if_pos hh, remove_snd, hT1]
    have hc1 : balSum (withdraw s w).1 ≤ (withdraw s w).1.d.total * Dec.one + D := by
      rw [total_withdraw hi]; exact le_trans (balSum_withdraw hi w) h.cover
    have hc2 := balSum_remove_le hi1 w hc1 hD
    have hsome : s.data.isSome = true := by
      obtain ⟨x, hx⟩ := Option.isSome_iff_exists.1 hh
      obtain ⟨d, hd⟩ := hi.data_of_del hx
      rw [hd]; rfl
    rw [e]
    refine ⟨hi2.create (remove_get? _ w), ?_, ?_, ?_, ?_, ?_⟩
    · show (i.active || _) = _
      rw [isSome_create, isSome_remove _ hi1, isSome_withdraw _ hi, h.active, hsome]; simp
    · show i.total + n = _
      rw [total_create, total_remove hi1, total_withdraw hi, hT1, h.total]; omega
    · intro a
      show (if a = w then Dec.ofNat (Dec.trunc (i.stake w) + n) else i.stake a) = _
      rw [balance_create hi2 (remove_get? _ w), balance_remove hi1, balance_withdraw hi, h.stake w, h.stake a]
      split
      · rfl
      · simp
    · rw [balSum_create hi2 (remove_get? _ w), total_create]
      unfold Dec.ofNat
      simp only [Nat.add_mul]; omega
    · rw [wrapped_create, wrapped_remove hi1 w, wrapped_withdraw, h.nowrap]
      rw [hT1, total_withdraw hi]; exact hle
  · have hw : s.dels.get? w = none := by
      unfold Map.has at hh
      cases hw : s.dels.get? w with
      | none => rfl
      | some x => rw [hw] at hh; exact absurd rfl hh
    have e : (Verif.Delegation.delegate s w n).1 = createDelegator s w n := by
      unfold Verif.Delegation.delegate
      rw [if_neg hh]
    rw [e]
    refine ⟨hi.create hw, ?_, ?_, ?_, ?_, ?_⟩
    · show (i.active || _) = _
      rw [isSome_create, h.active]
    · show i.total + n = _
      rw [total_create, h.total]
    · intro a
      show (if a = w then Dec.ofNat (Dec.trunc (i.stake w) + n) else i.stake a) = _
      rw [balance_create hi hw, h.stake w, h.stake a, balance_none hw]
      simp [Dec.trunc]
    · rw [balSum_create hi hw, total_create]
      have := h.cover
      unfold Dec.ofNat
      rw [Nat.add_mul]; omega
    · rw [wrapped_create, h.nowrap]

theorem RInv.undelegate {s : F1} {i : Ideal} {D : Nat} (h : RInv s i D) (hD : D < Dec.one) (w : Addr) (n : Nat) :
    RInv (undelegate s w n).1 (i.step (.undelegate w n)) D := by
  have hi := h.inv
  have hi1 := hi.withdraw w
  have hi2 := hi1.remove w
  have hT1 : Dec.trunc (balance (withdraw s w).1 w) = Dec.trunc (balance s w) := by
    rw [balance_withdraw hi, if_pos rfl, trunc_ofNat_trunc]
  have hle := trunc_balance_le h.cover hD w
  have hc1 : balSum (withdraw s w).1 ≤ (withdraw s w).1.d.total * Dec.one + D := by
    rw [total_withdraw hi]; exact le_trans (balSum_withdraw hi w) h.cover
  have hc2 := balSum_remove_le hi1 w hc1 hD
  have hw2 : (remove (withdraw s w).1 w).1.wrapped = false := by
    rw [wrapped_remove hi1 w, wrapped_withdraw, h.nowrap]
    rw [hT1, total_withdraw hi]; exact hle
  unfold Verif.Delegation.undelegate undelegateRest
  simp only
  rw [remove_snd, hT1]
  by_cases hn : n < Dec.trunc (balance s w)
  · rw [if_pos hn]
    refine ⟨hi2.create (remove_get? _ w), ?_, ?_, ?_, ?_, ?_⟩
    · show i.active = _
      have hsome : s.data.isSome = true := by
        cases hw : s.dels.get? w with
        | none => rw [balance_none hw] at hn; simp [Dec.trunc] at hn
        | some x =>
          obtain ⟨d, hd⟩ := hi.data_of_del hw
          rw [hd]; rfl
      rw [isSome_create, isSome_remove _ hi1, isSome_withdraw _ hi, h.active, hsome]; simp
    · show i.total - min n (Dec.trunc (i.stake w)) = _
      rw [total_create, total_remove hi1, total_withdraw hi, hT1, h.total, h.stake w]; omega
    · intro a
      show (if a = w then Dec.ofNat (Dec.trunc (i.stake w) - n) else i.stake a) = _
      rw [balance_create hi2 (remove_get? _ w), balance_remove hi1, balance_withdraw hi, h.stake w, h.stake a]
      split
      · rfl
      · simp
    · rw [balSum_create hi2 (remove_get? _ w), total_create]
      unfold Dec.ofNat
      simp only [Nat.add_mul]; omega
    · rw [wrapped_create, hw2]
  · rw [if_neg hn]
    refine ⟨hi2, ?_, ?_, ?_, hc2, hw2⟩
    · show i.active = _
      rw [isSome_remove _ hi1, isSome_withdraw _ hi, h.active]
    · show i.total - min n (Dec.trunc (i.stake w)) = _
      rw [total_remove hi1, total_withdraw hi, hT1, h.total, h.stake w]
      congr 1
      omega
    · intro a
      show (if a = w then Dec.ofNat (Dec.trunc (i.stake w) - n) else i.stake a) = _
      rw [balance_remove hi1, balance_withdraw hi, h.stake w, h.stake a]
      split
      · rw [show Dec.trunc (balance s w) - n = 0 by omega]; simp [Dec.ofNat]
      · simp

theorem RInv.withdraw {s : F1} {i : Ideal} {D : Nat} (h : RInv s i D) (w : Addr) :
    RInv (withdraw s w).1 (i.step (.withdraw w)) D := by
  have hi := h.inv
  refine ⟨hi.withdraw w, ?_, ?_, ?_, ?_, ?_⟩
  · show i.active = _
    rw [isSome_withdraw _ hi, h.active]
  · show i.total = _
    rw [total_withdraw hi, h.total]
  · intro a
    show (if a = w then Dec.ofNat (Dec.trunc (i.stake w)) else i.stake a) = _
    rw [balance_withdraw hi, h.stake w, h.stake a]
  · rw [total_withdraw hi]; exact le_trans (balSum_withdraw hi w) h.cover
  · rw [wrapped_withdraw, h.nowrap]

theorem RInv.slash {s : F1} {i : Ideal} {D : Nat} (h : RInv s i D) {q : Dec} (hq : q ≤ Dec.one) :
    RInv (slash s q).1 (i.step (.slash q)) (D + s.dels.size) := by
  have hi := h.inv
  refine ⟨hi.slash hq, ?_, ?_, ?_, balSum_slash hi hq h.cover, ?_⟩
  · show i.active = _
    rw [isSome_slash, h.active]
  · show i.total - i.total * q / Dec.one = _
    rw [total_slash, h.total]
  · intro a
    show i.stake a - i.stake a * q / Dec.one = _
    rw [balance_slash hi, h.stake a]; rfl
  · rw [wrapped_slash _ hq, h.nowrap]

theorem RInv.payout {s : F1} {i : Ideal} {D : Nat} (h : RInv s i D) (c : Coins) :
    RInv (payout s c) (i.step (.payout c)) D := by
  refine ⟨h.inv.payout c, ?_, ?_, ?_, ?_, ?_⟩
  · show i.active = _
    rw [isSome_payout, h.active]
  · show i.total = _
    rw [total_payout, h.total]
  · intro a
    show i.stake a = _
    rw [balance_payout, h.stake a]
  · rw [balSum_payout, total_payout]; exact h.cover
  · rw [wrapped_payout, h.nowrap]

theorem Ledger.Reachable.rinv {l : Ledger} (h : Ledger.Reachable l) :
    RInv l.f1 l.ideal l.dust ∧ l.dust < Dec.one := by
  induction h with
  | init =>
    refine ⟨⟨F1Inv.init, rfl, rfl, fun _ => rfl, Nat.zero_le _, rfl⟩, Dec.one_pos⟩
  | @step l op _ hq hd ih =>
    refine ⟨?_, hd⟩
    obtain ⟨ih, hD⟩ := ih
    cases op with
    | delegate w n => exact ih.delegate hD w n
    | undelegate w n => exact ih.undelegate hD w n
    | withdraw w => exact ih.withdraw w
    | slash q => exact ih.slash (hq q rfl)
    | payout c => exact ih.payout c

end Verif.Delegation
