import Verif.Delegation.F1Props

/-!
# C83: earned rewards cannot be taken by others

What a delegator would be paid if it withdrew now is not changed by anything another delegator does, nor by a slash;
payouts only raise it.
-/

namespace Verif.Delegation
open Verif

/-! ## specification -/

/-- what `MsgWithdrawRewards` would pay now -/
def payable (s : F1) (a : Addr) (dn : Denom) : Nat := (f1Reward s (.withdraw a)).amt dn

/-! ## proofs -/

/-- the sum over the periods of constant delegation, with the value at the end given -/
def evalN (f : Nat → Nat) : List (Nat × Dec) → Nat → Nat → Dec → Nat
  | [], p, v, b => Dec.mul (v - f p) b
  | (k, q) :: t, p, v, b => Dec.mul (f k - f p) b + evalN f t k v (slashOne b q)

/-- the value of an entry -/
def entN (e : Map Nat DecCoins) (dn : Denom) (j : Nat) : Nat := (entryVal e j).amt dn

theorem rewardAmt_eq (e : Map Nat DecCoins) (dn : Denom) (l : List (Nat × Dec)) (p m : Nat) (b : Dec) :
    rewardAmt e dn (segs l p m b) = evalN (entN e dn) l p (entN e dn m) b := by
  induction l generalizing p b with
  | nil => simp [segs, rewardAmt, evalN, entN]
  | cons y t ih =>
    obtain ⟨k, q⟩ := y
    simp only [segs, rewardAmt, evalN, ih]
    rfl

theorem evalN_congr {f g : Nat → Nat} {l : List (Nat × Dec)} {p v : Nat} (b : Dec) (hp : f p = g p)
    (hl : ∀ y ∈ l, f y.1 = g y.1) : evalN f l p v b = evalN g l p v b := by
  induction l generalizing p b with
  | nil => simp [evalN, hp]
  | cons y t ih =>
    obtain ⟨k, q⟩ := y
    have hk : f k = g k := hl (k, q) (by simp)
    simp only [evalN, hp, hk]
    rw [ih _ hk (fun y hy => hl y (List.mem_cons_of_mem _ hy))]

theorem evalN_mono {f : Nat → Nat} {l : List (Nat × Dec)} {p v v' : Nat} (b : Dec) (h : v ≤ v') :
    evalN f l p v b ≤ evalN f l p v' b := by
  induction l generalizing p b with
  | nil => exact Dec.mul_mono (Nat.sub_le_sub_right h _)
  | cons y t ih => exact Nat.add_le_add_left (ih _) _

theorem evalN_append {f : Nat → Nat} {l : List (Nat × Dec)} {p n : Nat} (q b : Dec) :
    evalN f (l ++ [(n, q)]) p (f n) b = evalN f l p (f n) b := by
  induction l generalizing p b with
  | nil => simp [evalN, Dec.mul, Dec.chop_zero]
  | cons y t ih =>
    obtain ⟨k, q'⟩ := y
    simp only [List.cons_append, evalN]
    rw [ih]

/-- the value at the end of the running period -/
def topN (s : F1) (d : Data) (dn : Denom) : Nat := (periodQuo d.cur d.total).amt dn + entN s.entries dn d.latest

theorem payable_eq {s : F1} {d : Data} (hd : s.data = some d) (hD : DInv s d) {a : Addr} {x : Del}
    (hx : s.dels.get? a = some x) (dn : Denom) :
    payable s a dn = Dec.trunc (evalN (entN s.entries dn) (slashesBetween s.slashes x.k d.latest) x.k (topN s d dn)
      (Dec.ofNat x.amount)) := by
  have e2 : (withdraw s a).2.amt dn
      = Dec.trunc (rewardAmt (newEntries s.entries d) dn (periodsOf s.slashes x (d.latest + 1))) := by
    unfold withdraw
    rw [hx]
    simp only [hd, Option.getD_some, withdrawFound]
    rw [amt_truncateDecCoins, amt_rewardOf]
  have e3 : periodsOf s.slashes x (d.latest + 1)
      = segs (slashesBetween s.slashes x.k d.latest) x.k (d.latest + 1) (Dec.ofNat x.amount) := by
    unfold periodsOf; rw [slashesBetween_hi (Nat.le_succ _) hD.slash_le]
  have e4 : entN (newEntries s.entries d) dn (d.latest + 1) = topN s d dn := by
    unfold entN topN
    rw [entryVal_of_get? (newEntries_latest _ _), Coins.amt_add]; rfl
  show (withdraw s a).2.amt dn = _
  rw [e2, e3, rewardAmt_eq, e4]
  congr 1
  refine evalN_congr _ ?_ ?_
  · unfold entN entryVal; rw [tick_get?_of_del hD hx]
  · intro y hy
    have hy' := mem_slashesBetween.1 hy
    unfold entN entryVal
    rw [newEntries_other _ _ (by omega)]
    intro hu e
    have := (hD.und hu).1
    rw [← e, hy'.1] at this; cases this

theorem payable_none {s : F1} {a : Addr} (h : s.dels.get? a = none) (dn : Denom) : payable s a dn = 0 := by
  show (withdraw s a).2.amt dn = 0
  rw [withdraw_absent h]; rfl

/-- a period was started and the record of `a` was left alone -/
theorem payable_tick {s s' : F1} (hi : F1Inv s) (hi' : F1Inv s') {d d' : Data} (hd : s.data = some d)
    (hd' : s'.data = some d') {a : Addr} {y : Del} (hy : s.dels.get? a = some y) (hy' : s'.dels.get? a = some y)
    (hl : d'.latest = d.latest + 1) (hc : d'.cur = Coins.zero) (hs : s'.slashes = s.slashes)
    (h1 : s'.entries.get? (d.latest + 1) = (newEntries s.entries d).get? (d.latest + 1))
    (h2 : s'.entries.get? y.k = (newEntries s.entries d).get? y.k)
    (h3 : ∀ j q, s.slashes.get? j = some q → s'.entries.get? j = (newEntries s.entries d).get? j) (dn : Denom) :
    payable s' a dn = payable s a dn := by
  have hD := hi.dsome d hd
  rw [payable_eq hd hD hy, payable_eq hd' (hi'.dsome d' hd') hy', hl, hs,
    slashesBetween_hi (Nat.le_succ _) hD.slash_le]
  have e4 : topN s' d' dn = topN s d dn := by
    unfold topN
    rw [hc, periodQuo_zero, hl]
    unfold entN
    rw [entryVal_of_get? (h1.trans (newEntries_latest _ _)), Coins.amt_add]; simp
  rw [e4]
  congr 1
  refine evalN_congr _ ?_ ?_
  · unfold entN entryVal; rw [h2, tick_get?_of_del hD hy]
  · intro z hz
    have hz' := mem_slashesBetween.1 hz
    unfold entN entryVal
    rw [h3 _ _ hz'.1, newEntries_other _ _ (by omega)]
    intro hu e
    have := (hD.und hu).1
    rw [← e, hz'.1] at this; cases this

theorem payable_withdraw {s : F1} (hi : F1Inv s) {w a : Addr} (haw : a ≠ w) (dn : Denom) :
    payable (withdraw s w).1 a dn = payable s a dn := by
  cases hw : s.dels.get? w with
  | none => rw [withdraw_absent hw]
  | some x =>
    have hi' := hi.withdraw w
    cases hy : s.dels.get? a with
    | none => rw [payable_none hy, payable_none (by rw [withdraw_others _ _ _ haw, hy])]
    | some y =>
      obtain ⟨d, hd⟩ := hi.data_of_del hw
      have hD := hi.dsome d hd
      have hxl := hD.klt w x hw
      have he : (withdraw s w).1.entries = (newEntries s.entries d).del x.k := by
        unfold withdraw; rw [hw]; simp only [hd, Option.getD_some, withdrawFound]
      refine payable_tick hi hi' hd (d' := newData d) ?_ hy (by rw [withdraw_others _ _ _ haw, hy]) rfl rfl ?_ ?_ ?_ ?_ dn
      · unfold withdraw; rw [hw]; simp only [hd, Option.getD_some, withdrawFound]
      · unfold withdraw; rw [hw]; simp only [withdrawFound]
      · rw [he, Map.get?_del_ne _ (by omega)]
      · rw [he, Map.get?_del_ne _ (fun e => haw (hD.kdist a w y x hy hw e))]
      · intro j q hj
        rw [he, Map.get?_del_ne]
        rintro rfl
        rw [hD.kslash w x hw] at hj; cases hj

theorem payable_remove {s : F1} (hi : F1Inv s) {w a : Addr} (haw : a ≠ w) (dn : Denom) :
    payable (remove s w).1 a dn = payable s a dn := by
  cases hw : s.dels.get? w with
  | none => rw [remove_absent hw]
  | some x =>
    have hi' := hi.remove w
    have ha' : (remove s w).1.dels.get? a = s.dels.get? a := by rw [dels_remove, Map.get?_del_ne _ haw]
    cases hy : s.dels.get? a with
    | none => rw [payable_none hy, payable_none (by rw [ha', hy])]
    | some y =>
      obtain ⟨d, hd⟩ := hi.data_of_del hw
      have hD := hi.dsome d hd
      have hxl := hD.klt w x hw
      have hsize : (s.dels.del w).size = d.count - 1 := by rw [Map.size_del, hw, hD.cnt]; rfl
      have hpos : d.count - 1 ≠ 0 := by
        have : (s.dels.del w).get? a = some y := by rw [Map.get?_del_ne _ haw, hy]
        have := Map.size_pos_of_get? _ this
        omega
      have he : (remove s w).1.entries = (newEntries s.entries d).del x.k := by
        unfold remove; rw [hw]; simp only [hd, Option.getD_some, removeFound]; rw [if_neg hpos]
      refine payable_tick hi hi' hd
        (d' := { newData d with undel := true, total := d.total - curDel s w, count := d.count - 1 })
        ?_ hy (by rw [ha', hy]) rfl rfl ?_ ?_ ?_ ?_ dn
      · unfold remove; rw [hw]; simp only [hd, Option.getD_some, removeFound]
      · unfold remove; rw [hw]; simp only [removeFound]
      · rw [he, Map.get?_del_ne _ (by omega)]
      · rw [he, Map.get?_del_ne _ (fun e => haw (hD.kdist a w y x hy hw e))]
      · intro j q hj
        rw [he, Map.get?_del_ne]
        rintro rfl
        rw [hD.kslash w x hw] at hj; cases hj

theorem payable_create {s : F1} (hi : F1Inv s) {w a : Addr} (hw : s.dels.get? w = none) (haw : a ≠ w) (n : Nat)
    (dn : Denom) : payable (createDelegator s w n) a dn = payable s a dn := by
  have hi' := hi.create (n := n) hw
  by_cases hn : n = 0
  · unfold createDelegator; rw [if_pos hn]
  have ha' : (createDelegator s w n).dels.get? a = s.dels.get? a := by
    unfold createDelegator; rw [if_neg hn]; exact Map.get?_set_ne _ _ haw
  cases hy : s.dels.get? a with
  | none => rw [payable_none hy, payable_none (by rw [ha', hy])]
  | some y =>
    obtain ⟨d, hd⟩ := hi.data_of_del hy
    have he : (createDelegator s w n).entries = newEntries s.entries d := by
      unfold createDelegator; rw [if_neg hn]; simp only [hd, Option.getD_some]
    refine payable_tick hi hi' hd (d' := { newData d with total := d.total + n, count := d.count + 1 })
      ?_ hy (by rw [ha', hy]) rfl rfl ?_ ?_ ?_ ?_ dn
    · unfold createDelegator; rw [if_neg hn]; simp only [hd, Option.getD_some]
    · unfold createDelegator; rw [if_neg hn]
    · rw [he]
    · rw [he]
    · intro j q hj; rw [he]

theorem payable_slash {s : F1} (hi : F1Inv s) {q : Dec} (hq : q ≤ Dec.one) (a : Addr) (dn : Denom) :
    payable (slash s q).1 a dn = payable s a dn := by
  cases hd : s.data with
  | none => unfold slash; rw [hd]
  | some d =>
    have hi' := hi.slash hq
    have hdels := dels_slash s q
    cases hy : s.dels.get? a with
    | none => rw [payable_none hy, payable_none (by rw [hdels, hy])]
    | some y =>
      have hD := hi.dsome d hd
      have hk := hD.klt a y hy
      have hd' : (slash s q).1.data = some { newData d with total := d.total - slashedAmount d.total q } := by
        unfold slash; rw [hd]
      have he : (slash s q).1.entries = newEntries s.entries d := by unfold slash; rw [hd]
      have hs : (slash s q).1.slashes = s.slashes.set (d.latest + 1) q := by unfold slash; rw [hd]
      have hns : ∀ j q, s.slashes.get? j = some q → j < d.latest + 1 :=
        fun j q hj => by have := hD.slash_le j q hj; omega
      rw [payable_eq hd hD hy, payable_eq hd' (hi'.dsome _ hd') (by rw [hdels]; exact hy), hs, he]
      have e1 : slashesBetween (s.slashes.set (d.latest + 1) q) y.k (d.latest + 1)
          = slashesBetween s.slashes y.k d.latest ++ [(d.latest + 1, q)] := by
        rw [slashesBetween_set (by omega) hns, slashesBetween_hi (Nat.le_succ _) hD.slash_le]
      have e2 : entN (newEntries s.entries d) dn (d.latest + 1) = topN s d dn := by
        unfold entN topN
        rw [entryVal_of_get? (newEntries_latest _ _), Coins.amt_add]; rfl
      have e3 : topN (slash s q).1 { newData d with total := d.total - slashedAmount d.total q } dn
          = entN (newEntries s.entries d) dn (d.latest + 1) := by
        unfold topN
        show (periodQuo Coins.zero _).amt dn + entN (slash s q).1.entries dn (d.latest + 1) = _
        rw [periodQuo_zero, he]; simp
      rw [e3]
      show Dec.trunc (evalN _ (slashesBetween (s.slashes.set (d.latest + 1) q) y.k (d.latest + 1)) _ _ _) = _
      rw [e1, evalN_append, e2]
      congr 1
      refine evalN_congr _ ?_ ?_
      · unfold entN entryVal; rw [tick_get?_of_del hD hy]
      · intro z hz
        have hz' := mem_slashesBetween.1 hz
        unfold entN entryVal
        rw [newEntries_other _ _ (by omega)]
        intro hu e
        have := (hD.und hu).1
        rw [← e, hz'.1] at this; cases this

theorem quoAmt_mono {c c' t : Nat} (h : c ≤ c') : quoAmt c t ≤ quoAmt c' t := by
  unfold quoAmt
  split
  · exact Nat.le_refl _
  · unfold Dec.quo Dec.ofNat
    exact Dec.chop_mono (Nat.div_le_div_right (by gcongr))

theorem payable_payout {s : F1} (hi : F1Inv s) (c : Coins) (a : Addr) (dn : Denom) :
    payable s a dn ≤ payable (payout s c) a dn := by
  cases hd : s.data with
  | none => unfold payout; rw [hd]
  | some d =>
    have hi' := hi.payout c
    have hdels : (payout s c).dels = s.dels := by unfold payout; rw [hd]
    cases hy : s.dels.get? a with
    | none => rw [payable_none hy]; exact Nat.zero_le _
    | some y =>
      have hd' : (payout s c).data = some { d with cur := d.cur.add c } := by unfold payout; rw [hd]
      have he : (payout s c).entries = s.entries := by unfold payout; rw [hd]
      have hs : (payout s c).slashes = s.slashes := by unfold payout; rw [hd]
      rw [payable_eq hd (hi.dsome d hd) hy, payable_eq hd' (hi'.dsome _ hd') (by rw [hdels]; exact hy), hs, he]
      refine Dec.trunc_mono (evalN_mono _ ?_)
      unfold topN
      rw [he]
      refine Nat.add_le_add_right ?_ _
      rw [amt_periodQuo, amt_periodQuo]
      exact quoAmt_mono (by rw [Coins.amt_add]; exact Nat.le_add_right _ _)

/-- an operation of `w` that is a withdrawal, a removal and a new record -/
theorem payable_touch {s : F1} (hi : F1Inv s) {w a : Addr} (haw : a ≠ w) (n : Nat) (dn : Denom) :
    payable (createDelegator (remove (withdraw s w).1 w).1 w n) a dn = payable s a dn := by
  rw [payable_create ((hi.withdraw w).remove w) (remove_get? _ w) haw,
    payable_remove (hi.withdraw w) haw, payable_withdraw hi haw]

theorem payable_step {s : F1} (hi : F1Inv s) (op : Op) (hq : ∀ q, op = .slash q → q ≤ Dec.one) (a : Addr)
    (ha : op.who ≠ some a) (dn : Denom) :
    payable s a dn ≤ payable (f1Step s op) a dn ∧
      ((∀ c, op ≠ .payout c) → payable (f1Step s op) a dn = payable s a dn) := by
  have same : payable (f1Step s op) a dn = payable s a dn →
      payable s a dn ≤ payable (f1Step s op) a dn ∧
        ((∀ c, op ≠ .payout c) → payable (f1Step s op) a dn = payable s a dn) :=
    fun h => ⟨h.symm.le, fun _ => h⟩
  cases op with
  | delegate w n =>
    have haw : a ≠ w := fun e => ha (by rw [e]; rfl)
    refine same ?_
    show payable (delegate s w n).1 a dn = _
    rw [delegate_fst]; exact payable_touch hi haw _ dn
  | undelegate w n =>
    have haw : a ≠ w := fun e => ha (by rw [e]; rfl)
    refine same ?_
    show payable (undelegateRest _ w n _) a dn = _
    unfold undelegateRest
    split
    · exact payable_touch hi haw _ dn
    · rw [payable_remove (hi.withdraw w) haw, payable_withdraw hi haw]
  | withdraw w => exact same (payable_withdraw hi (fun e => ha (by rw [e]; rfl)) dn)
  | slash q => exact same (payable_slash hi (hq q rfl) a dn)
  | payout c => exact ⟨payable_payout hi c a dn, fun h => absurd rfl (h c)⟩

/-- C83 for one staker: what a delegator could withdraw is not changed by an operation of somebody else, nor by a
slash; a payout never lowers it. -/
theorem C83_earned {l : Ledger} (h : Ledger.Reachable l) (op : Op) (hq : ∀ q, op = .slash q → q ≤ Dec.one) (a : Addr)
    (ha : op.who ≠ some a) (dn : Denom) :
    payable l.f1 a dn ≤ payable (l.step op).f1 a dn ∧
      ((∀ c, op ≠ .payout c) → payable (l.step op).f1 a dn = payable l.f1 a dn) :=
  payable_step h.f1inv op hq a ha dn

/-- delegators 1 and 2 hold 30 and 70; 50 are paid out, then 1 withdraws: 2 still has 35 -/
example : payable (Ledger.init.run [.delegate 1 30, .delegate 2 70, .payout (Coins.single 0 50)]).f1 2 0 = 35 ∧
    payable (Ledger.init.run [.delegate 1 30, .delegate 2 70, .payout (Coins.single 0 50), .withdraw 1]).f1 2 0 = 35 ∧
    payable (Ledger.init.run [.delegate 1 30, .delegate 2 70, .payout (Coins.single 0 50), .slash half]).f1 2 0 = 35 := by
  decide +kernel

end Verif.Delegation
