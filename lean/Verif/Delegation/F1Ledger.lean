import Verif.Delegation.F1Fair

/-!
# The running totals: what the code pays out in all against what was paid in
-/

namespace Verif.Delegation

open Verif

/-! ## Sums over delegators -/

theorem sum_off {M : Type} [AddCommMonoid M] (m : Map Addr Del) (w : Addr) (f : Addr → M) :
    m.sum (fun a _ => if a = w then 0 else f a) = (m.del w).sum (fun a _ => f a) := by
  have h1 := m.sum_del (fun a _ => if a = w then (0 : M) else f a) w
  have h2 : m.at' (fun a _ => if a = w then (0 : M) else f a) w = 0 := by
    unfold Map.at'; cases m.get? w <;> simp
  have h3 : (m.del w).sum (fun a _ => if a = w then (0 : M) else f a) = (m.del w).sum (fun a _ => f a) := by
    apply Map.sum_congr
    intro a v ha
    have : a ≠ w := by rintro rfl; rw [Map.get?_del_self] at ha; cases ha
    rw [if_neg this]
  rw [h2, h3] at h1
  simpa using h1.symm

/-- The total slack. -/
def slackSum (s : F1) (slack : Addr → Nat) : Nat := s.dels.sum (fun a _ => slack a)

theorem slackSum_grow (s : F1) (slack : Addr → Nat) : slackSum s (grow s slack) = slackSum s slack + balSum s := by
  unfold slackSum balSum grow
  rw [← Map.sum_add]

theorem slackSum_congr {s s' : F1} {f g : Addr → Nat} (hd : s'.dels = s.dels)
    (h : ∀ a x, s.dels.get? a = some x → f a = g a) : slackSum s' f = slackSum s g := by
  unfold slackSum
  rw [hd]
  exact Map.sum_congr _ _ _ (fun a x hx => h a x hx)

/-- slack settled by a withdrawal of `w` -/
def settledSlack (s : F1) (slack : Addr → Nat) (w : Addr) : Nat :=
  if (s.dels.get? w).isSome then grow s slack w else 0

/-- What an operation of `w` does to the rest of the store. -/
structure Touch (s s' : F1) (w : Addr) (slack slack' : Addr → Nat) (n : Nat) : Prop where
  others : ∀ a, a ≠ w → s'.dels.get? a = s.dels.get? a
  each : ∀ a x, s'.dels.get? a = some x →
    (a = w → slack' a = 0 ∧ x.amount = n) ∧ (a ≠ w → slack' a ≤ slack a + 3 * balance s a)
  sum : settledSlack s slack w + slackSum s' slack' ≤ slackSum s slack + 3 * balSum s

/-- slack after a withdrawal -/
def slackW (s : F1) (slack : Addr → Nat) (w : Addr) : Addr → Nat := fun a => if a = w then 0 else grow s slack a

/-- slack after a withdrawal and a removal -/
def slackR (s : F1) (slack : Addr → Nat) (w : Addr) : Addr → Nat := grow (withdraw s w).1 (slackW s slack w)

/-- slack after a withdrawal, a removal and a creation -/
def slackC (s : F1) (slack : Addr → Nat) (w : Addr) : Addr → Nat :=
  fun a => if a = w then 0 else grow (remove (withdraw s w).1 w).1 (slackR s slack w) a

theorem withdraw_others (s : F1) (w a : Addr) (h : a ≠ w) : (withdraw s w).1.dels.get? a = s.dels.get? a := by
  rcases dels_withdraw s w with ⟨_, e⟩ | ⟨x, y, hw, hy⟩
  · rw [e]
  · rw [hy, Map.get?_set_ne _ _ h]

theorem slackSum_withdraw (s : F1) (slack : Addr → Nat) (w : Addr) :
    settledSlack s slack w + slackSum (withdraw s w).1 (slackW s slack w) = slackSum s slack + balSum s := by
  rw [← slackSum_grow]
  unfold slackSum slackW settledSlack
  rw [sum_off]
  have e : (withdraw s w).1.dels.del w = s.dels.del w := by
    ext1 a
    rw [Map.get?_del, Map.get?_del]
    split
    · rfl
    · exact withdraw_others s w a (by assumption)
  rw [e]
  have := sum_dels_del s (grow s slack) w
  omega

theorem slackSum_remove (s : F1) (slack : Addr → Nat) (w : Addr) :
    slackSum (remove (withdraw s w).1 w).1 (slackR s slack w)
      ≤ slackSum (withdraw s w).1 (slackW s slack w) + balSum (withdraw s w).1 := by
  rw [← slackSum_grow]
  unfold slackSum slackR
  rw [dels_remove]
  have := sum_dels_del (withdraw s w).1 (grow (withdraw s w).1 (slackW s slack w)) w
  omega

theorem slackSum_create (s : F1) (slack : Addr → Nat) (w : Addr) (n : Nat) :
    slackSum (createDelegator (remove (withdraw s w).1 w).1 w n) (slackC s slack w)
      ≤ slackSum (remove (withdraw s w).1 w).1 (slackR s slack w) + balSum (remove (withdraw s w).1 w).1 := by
  rw [← slackSum_grow]
  have hw := remove_get? (withdraw s w).1 w
  unfold slackSum slackC
  generalize (remove (withdraw s w).1 w).1 = s2 at *
  rw [sum_off]
  have e : (createDelegator s2 w n).dels.del w = s2.dels := by
    rw [dels_create]
    split
    · exact Map.del_absent _ hw
    · rw [Map.del_set, Map.del_absent _ hw]
  rw [e]

theorem balance_others_withdraw {s : F1} (h : F1Inv s) (w a : Addr) (ha : a ≠ w) :
    balance (withdraw s w).1 a = balance s a := by rw [balance_withdraw h, if_neg ha]

theorem Touch.withdraw {s : F1} (h : F1Inv s) (slack : Addr → Nat) (w : Addr) :
    Touch s (withdraw s w).1 w slack (slackW s slack w) (Dec.trunc (balance s w)) := by
  refine ⟨fun a ha => withdraw_others s w a ha, ?_, ?_⟩
  · intro a x hx
    refine ⟨?_, ?_⟩
    · rintro rfl
      refine ⟨by simp [slackW], ?_⟩
      unfold Verif.Delegation.withdraw at hx
      cases hw : s.dels.get? a with
      | none => rw [hw] at hx; simp only at hx; rw [hw] at hx; cases hx
      | some y =>
        obtain ⟨d, hd⟩ := h.data_of_del hw
        rw [hw] at hx
        simp only [hd, Option.getD_some, withdrawFound, Map.get?_set_self] at hx
        injection hx with hx
        rw [← hx, balance_some hw hd]
        simp only
        rw [(h.dsome d hd).balUpTo_succ]
    · intro ha
      simp only [slackW, if_neg ha, grow]; omega
  · have := slackSum_withdraw s slack w
    omega

theorem Touch.remove {s : F1} (h : F1Inv s) (slack : Addr → Nat) (w : Addr) (n : Nat) :
    Touch s (remove (Verif.Delegation.withdraw s w).1 w).1 w slack (slackR s slack w) n := by
  refine ⟨?_, ?_, ?_⟩
  · intro a ha
    rw [dels_remove, Map.get?_del_ne _ ha, withdraw_others s w a ha]
  · intro a x hx
    refine ⟨?_, ?_⟩
    · rintro rfl
      rw [remove_get?] at hx; cases hx
    · intro ha
      simp only [slackR, grow, slackW, if_neg ha, balance_others_withdraw h w a ha]; omega
  · have h1 := slackSum_withdraw s slack w
    have h2 := slackSum_remove s slack w
    have h3 := balSum_withdraw h w
    omega

theorem Touch.create {s : F1} (h : F1Inv s) (slack : Addr → Nat) (w : Addr) (n : Nat) :
    Touch s (createDelegator (Verif.Delegation.remove (Verif.Delegation.withdraw s w).1 w).1 w n) w slack
      (slackC s slack w) n := by
  have hi1 := h.withdraw w
  refine ⟨?_, ?_, ?_⟩
  · intro a ha
    rw [dels_create]
    split
    · rw [dels_remove, Map.get?_del_ne _ ha, withdraw_others s w a ha]
    · rw [Map.get?_set_ne _ _ ha, dels_remove, Map.get?_del_ne _ ha, withdraw_others s w a ha]
  · intro a x hx
    refine ⟨?_, ?_⟩
    · rintro rfl
      refine ⟨by simp [slackC], ?_⟩
      rw [dels_create] at hx
      split at hx
      · rw [remove_get?] at hx; cases hx
      · rw [Map.get?_set_self] at hx
        injection hx with hx
        rw [← hx]
    · intro ha
      have e : balance (Verif.Delegation.remove (Verif.Delegation.withdraw s w).1 w).1 a = balance s a := by
        rw [balance_remove hi1, if_neg ha, balance_others_withdraw h w a ha]
      simp only [slackC, slackR, grow, slackW, if_neg ha, balance_others_withdraw h w a ha, e]; omega
  · have h1 := slackSum_withdraw s slack w
    have h2 := slackSum_remove s slack w
    have h3 := balSum_withdraw h w
    have h4 := slackSum_create s slack w n
    have h5 := balSum_remove hi1 w
    omega

/-! ## The delegator messages in a common form -/

theorem withdraw_absent {s : F1} {w : Addr} (hw : s.dels.get? w = none) : withdraw s w = (s, Coins.zero) := by
  unfold withdraw; rw [hw]

theorem remove_absent {s : F1} {w : Addr} (hw : s.dels.get? w = none) : remove s w = (s, 0) := by
  unfold remove; rw [hw]

theorem delegate_fst (s : F1) (w : Addr) (n : Nat) :
    (delegate s w n).1 = createDelegator (remove (withdraw s w).1 w).1 w ((remove (withdraw s w).1 w).2 + n) := by
  unfold delegate
  split
  · rfl
  · rename_i hh
    have hw : s.dels.get? w = none := by
      unfold Map.has at hh
      cases hw : s.dels.get? w with
      | none => rfl
      | some x => rw [hw] at hh; exact absurd rfl hh
    rw [withdraw_absent hw, remove_absent hw, Nat.zero_add]

theorem delegate_snd (s : F1) (w : Addr) (n : Nat) : (delegate s w n).2 = (withdraw s w).2 := by
  unfold delegate
  split
  · rfl
  · rename_i hh
    have hw : s.dels.get? w = none := by
      unfold Map.has at hh
      cases hw : s.dels.get? w with
      | none => rfl
      | some x => rw [hw] at hh; exact absurd rfl hh
    rw [withdraw_absent hw]

/-- Every message of a delegator is a `Touch`. -/
theorem touch_delegate {s : F1} (h : F1Inv s) {fair : Addr → Denom → ℚ} {slack : Addr → Nat}
    (hf : FairInv s fair slack) (w : Addr) (n : Nat) :
    ∃ slack', Touch s (delegate s w n).1 w slack slack' (Dec.trunc (balance s w) + n) ∧
      FairInv (delegate s w n).1 (fun a dn => if a = w then 0 else fair a dn) slack' := by
  have hi1 := h.withdraw w
  have hi2 := hi1.remove w
  rw [delegate_fst, remove_snd, balance_withdraw h, if_pos rfl, trunc_ofNat_trunc]
  exact ⟨_, Touch.create h slack w _, ((hf.withdraw h w).remove hi1 w).create hi2 (remove_get? _ w) (by simp) _⟩

theorem touch_undelegate {s : F1} (h : F1Inv s) {fair : Addr → Denom → ℚ} {slack : Addr → Nat}
    (hf : FairInv s fair slack) (w : Addr) (n : Nat) :
    ∃ slack', Touch s (undelegate s w n).1 w slack slack' (Dec.trunc (balance s w) - n) ∧
      FairInv (undelegate s w n).1 (fun a dn => if a = w then 0 else fair a dn) slack' := by
  have hi1 := h.withdraw w
  have hi2 := hi1.remove w
  unfold undelegate undelegateRest
  simp only
  rw [remove_snd, balance_withdraw h, if_pos rfl, trunc_ofNat_trunc]
  split
  · exact ⟨_, Touch.create h slack w _,
      ((hf.withdraw h w).remove hi1 w).create hi2 (remove_get? _ w) (by simp) _⟩
  · exact ⟨_, Touch.remove h slack w _, (hf.withdraw h w).remove hi1 w⟩

theorem touch_withdraw {s : F1} (h : F1Inv s) {fair : Addr → Denom → ℚ} {slack : Addr → Nat}
    (hf : FairInv s fair slack) (w : Addr) :
    ∃ slack', Touch s (withdraw s w).1 w slack slack' (Dec.trunc (balance s w)) ∧
      FairInv (withdraw s w).1 (fun a dn => if a = w then 0 else fair a dn) slack' :=
  ⟨_, Touch.withdraw h slack w, hf.withdraw h w⟩

/-! ## The ledger invariant -/

/-- the sum of the eager shares of all delegators -/
def fairSum (s : F1) (fair : Addr → Denom → ℚ) (dn : Denom) : ℚ := s.dels.sum (fun a _ => fair a dn)

/-- bound on the slack of a whole history -/
def budget (ops maxTotal dust : Nat) : Nat := (3 * ops * (maxTotal + 1) + ops + dust) * Dec.one

structure LInv (l : Ledger) (slack : Addr → Nat) (sp : Nat) : Prop where
  fair : FairInv l.f1 l.ideal.fair slack
  fnon : ∀ w, l.f1.dels.get? w = none → ∀ dn, l.ideal.fair w dn = 0
  base : ∀ w x, l.f1.dels.get? w = some x → x.amount = l.ideal.base w
  each : ∀ w x, l.f1.dels.get? w = some x → slack w ≤ l.ideal.since w * (3 * l.ideal.base w + 1) * Dec.one
  tot : sp + slackSum l.f1 slack ≤ budget l.ops l.maxTotal l.dust
  paid : ∀ dn, oneQ * oneQ * (l.paidOut dn : ℚ) ≤ oneQ * oneQ * l.fairPaid dn + (sp : ℚ)
  fsum : ∀ dn, l.fairPaid dn + fairSum l.f1 l.ideal.fair dn ≤ (l.paidIn dn : ℚ) * (1 + (l.dust : ℚ) / oneQ)
  maxT : l.ideal.total ≤ l.maxTotal

theorem LInv.init : LInv Ledger.init (fun _ => 0) 0 := by
  refine ⟨?_, fun _ _ _ => rfl, ?_, ?_, ?_, ?_, ?_, Nat.zero_le _⟩
  · intro w x hx; simp [Ledger.init, F1.init] at hx
  · intro w x hx; simp [Ledger.init, F1.init] at hx
  · intro w x hx; simp [Ledger.init, F1.init] at hx
  · simp [slackSum, Ledger.init, F1.init]
  · intro dn; simp [Ledger.init]
  · intro dn; simp [Ledger.init, fairSum, F1.init]

theorem budget_mono {o o' m m' d d' : Nat} (h1 : o ≤ o') (h2 : m ≤ m') (h3 : d ≤ d') :
    budget o m d ≤ budget o' m' d' := by
  unfold budget
  gcongr

theorem budget_succ (o m d : Nat) : budget (o + 1) m d = budget o m d + 3 * ((m + 1) * Dec.one) + Dec.one := by
  unfold budget; ring

/-- one period costs at most this much slack -/
theorem balSum_le_period {l : Ledger} (hr : RInv l.f1 l.ideal l.dust) (hd : l.dust < Dec.one) {M : Nat}
    (hM : l.ideal.total ≤ M) : balSum l.f1 ≤ (M + 1) * Dec.one := by
  have h1 := hr.cover
  rw [← hr.total] at h1
  have h2 : l.ideal.total * Dec.one ≤ M * Dec.one := Nat.mul_le_mul_right _ hM
  have h3 : (M + 1) * Dec.one = M * Dec.one + Dec.one := by ring
  omega

theorem since_step {since base b sl sl' o : Nat} (h : sl ≤ since * (3 * base + 1) * o) (hb : b ≤ base * o)
    (h' : sl' ≤ sl + 3 * b + o) : sl' ≤ (since + 1) * (3 * base + 1) * o := by
  have : (since + 1) * (3 * base + 1) * o = since * (3 * base + 1) * o + 3 * (base * o) + o := by ring
  omega

theorem balance_le_base {l : Ledger} {slack : Addr → Nat} {sp : Nat} (h : LInv l slack sp)
    {w : Addr} {x : Del} (hx : l.f1.dels.get? w = some x) : balance l.f1 w ≤ l.ideal.base w * Dec.one := by
  rw [← h.base w x hx]
  unfold balance; rw [hx]
  exact balUpTo_le _ _ _

/-- The delegator messages keep the ledger invariant. -/
theorem LInv.touch {l : Ledger} {slack : Addr → Nat} {sp : Nat} (h : LInv l slack sp)
    (hr : RInv l.f1 l.ideal l.dust) (hd : l.dust < Dec.one) (w : Addr) {s' : F1} {n T A : Nat}
    {b : Bool} {slack' : Addr → Nat} (ht : Touch l.f1 s' w slack slack' n)
    (hf : FairInv s' (fun a dn => if a = w then 0 else l.ideal.fair a dn) slack') (hA : A = max l.maxTotal T) :
    LInv { f1 := s', ideal := { l.ideal.touch w n with active := b, total := T }
           paidIn := l.paidIn
           paidOut := fun d => l.paidOut d + (withdraw l.f1 w).2.amt d
           fairPaid := fun d => l.fairPaid d + l.ideal.fair w d
           dust := l.dust, ops := l.ops + 1, maxTotal := A }
      slack' (sp + settledSlack l.f1 slack w + Dec.one) := by
  refine ⟨hf, ?_, ?_, ?_, ?_, ?_, ?_, ?_⟩
  · intro a ha dn
    show (if a = w then (0 : ℚ) else l.ideal.fair a dn) = 0
    split
    · rfl
    · rename_i haw
      exact h.fnon a (by rw [← ht.others a haw]; exact ha) dn
  · intro a x hx
    show x.amount = if a = w then n else l.ideal.base a
    split
    · rename_i haw; exact ((ht.each a x hx).1 haw).2
    · rename_i haw
      exact h.base a x (by rw [← ht.others a haw]; exact hx)
  · intro a x hx
    show slack' a ≤ (if a = w then 0 else l.ideal.since a + 1) * (3 * (if a = w then n else l.ideal.base a) + 1) * Dec.one
    by_cases haw : a = w
    · rw [((ht.each a x hx).1 haw).1]; exact Nat.zero_le _
    · rw [if_neg haw, if_neg haw]
      have hx' : l.f1.dels.get? a = some x := by rw [← ht.others a haw]; exact hx
      refine since_step (h.each a x hx') (balance_le_base h hx') ?_
      have := (ht.each a x hx).2 haw
      omega
  · have h1 := ht.sum
    have h2 := h.tot
    have h3 := balSum_le_period hr hd h.maxT
    show sp + settledSlack l.f1 slack w + Dec.one + slackSum s' slack' ≤ budget (l.ops + 1) A l.dust
    have h4 : budget (l.ops + 1) l.maxTotal l.dust ≤ budget (l.ops + 1) A l.dust :=
      budget_mono (Nat.le_refl _) (by omega) (Nat.le_refl _)
    rw [budget_succ] at h4
    omega
  · intro dn
    show oneQ * oneQ * ((l.paidOut dn + (withdraw l.f1 w).2.amt dn : Nat) : ℚ)
      ≤ oneQ * oneQ * (l.fairPaid dn + l.ideal.fair w dn) + ((sp + settledSlack l.f1 slack w + Dec.one : Nat) : ℚ)
    have h1 := h.paid dn
    have hp := oneQ_pos
    cases hw : l.f1.dels.get? w with
    | none =>
      rw [withdraw_absent hw, h.fnon w hw dn]
      unfold settledSlack
      rw [hw]
      push_cast
      simp
      linarith
    | some x =>
      have h2 := (withdraw_pays hr.inv h.fair hw dn).1
      unfold settledSlack
      rw [hw]
      push_cast
      simp only [Option.isSome_some, if_true]
      have e : ((Dec.one : Nat) : ℚ) = oneQ := rfl
      linarith
  · intro dn
    show l.fairPaid dn + l.ideal.fair w dn
      + s'.dels.sum (fun a _ => if a = w then (0 : ℚ) else l.ideal.fair a dn) ≤ _
    have h1 := h.fsum dn
    unfold fairSum at h1
    rw [sum_off]
    have e : s'.dels.del w = l.f1.dels.del w := by
      ext1 a
      rw [Map.get?_del, Map.get?_del]
      split
      · rfl
      · exact ht.others a (by assumption)
    rw [e]
    have h2 := l.f1.dels.sum_del (fun a _ => l.ideal.fair a dn) w
    unfold Map.at' at h2
    cases hw : l.f1.dels.get? w with
    | none => rw [hw] at h2; rw [h.fnon w hw dn]; simp at h2; linarith
    | some x => rw [hw] at h2; simp at h2; linarith
  · show T ≤ A
    omega

theorem fairSum_add (s s' : F1) (hd : s'.dels = s.dels) (fair : Addr → Denom → ℚ) (stake : Addr → Nat)
    (c : Denom → ℚ) (o : ℚ) (dn : Denom) :
    fairSum s' (fun a dn => fair a dn + c dn * ((stake a : ℚ) / o)) dn
      = fairSum s fair dn + c dn * ((s.dels.sum (fun a _ => stake a) : Nat) : ℚ) / o := by
  unfold fairSum
  rw [hd, Map.sum_add]
  congr 1
  unfold Map.sum
  induction s.dels.toList with
  | nil => simp
  | cons p t ih => simp only [List.map_cons, List.sum_cons, ih]; push_cast; ring

/-- Every operation keeps the ledger invariant. -/
theorem LInv.step {l : Ledger} {slack : Addr → Nat} {sp : Nat} (h : LInv l slack sp)
    (hr : RInv l.f1 l.ideal l.dust) (hd : l.dust < Dec.one) (op : Op) :
    ∃ slack' sp', LInv (l.step op) slack' sp' := by
  cases op with
  | delegate w n =>
    obtain ⟨slack', ht, hf⟩ := touch_delegate hr.inv h.fair w n
    have := h.touch hr hd w (b := l.ideal.active || decide (n ≠ 0)) (T := l.ideal.total + n) ht hf rfl
    refine ⟨slack', sp + settledSlack l.f1 slack w + Dec.one, ?_⟩
    · rw [← hr.stake w, ← delegate_snd l.f1 w n] at this
      exact this
  | undelegate w n =>
    obtain ⟨slack', ht, hf⟩ := touch_undelegate hr.inv h.fair w n
    have := h.touch hr hd w (b := l.ideal.active)
      (T := l.ideal.total - min n (Dec.trunc (l.ideal.stake w))) ht hf rfl
    refine ⟨slack', sp + settledSlack l.f1 slack w + Dec.one, ?_⟩
    · rw [← hr.stake w] at this
      exact this
  | withdraw w =>
    obtain ⟨slack', ht, hf⟩ := touch_withdraw hr.inv h.fair w
    have := h.touch hr hd w (b := l.ideal.active) (T := l.ideal.total) ht hf rfl
    refine ⟨slack', sp + settledSlack l.f1 slack w + Dec.one, ?_⟩
    · rw [← hr.stake w] at this
      exact this
  | slash q =>
    refine ⟨fun a => grow l.f1 slack a + Dec.one, sp, ?_⟩
    have hf := h.fair.slash hr.inv q
    have hdels := dels_slash l.f1 q
    refine ⟨hf, ?_, ?_, ?_, ?_, ?_, ?_, ?_⟩
    · intro a ha dn
      exact h.fnon a (by rw [← hdels]; exact ha) dn
    · intro a x hx
      exact h.base a x (by rw [← hdels]; exact hx)
    · intro a x hx
      have hx' : l.f1.dels.get? a = some x := by rw [← hdels]; exact hx
      refine since_step (h.each a x hx') (balance_le_base h hx') ?_
      unfold grow; omega
    · show sp + slackSum (slash l.f1 q).1 (fun a => grow l.f1 slack a + Dec.one)
        ≤ budget (l.ops + 1) (max l.maxTotal _) (l.dust + l.f1.dels.size)
      have e : slackSum (slash l.f1 q).1 (fun a => grow l.f1 slack a + Dec.one)
          = slackSum l.f1 slack + balSum l.f1 + l.f1.dels.size * Dec.one := by
        rw [← slackSum_grow, ← sum_const]
        unfold slackSum
        rw [hdels, Map.sum_add]
      rw [e]
      have h2 := h.tot
      have h3 := balSum_le_period hr hd h.maxT
      refine le_trans ?_ (budget_mono (Nat.le_refl _) (Nat.le_max_left _ _) (Nat.le_refl _))
      rw [budget_succ]
      have e2 : budget l.ops l.maxTotal (l.dust + l.f1.dels.size)
          = budget l.ops l.maxTotal l.dust + l.f1.dels.size * Dec.one := by unfold budget; ring
      rw [e2]
      omega
    · intro dn
      have := h.paid dn
      show oneQ * oneQ * ((l.paidOut dn + Coins.zero.amt dn : Nat) : ℚ) ≤ oneQ * oneQ * (l.fairPaid dn + 0) + (sp : ℚ)
      simpa using this
    · intro dn
      have h1 := h.fsum dn
      show l.fairPaid dn + 0 + (slash l.f1 q).1.dels.sum (fun a _ => l.ideal.fair a dn)
        ≤ ((l.paidIn dn + 0 : Nat) : ℚ) * (1 + ((l.dust + l.f1.dels.size : Nat) : ℚ) / oneQ)
      rw [hdels]
      unfold fairSum at h1
      have hp : (0 : ℚ) ≤ (l.paidIn dn : ℚ) := by exact_mod_cast Nat.zero_le _
      have h2 : (l.dust : ℚ) / oneQ ≤ ((l.dust + l.f1.dels.size : Nat) : ℚ) / oneQ := by
        apply div_le_div_of_nonneg_right _ (le_of_lt oneQ_pos)
        exact_mod_cast Nat.le_add_right _ _
      have h3 := mul_le_mul_of_nonneg_left (add_le_add_left h2 1) hp
      rw [Nat.add_zero]
      linarith
    · exact Nat.le_max_right _ _
  | payout c =>
    have hf := h.fair.payout c
    have hdels : (payout l.f1 c).dels = l.f1.dels := by unfold payout; cases l.f1.data <;> rfl
    have hstake : ∀ a, balance l.f1 a = l.ideal.stake a := fun a => (hr.stake a).symm
    refine ⟨slack, sp, ?_, ?_, ?_, ?_, ?_, ?_, ?_, ?_⟩
    · have e : (fun a dn => l.ideal.fair a dn
          + (c.amt dn : ℚ) * ((balance l.f1 a : ℚ) / ((l.f1.d.total : ℚ) * oneQ)))
          = ((l.step (.payout c)).ideal.fair) := by
        funext a dn
        rw [hstake, ← hr.total]; rfl
      rw [e] at hf
      exact hf
    · intro a ha dn
      have ha' : l.f1.dels.get? a = none := by rw [← hdels]; exact ha
      show l.ideal.fair a dn + (c.amt dn : ℚ) * ((l.ideal.stake a : ℚ) / _) = 0
      rw [h.fnon a ha' dn, ← hstake, balance_none ha']
      simp
    · intro a x hx
      exact h.base a x (by rw [← hdels]; exact hx)
    · intro a x hx
      have hx' : l.f1.dels.get? a = some x := by rw [← hdels]; exact hx
      refine since_step (h.each a x hx') (balance_le_base h hx') ?_
      omega
    · show sp + slackSum (payout l.f1 c) slack ≤ budget (l.ops + 1) (max l.maxTotal _) (l.dust + 0)
      rw [slackSum_congr hdels (fun _ _ _ => rfl)]
      exact le_trans h.tot (budget_mono (Nat.le_succ _) (Nat.le_max_left _ _) (Nat.le_refl _))
    · intro dn
      have := h.paid dn
      show oneQ * oneQ * ((l.paidOut dn + Coins.zero.amt dn : Nat) : ℚ) ≤ oneQ * oneQ * (l.fairPaid dn + 0) + (sp : ℚ)
      simpa using this
    · intro dn
      have h1 := h.fsum dn
      have hp := oneQ_pos
      show l.fairPaid dn + 0 + fairSum (payout l.f1 c)
          (fun a dn => l.ideal.fair a dn + (c.amt dn : ℚ) * ((l.ideal.stake a : ℚ) / ((l.ideal.total : ℚ) * oneQ))) dn
        ≤ ((l.paidIn dn + (if l.ideal.active then c.amt dn else 0) : Nat) : ℚ) * (1 + ((l.dust + 0 : Nat) : ℚ) / oneQ)
      rw [fairSum_add l.f1 _ hdels l.ideal.fair l.ideal.stake (fun dn => (c.amt dn : ℚ))]
      have hsum : l.f1.dels.sum (fun a _ => l.ideal.stake a) = balSum l.f1 := by
        unfold balSum
        exact Map.sum_congr _ _ _ (fun a _ _ => hr.stake a)
      rw [hsum]
      have hc : (0 : ℚ) ≤ (c.amt dn : ℚ) := by exact_mod_cast Nat.zero_le _
      have hdq : (0 : ℚ) ≤ (l.dust : ℚ) := by exact_mod_cast Nat.zero_le _
      have key : (c.amt dn : ℚ) * (balSum l.f1 : ℚ) / ((l.ideal.total : ℚ) * oneQ)
          ≤ ((if l.ideal.active then c.amt dn else 0 : Nat) : ℚ) * (1 + (l.dust : ℚ) / oneQ) := by
        by_cases ht : l.ideal.total = 0
        · rw [ht]; simp
          positivity
        · have hact : l.ideal.active = true := by
            cases hh : l.f1.data with
            | none =>
              exfalso; apply ht
              rw [hr.total]; unfold F1.d; rw [hh]; rfl
            | some d => rw [hr.active, hh]; rfl
          rw [hact, if_pos rfl]
          have htq : (1 : ℚ) ≤ (l.ideal.total : ℚ) := by exact_mod_cast Nat.one_le_iff_ne_zero.2 ht
          have hcov : (balSum l.f1 : ℚ) ≤ (l.ideal.total : ℚ) * oneQ + (l.dust : ℚ) := by
            have := hr.cover
            rw [← hr.total] at this
            exact_mod_cast this
          rw [mul_div_assoc]
          apply mul_le_mul_of_nonneg_left _ hc
          rw [div_le_iff₀ (by positivity)]
          have e : (1 + (l.dust : ℚ) / oneQ) * ((l.ideal.total : ℚ) * oneQ)
              = (l.ideal.total : ℚ) * oneQ + (l.dust : ℚ) * (l.ideal.total : ℚ) := by
            field_simp
          rw [e]
          nlinarith
      push_cast at key ⊢
      simp only [add_zero]
      linarith [h1, key]
    · exact Nat.le_max_right _ _

theorem Ledger.Reachable.linv {l : Ledger} (h : Ledger.Reachable l) : ∃ slack sp, LInv l slack sp := by
  induction h with
  | init => exact ⟨_, _, LInv.init⟩
  | @step l op hl hq hd ih =>
    obtain ⟨slack, sp, ih⟩ := ih
    exact ih.step hl.rinv.1 hl.rinv.2 op

end Verif.Delegation
