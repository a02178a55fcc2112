import Verif.Chain.Asleep

/-!
# C110 for several requests

A delegator may ask several times; each request is paid in its own time, and together they bring what was asked for, as far as
the delegation has it.  (One request and slashes: `Chain/RoundTrip.lean`.)
-/

set_option linter.dupNamespace false
namespace Verif.Chain
open Verif
open Chain
open Verif.Delegation (QEntry asked)

/-! ## specification -/

/-- the coins that `a` has asked for and still waits for -/
def Chain.owed (c : Chain) (st a : Addr) : Nat := ((c.requests st a).map (·.amount)).sum

/-- Between `c` and `x` some of the requests were paid: the others still wait, in order; the delegation is less by what was paid;
this is on the account, and the rewards are too, or can still be withdrawn. -/
structure Served (c : Chain) (st a : Addr) (x : Chain) : Prop where
  stake : x.whole st a = c.whole st a - (c.owed st a - x.owed st a)
  coins : ∀ d, (c.b (.user a)).amt d + c.earned st a d + (if d = kyve then min (c.owed st a - x.owed st a) (c.whole st a) else 0) ≤
    (x.b (.user a)).amt d + x.earned st a d

namespace Chain

/-! ## proofs -/

theorem sum_sublist {l l' : List QEntry} (h : l'.Sublist l) : (l'.map (·.amount)).sum ≤ (l.map (·.amount)).sum := by
  induction h with
  | slnil => exact Nat.le_refl _
  | cons a _ ih => simp only [List.map_cons, List.sum_cons]; omega
  | cons_cons a _ ih => simp only [List.map_cons, List.sum_cons]; omega

theorem sum_split (l : List QEntry) (p : QEntry → Bool) :
    ((l.filter p).map (·.amount)).sum + ((l.filter (fun e => !p e)).map (·.amount)).sum = (l.map (·.amount)).sum := by
  induction l with
  | nil => rfl
  | cons e l ih =>
    cases h : p e <;> simp [h] <;> omega

theorem _root_.Verif.Chain.Served.refl (c : Chain) (st a : Addr) : Served c st a c :=
  ⟨by simp, fun d => by simp⟩

theorem _root_.Verif.Chain.Served.trans {c x y : Chain} {st a : Addr} (h1 : Served c st a x) (h2 : Served x st a y)
    (s1 : x.owed st a ≤ c.owed st a) (s2 : y.owed st a ≤ x.owed st a) : Served c st a y := by
  have e1 := h1.stake
  have e2 := h2.stake
  refine ⟨by omega, fun d => ?_⟩
  have c1 := h1.coins d
  have c2 := h2.coins d
  by_cases hd : d = kyve
  · rw [if_pos hd] at c1 c2 ⊢; omega
  · rw [if_neg hd] at c1 c2 ⊢; omega

/-- the begin block -/
theorem served_block {gov : Addr} {c : Chain} (h : Reachable gov c) {dt pr te : Nat} {r : Bool}
    (hok : (c.step gov (.beginBlock dt pr te r)).crashed = false)
    (hh : (c.step gov (.beginBlock dt pr te r)).del.halted = false)
    (ho : c.now + dt + c.del.params.unbonding < 2 ^ 64) (st a : Addr) :
    ((c.step gov (.beginBlock dt pr te r)).requests st a).Sublist (c.requests st a) ∧
      Served c st a (c.step gov (.beginBlock dt pr te r)) := by
  have hr := requests_block h hok hh ho st a
  obtain ⟨-, h2, h3, h4, h5⟩ := C08_block gov c h dt pr te r _ rfl hok hh ho
  have ha : asked (c.matured (c.now + dt)) st a + (c.step gov (.beginBlock dt pr te r)).owed st a = c.owed st a := by
    unfold owed asked
    rw [hr, ← sum_split (c.requests st a) (fun e => decide (e.creation + c.del.params.unbonding ≤ c.now + dt))]
    congr 3
    · unfold matured requests
      rw [List.filter_filter, List.filter_filter]
      congr 1
      funext e
      rw [Bool.and_comm]
    · congr 1
      funext e
      rw [← decide_not]
      exact decide_eq_decide.2 (by omega)
  refine ⟨by rw [hr]; exact List.filter_sublist, ?_, fun d => ?_⟩
  · have := h2 st a
    omega
  · have h2 := h2 st a
    have h5 := h5 a d ((st :: (c.matured (c.now + dt)).map (·.staker)).dedup) (List.nodup_dedup _)
      (fun e he _ => List.mem_dedup.2 (List.mem_cons_of_mem _ (List.mem_map.2 ⟨e, he, rfl⟩)))
    have h6 := le_sum_map ((st :: (c.matured (c.now + dt)).map (·.staker)).dedup)
      (fun st => (if d = kyve then c.whole st a - (c.step gov (.beginBlock dt pr te r)).whole st a else 0) +
        (c.earned st a d - (c.step gov (.beginBlock dt pr te r)).earned st a d)) st
      (List.mem_dedup.2 (List.mem_cons_self))
    have h6 : (if d = kyve then c.whole st a - (c.step gov (.beginBlock dt pr te r)).whole st a else 0) +
      (c.earned st a d - (c.step gov (.beginBlock dt pr te r)).earned st a d) ≤ _ := h6
    rw [← Nat.add_le_add_iff_left (n := (c.b (.user a)).amt d), ← h5] at h6
    by_cases hd : d = kyve
    · rw [if_pos hd] at h6 ⊢; omega
    · rw [if_neg hd] at h6 ⊢; omega

/-- one operation that `a` did not sign -/
theorem served_step {gov : Addr} {x : Chain} (h : Reachable gov x) (st a : Addr) (op : Op) (ho : op.inner = true)
    (hs : op.signer ≠ some a) (hok : (x.step gov op).crashed = false)
    (hh : ∀ dt pr te r, op = .beginBlock dt pr te r → (x.step gov op).del.halted = false)
    (hb : ∀ dt pr te r, op = .beginBlock dt pr te r → x.now + dt + x.del.params.unbonding < 2 ^ 64) :
    ((x.step gov op).requests st a).Sublist (x.requests st a) ∧
    ∃ l, (x.step gov op).slashes = x.slashes ++ l ∧ ((∀ s ∈ l, s.1 ≠ st) → Served x st a (x.step gov op)) := by
  by_cases hbb : ∃ dt pr te r, op = .beginBlock dt pr te r
  · obtain ⟨dt, pr, te, r, rfl⟩ := hbb
    have := served_block h hok (hh dt pr te r rfl) (hb dt pr te r rfl) st a
    exact ⟨this.1, [], by rw [List.append_nil]; exact (plain_step h rfl).slashes, fun _ => this.2⟩
  · have hnb : ∀ dt pr te r, op ≠ .beginBlock dt pr te r := fun dt pr te r e => hbb ⟨dt, pr, te, r, e⟩
    have hr := requests_step h op ho st a hs hnb
    have hm : ¬ Matures x op st a := no_matures hb h (fun e _ dt pr te r e' => absurd e' (hnb dt pr te r))
    obtain ⟨l, h1, h2⟩ := C82_delegation gov x h op ho st a hs hm
    refine ⟨by rw [hr], l, h1, fun hl => ?_⟩
    have e : fractions st l = [] := by
      unfold fractions
      rw [List.map_eq_nil_iff, List.filter_eq_nil_iff]
      intro s hs
      simpa using hl s hs
    rw [e] at h2
    have eo : (x.step gov op).owed st a = x.owed st a := by unfold owed; rw [hr]
    refine ⟨?_, fun d => ?_⟩
    · rw [eo, Nat.sub_self, Nat.sub_zero]
      show (x.step gov op).owns st a / 10 ^ 18 = x.owns st a / 10 ^ 18
      rw [h2]; rfl
    · rw [eo, Nat.sub_self, Nat.zero_min, ite_self]
      have h3 := C81_coins gov x h op ho a d
      rw [if_neg hs] at h3
      have h4 := (C83_rewards gov x h op ho st a hs hm d).1
      omega

theorem served_without {gov : Addr} {c x : Chain} (h : Reachable gov c) {st a : Addr} (hw : Without gov a c x) :
    (x.requests st a).Sublist (c.requests st a) ∧
    ∃ l, x.slashes = c.slashes ++ l ∧ ((∀ s ∈ l, s.1 ≠ st) → Served c st a x) := by
  induction hw with
  | refl => exact ⟨List.Sublist.refl _, [], (List.append_nil _).symm, fun _ => Served.refl c st a⟩
  | step op hw ho hs _ hok hh hb ih =>
    obtain ⟨i1, l, i2, i3⟩ := ih
    obtain ⟨j1, l', j2, j3⟩ := served_step (Without.reachable h hw) st a op ho hs hok hh hb
    refine ⟨j1.trans i1, l ++ l', by rw [j2, i2, List.append_assoc], fun hl => ?_⟩
    exact (i3 fun s hs => hl s (List.mem_append_left _ hs)).trans (j3 fun s hs => hl s (List.mem_append_right _ hs))
      (sum_sublist i1) (sum_sublist j1)
  | @outside y b gd gs gf _ _ hd ih =>
    obtain ⟨i1, l, i2, i3⟩ := ih
    exact ⟨i1, l, i2, fun hl => ⟨(i3 hl).stake, fun d => le_trans ((i3 hl).coins d) (Nat.add_le_add_right (hd d) _)⟩⟩

end Chain

/-- C110, several requests: while the delegator signs nothing, the requests that are not paid still wait, in their order, and if
the staker is not slashed everything that was paid, and the rewards, are on the account. -/
theorem Chain.C110_several (gov : Addr) (c x : Chain) (h : Reachable gov c) (st a : Addr) (hw : Without gov a c x) :
    (x.requests st a).Sublist (c.requests st a) ∧
    ((∀ l, x.slashes = c.slashes ++ l → ∀ s ∈ l, s.1 ≠ st) → Served c st a x) := by
  obtain ⟨h1, l, h2, h3⟩ := served_without (st := st) h hw
  exact ⟨h1, fun hn => h3 (hn l h2)⟩

/-- C110, several requests: after a block that finds their unbonding time over they do not wait any more. -/
theorem Chain.C110_due (gov : Addr) (x : Chain) (h : Reachable gov x) (dt pr te : Nat) (r : Bool)
    (hok : (x.step gov (.beginBlock dt pr te r)).crashed = false)
    (hh : (x.step gov (.beginBlock dt pr te r)).del.halted = false)
    (ho : x.now + dt + x.del.params.unbonding < 2 ^ 64) (st a : Addr) :
    ∀ e, e ∈ (x.step gov (.beginBlock dt pr te r)).requests st a ↔
      e ∈ x.requests st a ∧ x.now + dt < e.creation + x.del.params.unbonding := by
  intro e
  rw [requests_block h hok hh ho st a, List.mem_filter, decide_eq_true_iff]

/-! ## a sample -/

namespace Sample

/-- staker 2 asks for 30 of its 100 and, some minutes later, for 80 -/
def twice : Chain := run second [.undelegate 2 2 30, .beginBlock 1000 0 0 false, .endBlock, .undelegate 2 2 80]
/-- the first request is due -/
def firstDue : Chain := run twice [.delegate 50 2 7, .beginBlock 431000 0 0 false, .endBlock]
/-- and the second -/
def bothDue : Chain := run firstDue [.beginBlock 1000 0 0 true]

theorem reach_twice : Reachable gov twice := run_reachable reach_second _ (by decide +kernel)
theorem twice_firstDue : Without gov 2 twice firstDue := run_without .refl _ (by decide +kernel)
theorem twice_bothDue : Without gov 2 twice bothDue := run_without twice_firstDue _ (by decide +kernel)

/-- staker 2 has 100 and asked for 110: it gets the 100 -/
example : Served twice 2 2 bothDue := by
  refine (Chain.C110_several gov _ _ reach_twice 2 2 twice_bothDue).2 (fun l hl s hs => ?_)
  have e := congrArg List.length hl
  rw [List.length_append, show bothDue.slashes.length = 0 by decide +kernel, show twice.slashes.length = 0 by decide +kernel] at e
  have : l = [] := List.length_eq_zero_iff.1 (by omega)
  subst this
  cases hs
example : twice.requests 2 2 = [⟨2, 2, 120, 30⟩, ⟨2, 2, 1120, 80⟩] ∧ firstDue.requests 2 2 = [⟨2, 2, 1120, 80⟩] ∧
    bothDue.requests 2 2 = [] := by decide +kernel
example : twice.whole 2 2 = 100 ∧ firstDue.whole 2 2 = 70 ∧ bothDue.whole 2 2 = 0 ∧ twice.earned 2 2 kyve = 0 ∧
    twice.owed 2 2 = 110 ∧ firstDue.owed 2 2 = 80 ∧
    (bothDue.b (.user 2)).amt kyve = (twice.b (.user 2)).amt kyve + 100 := by decide +kernel

end Sample

end Verif.Chain
