import Verif.Chain.RoundTrip
import Verif.Chain.Commission

/-!
# C117: doing nothing is safe

Whoever signs nothing keeps what it has: over a history of any length, in which everybody else does what they like, the
account, the rewards and the commission of a user do not become less, and its delegation to a staker is only reduced by the
slashes of this staker.  (For funders: `Chain/Lasting.lean`.)
-/

set_option linter.dupNamespace false
namespace Verif.Chain
open Verif
open Chain

/-! ## specification -/

/-- what user `a` had in `c` it still has in `x`: the coins on the account, the delegation to `st` up to the slashes of `st`, in
order, each by its fraction, the rewards from `st` that can be withdrawn, and the commission that can be claimed -/
structure Keeps (c : Chain) (st a : Addr) (x : Chain) : Prop where
  account : ∀ d, (c.b (.user a)).amt d ≤ (x.b (.user a)).amt d
  stake : ∃ l, x.slashes = c.slashes ++ l ∧ x.owns st a = (fractions st l).foldl shrink (c.owns st a)
  rewards : ∀ d, c.earned st a d ≤ x.earned st a d
  commission : ∀ d, c.unclaimed a d ≤ x.unclaimed a d

namespace Chain

/-! ## proofs -/

theorem _root_.Verif.Chain.Keeps.refl (c : Chain) (st a : Addr) : Keeps c st a c :=
  ⟨fun _ => Nat.le_refl _, ⟨[], by simp, rfl⟩, fun _ => Nat.le_refl _, fun _ => Nat.le_refl _⟩

theorem _root_.Verif.Chain.Keeps.trans {c x y : Chain} {st a : Addr} (h1 : Keeps c st a x) (h2 : Keeps x st a y) : Keeps c st a y := by
  obtain ⟨l, e1, e2⟩ := h1.stake
  obtain ⟨l', e3, e4⟩ := h2.stake
  refine ⟨fun d => le_trans (h1.account d) (h2.account d), ⟨l ++ l', by rw [e3, e1, List.append_assoc], ?_⟩,
    fun d => le_trans (h1.rewards d) (h2.rewards d), fun d => le_trans (h1.commission d) (h2.commission d)⟩
  rw [e4, e2, fractions_append, List.foldl_append]

/-- one operation that `a` did not sign; `a` has not asked to undelegate from `st` -/
theorem keeps_step {gov : Addr} {x : Chain} (h : Reachable gov x) {st a : Addr} (hr : x.requests st a = []) (op : Op)
    (ho : op.inner = true) (hs : op.signer ≠ some a) (hn : Sane (x.step gov op))
    (hb : ∀ dt pr te r, op = .beginBlock dt pr te r → x.now + dt + x.del.params.unbonding < 2 ^ 64) :
    Keeps x st a (x.step gov op) := by
  have hm : ¬ Matures x op st a := no_matures hb h (fun e he => by rw [hr] at he; cases he)
  refine ⟨fun d => ?_, C82_delegation gov x h op ho st a hs hm, fun d => (C83_rewards gov x h op ho st a hs hm d).1,
    fun d => (C85_commission gov x h op hn ho a (fun y hy => ?_) d).1⟩
  · have := C81_coins gov x h op ho a d
    rwa [if_neg hs, Nat.add_zero] at this
  · subst hy; exact hs rfl

/-- and still has not -/
theorem requests_nil {gov : Addr} {x : Chain} (h : Reachable gov x) {st a : Addr} (hr : x.requests st a = []) (op : Op)
    (ho : op.inner = true) (hs : op.signer ≠ some a) (hok : (x.step gov op).crashed = false)
    (hh : ∀ dt pr te r, op = .beginBlock dt pr te r → (x.step gov op).del.halted = false)
    (hb : ∀ dt pr te r, op = .beginBlock dt pr te r → x.now + dt + x.del.params.unbonding < 2 ^ 64) :
    (x.step gov op).requests st a = [] := by
  by_cases hbb : ∃ dt pr te r, op = .beginBlock dt pr te r
  · obtain ⟨dt, pr, te, r, rfl⟩ := hbb
    rw [requests_block h hok (hh dt pr te r rfl) (hb dt pr te r rfl), hr]
    rfl
  · rw [requests_step h op ho st a hs (fun dt pr te r e => hbb ⟨dt, pr, te, r, e⟩)]
    exact hr

theorem keeps_without {gov : Addr} {c x : Chain} (h : Reachable gov c) {st a : Addr} (hr : c.requests st a = [])
    (hw : Without gov a c x) : Keeps c st a x ∧ x.requests st a = [] := by
  induction hw with
  | refl => exact ⟨Keeps.refl c st a, hr⟩
  | step op hw ho hs hn hok hh hb ih =>
    have hx := Without.reachable h hw
    exact ⟨ih.1.trans (keeps_step hx ih.2 op ho hs hn hb), requests_nil hx ih.2 op ho hs hok hh hb⟩
  | @outside y b gd gs gf _ _ hd ih =>
    exact ⟨ih.1.trans ⟨hd, ⟨[], (List.append_nil _).symm, rfl⟩, fun _ => Nat.le_refl _, fun _ => Nat.le_refl _⟩, ih.2⟩

end Chain

/-- C117: over any history in which the user signs nothing, the user keeps what it has. -/
theorem Chain.C117_keeps (gov : Addr) (c x : Chain) (h : Reachable gov c) (st a : Addr) (hr : c.requests st a = [])
    (hw : Without gov a c x) : Keeps c st a x :=
  (keeps_without h hr hw).1

/-- C117: so as long as the staker is not slashed the delegation is the same to the last coin. -/
theorem Chain.C117_whole (gov : Addr) (c x : Chain) (h : Reachable gov c) (st a : Addr) (hr : c.requests st a = [])
    (hw : Without gov a c x) (hn : ∀ l, x.slashes = c.slashes ++ l → ∀ s ∈ l, s.1 ≠ st) :
    x.whole st a = c.whole st a := by
  obtain ⟨l, h1, h2⟩ := (C117_keeps gov c x h st a hr hw).stake
  have e : fractions st l = [] := by
    unfold fractions
    rw [List.map_eq_nil_iff, List.filter_eq_nil_iff]
    intro s hs
    simpa using hn l h1 s hs
  rw [e] at h2
  show x.owns st a / 10 ^ 18 = c.owns st a / 10 ^ 18
  rw [h2]
  rfl

/-- staker 2 sleeps while others delegate, a block passes and a bundle is decided -/
example : Keeps Sample.second 2 2 (Sample.run Sample.second [.delegate 50 2 7, .beginBlock 60 0 0 false, .endBlock]) :=
  Chain.C117_keeps Sample.gov _ _ Sample.reach_second 2 2 (by decide +kernel)
    (Sample.run_without .refl _ (by decide +kernel))

/-- staker 1 sleeps while it is slashed by 20% -/
example : Keeps Sample.disputed 1 1 (Sample.run Sample.disputed [.endBlock, .delegate 50 2 7]) ∧
    fractions 1 (Sample.run Sample.disputed [.endBlock, .delegate 50 2 7]).slashes = [200000000000000000] ∧
    Sample.disputed.owns 1 1 = 100 * Dec.one ∧
    (Sample.run Sample.disputed [.endBlock, .delegate 50 2 7]).owns 1 1 = 80 * Dec.one :=
  ⟨Chain.C117_keeps Sample.gov _ _ Sample.reach_disputed 1 1 (by decide +kernel)
    (Sample.run_without .refl _ (by decide +kernel)), by decide +kernel, by decide +kernel, by decide +kernel⟩

end Verif.Chain
