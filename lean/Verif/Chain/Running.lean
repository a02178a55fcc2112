import Verif.Chain.Fundings
import Verif.Chain.Pools

/-!
# C54: what it takes for a pool to run

The conditions under which the pool status is "active" or "no funds", in terms of the stores and without the functions of
the code.
-/

set_option linter.dupNamespace false
namespace Verif.Chain
open Verif
open Chain

/-! ## specification -/

/-- the delegation of all stakers that have a valaccount in pool `id`, added up -/
def Chain.stakeIn (c : Chain) (id : Nat) : Nat :=
  ((c.st.vals.keys.filter (fun k => k.1 == id)).map (fun k => c.del.amount k.2)).sum

/-- Pool `p` with this `id` runs: no upgrade is going on, it is enabled, it has not reached its end key, its members
have enough delegation together, and none of them has more than the allowed part of it (the part is a decimal with 18
digits). -/
structure Runs (c : Chain) (id : Nat) (p : Pool.Pool) : Prop where
  noUpgrade : p.plan.scheduledAt = 0 ∨ c.now < p.plan.scheduledAt
  enabled : p.disabled = false
  goesOn : p.endKey = 0 ∨ p.currentKey ≠ p.endKey
  enough : p.minDelegation ≤ c.stakeIn id
  balanced : ∀ a v, c.st.vals.get? (id, a) = some v →
    c.del.amount a * 10 ^ 18 ≤ c.pool.params.maxVotingPowerPerPool * c.stakeIn id

namespace Chain

/-! ## proofs -/

theorem stakeIn_eq (c : Chain) (id : Nat) : c.stakeIn id = Bundles.stakeAll (c.members id) c.del.amount := by
  unfold stakeIn Bundles.stakeAll members Stakers.State.stakersOf
  rw [List.map_map]
  rfl

theorem totalOf_eq {c : Chain} (h : Delegation.totalAll c.del < 2 ^ 63) (id : Nat) : c.totalOf id = c.stakeIn id := by
  have hs := lt_of_le_of_lt (stake_le_total c.del (c.members id) (Stakers.stakersOf_nodup _ _)) h
  have e := stakeIn_eq c id
  unfold totalOf Bundles.power
  rw [e]
  exact Nat.mod_eq_of_lt (lt_trans hs (by decide))

theorem foldl_max_le (l : List Nat) (n x : Nat) : l.foldl max n ≤ x ↔ n ≤ x ∧ ∀ y ∈ l, y ≤ x := by
  induction l generalizing n with
  | nil => simp
  | cons y l ih =>
    rw [List.foldl_cons, ih]
    constructor
    · rintro ⟨h1, h2⟩
      exact ⟨(le_max_left _ _).trans h1, fun z hz => by
        rcases List.mem_cons.1 hz with rfl | hz
        · exact (le_max_right _ _).trans h1
        · exact h2 z hz⟩
    · rintro ⟨h1, h2⟩
      exact ⟨max_le h1 (h2 y (List.mem_cons_self ..)), fun z hz => h2 z (List.mem_cons_of_mem _ hz)⟩

theorem le_trunc_iff (n x : Nat) : n ≤ Dec.trunc x ↔ n * 10 ^ 18 ≤ x := by
  unfold Dec.trunc Dec.one
  exact Nat.le_div_iff_mul_le (by decide)

theorem canRun_iff {c : Chain} (h : Delegation.totalAll c.del < 2 ^ 63) {id : Nat} {p : Pool.Pool}
    (hp : c.pool.pools.get? id = some p) : CanRun c id p ↔ Runs c id p := by
  have hb : c.highestOf id ≤ c.maxDelegation id ↔ ∀ a v, c.st.vals.get? (id, a) = some v →
      c.del.amount a * 10 ^ 18 ≤ c.pool.params.maxVotingPowerPerPool * c.stakeIn id := by
    unfold highestOf maxDelegation
    rw [totalOf_eq h, foldl_max_le]
    constructor
    · rintro ⟨-, h2⟩ a v ha
      refine (le_trunc_iff _ _).1 (h2 _ (List.mem_map.2 ⟨a, mem_members.2 ?_, rfl⟩))
      unfold member
      exact (Stakers.has_iff _ _).2 ⟨v, ha⟩
    · intro h2
      refine ⟨Nat.zero_le _, fun y hy => ?_⟩
      obtain ⟨a, ha, rfl⟩ := List.mem_map.1 hy
      obtain ⟨v, hv⟩ := (Stakers.has_iff _ _).1 (show c.st.vals.has (id, a) = true from mem_members.1 ha)
      exact (le_trunc_iff _ _).2 (h2 a v hv)
  constructor
  · intro hr
    exact ⟨hr.noUpgrade, hr.enabled, hr.open_, by rw [← totalOf_eq h]; exact hr.enough, hb.1 hr.balanced⟩
  · intro hr
    exact ⟨hp, hr.noUpgrade, hr.enabled, hr.goesOn, by rw [totalOf_eq h]; exact hr.enough, hb.2 hr.balanced⟩

theorem sumL_zero {l : List Coins} : (∀ d, (Coins.sumL l).amt d = 0) ↔ ∀ x ∈ l, ∀ d, x.amt d = 0 := by
  have e : ∀ d, (Coins.sumL l).amt d = (l.map (·.amt d)).sum := fun d => Coins.amt_sumL l d
  constructor
  · intro h x hx d
    have := h d
    rw [e] at this
    exact (List.sum_eq_zero_iff.1 this) _ (List.mem_map.2 ⟨x, hx, rfl⟩)
  · intro h d
    rw [e]
    refine List.sum_eq_zero_iff.2 fun y hy => ?_
    obtain ⟨x, hx, rfl⟩ := List.mem_map.1 hy
    exact h x hx d

theorem funds_zero {w : Funders.World} (h : Funders.Inv w) (id : Nat) :
    (∀ d, (Funders.totalActiveFunding w.s id).amt d = 0) ↔ ∀ a d, (Funders.Spec.left w a id).amt d = 0 := by
  unfold Funders.totalActiveFunding
  have hl : ∀ a, Funders.Spec.left w a id =
      (match w.s.funding? a id with | some f => f.amounts | none => Coins.zero) := fun _ => rfl
  cases ha : w.s.active.get? id with
  | none =>
    refine ⟨fun _ a d => ?_, fun _ d => by simp⟩
    rw [hl]
    cases hf : w.s.funding? a id with
    | none => simp
    | some f => obtain ⟨l, hx⟩ := h.toSInv.has a id f hf; rw [ha] at hx; cases hx
  | some l =>
    simp only
    rw [sumL_zero]
    constructor
    · intro h0 a d
      by_contra hd
      rw [hl] at hd
      cases hf : w.s.funding? a id with
      | none => rw [hf] at hd; simp at hd
      | some f =>
        rw [hf] at hd
        obtain ⟨l', hl', hal⟩ := h.toSInv.act a id f d hf hd
        rw [ha] at hl'
        injection hl' with hl'
        have := h0 _ (List.mem_map.2 ⟨a, hl' ▸ hal, rfl⟩) d
        rw [hf] at this
        exact hd this
    · intro h0 x hx d
      obtain ⟨a, -, rfl⟩ := List.mem_map.1 hx
      exact h0 a d

/-- C54: the status of every pool of every reachable chain is "active" or "no funds" exactly if the pool runs; "no funds"
exactly if it runs and no funder has any coin left in it. -/
theorem C54_conditions (gov : Addr) (c : Chain) (h : Reachable gov c) (id : Nat) (p : Pool.Pool)
    (hp : c.pool.pools.get? id = some p) :
    ((c.poolStatus p = .active ∨ c.poolStatus p = .noFunds) ↔ Runs c id p) ∧
    (c.poolStatus p = .noFunds ↔ Runs c id p ∧ ∀ a d, c.left id a d = 0) := by
  obtain ⟨-, h1, h2⟩ := C54_reachable gov c h id p hp
  have hr := canRun_iff (Reachable.good h).sane.small hp
  refine ⟨h1.trans hr, h2.trans (and_congr hr ?_)⟩
  exact funds_zero (Reachable.good h).mods.fund.reach.inv id

/-- C54: the error that stops a message names a condition that fails. -/
theorem C54_reason (gov : Addr) (c : Chain) (h : Reachable gov c) (id : Nat) (p : Pool.Pool)
    (hp : c.pool.pools.get? id = some p) :
    (c.poolStatus p = .upgrading → 0 < p.plan.scheduledAt ∧ p.plan.scheduledAt ≤ c.now) ∧
    (c.poolStatus p = .disabled → p.disabled = true) ∧
    (c.poolStatus p = .endKeyReached → p.endKey ≠ 0 ∧ p.currentKey = p.endKey) ∧
    (c.poolStatus p = .notEnoughDelegation → c.stakeIn id < p.minDelegation) ∧
    (c.poolStatus p = .votingPowerTooHigh → ∃ a v, c.st.vals.get? (id, a) = some v ∧
      c.pool.params.maxVotingPowerPerPool * c.stakeIn id < c.del.amount a * 10 ^ 18) := by
  have hid := h.good.mods.pool.inv.key id p hp
  have ht := totalOf_eq (Reachable.good h).sane.small id
  have hc : ∀ s, c.poolStatus p = s → s ≠ .active → s ≠ .noFunds → ¬ Runs c id p := by
    intro s hs h1 h2 hr
    rcases ((C54_conditions gov c h id p hp).1).2 hr with h3 | h3
    · exact h1 (hs ▸ h3)
    · exact h2 (hs ▸ h3)
  refine ⟨fun e => ?_, fun e => ?_, fun e => ?_, fun e => ?_, fun e => ?_⟩ <;> unfold poolStatus at e
  · split at e
    · rename_i h1; exact h1
    · split at e; · cases e
      split at e; · cases e
      split at e; · cases e
      split at e; · cases e
      split at e <;> cases e
  · split at e; · cases e
    split at e
    · rename_i h1; exact h1
    · split at e; · cases e
      split at e; · cases e
      split at e; · cases e
      split at e <;> cases e
  · split at e; · cases e
    split at e; · cases e
    split at e
    · rename_i h1; exact ⟨h1.1, h1.2.symm⟩
    · split at e; · cases e
      split at e; · cases e
      split at e <;> cases e
  · split at e; · cases e
    split at e; · cases e
    split at e; · cases e
    split at e
    · rename_i h1; rw [hid, ht] at h1; exact h1
    · split at e; · cases e
      split at e <;> cases e
  · split at e; · cases e
    rename_i h1
    split at e; · cases e
    rename_i h2
    split at e; · cases e
    rename_i h3
    split at e; · cases e
    rename_i h4
    by_contra hn
    refine hc .votingPowerTooHigh ?_ (by decide) (by decide) ⟨by omega, by simpa using h2, ?_, ?_, ?_⟩
    · unfold poolStatus
      rw [if_neg h1, if_neg h2, if_neg h3, if_neg h4]
      exact e
    · by_contra hk
      push Not at hk
      exact h3 ⟨hk.1, hk.2.symm⟩
    · have h5 := h4
      rw [hid, ht] at h5; omega
    · intro a v ha
      by_contra hlt
      exact hn ⟨a, v, ha, Nat.lt_of_not_le hlt⟩

/-- four members with 100 each run; after 1000 more for one of them it has more than half; without members nothing runs -/
example : Sample.later.stakeIn 0 = 400 ∧
    (Sample.later.pool.pools.get? 0).map Sample.later.poolStatus = some .active ∧
    (Sample.run Sample.later [.delegate 50 1 1000]).stakeIn 0 = 1400 ∧
    ((Sample.run Sample.later [.delegate 50 1 1000]).pool.pools.get? 0).map
      (Sample.run Sample.later [.delegate 50 1 1000]).poolStatus = some .votingPowerTooHigh := by decide +kernel

end Chain
end Verif.Chain
