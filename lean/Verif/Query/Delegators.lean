import Verif.Chain.Homes
import Verif.Query.Account
import Verif.Query.Client

/-!
# C70: who delegates to whom

The queries `Delegator`, `DelegatorsByStaker` and `StakersByDelegator`.
-/

set_option linter.dupNamespace false
namespace Verif.Chain
open Verif
namespace Chain

/-! ## model -/

/-- proto `StakerDelegatorResponse` (of `DelegationForStakerResponse` without the staker's own data, for those see
`Query/Stakers.lean`) -/
structure DelegationRow where
  staker : Addr
  delegator : Addr
  rewards : Coins
  amount : Nat
deriving DecidableEq, Repr

/-- x/query/keeper/grpc_delegation_delegator.go:16-32 `Delegator` -/
def delegatorQuery (c : Chain) (st d : Addr) : DelegationRow :=
  { staker := st, delegator := d
    rewards := Delegation.outstanding (c.del.at st) d
    amount := Delegation.curDel (c.del.at st) d }

/-- x/query/keeper/grpc_delegation_delegators_by_staker.go:17-60 `DelegatorsByStaker`, the rows and the next key: the
store below the prefix of the staker -/
def delegatorsPage (c : Chain) (st : Addr) (limit : Nat) (total : Bool) (key : Option Addr) :
    Option (List DelegationRow × Option Addr) :=
  some ((Query.filteredPaginate (c.del.at st).dels (fun _ => true) limit total key).1.map (fun e => c.delegatorQuery st e.1),
    (Query.filteredPaginate (c.del.at st).dels (fun _ => true) limit total key).2)

/-- grpc_delegation_delegators_by_staker.go:50-55 `TotalDelegation` and `TotalDelegatorCount`; zero without data -/
def delegatorsTotals (c : Chain) (st : Addr) : Nat × Nat :=
  (((c.del.at st).data.map (·.total)).getD 0, ((c.del.at st).data.map (·.count)).getD 0)

/-- x/query/keeper/grpc_delegation_stakers_by_delegator.go:17-51 `StakersByDelegator`: the secondary index below the
prefix of the delegator, which is written and deleted together with the entries it points to (getters_delegator.go:22-35,
67-84) -/
def stakersPage (c : Chain) (d : Addr) (limit : Nat) (total : Bool) (key : Option Addr) :
    Option (List DelegationRow × Option Addr) :=
  some ((Query.filteredPaginate (c.del.f1.restrict (fun st => (c.del.at st).dels.has d)) (fun _ => true) limit total key).1.map
      (fun e => c.delegatorQuery e.1 d),
    (Query.filteredPaginate (c.del.f1.restrict (fun st => (c.del.at st).dels.has d)) (fun _ => true) limit total key).2)

/-! ## C70 -/

variable {c c' : Chain} {gov : Addr}

theorem delegators_shows (c : Chain) (st : Addr) (limit : Nat) (total : Bool) :
    Query.Shows (c.delegatorsPage st limit total) (c.del.at st).dels (fun _ => true) limit total
      (fun e => some (c.delegatorQuery st e.1)) := by
  intro k
  rw [Query.mapM_some]; rfl

theorem stakers_shows (c : Chain) (d : Addr) (limit : Nat) (total : Bool) :
    Query.Shows (c.stakersPage d limit total) (c.del.f1.restrict (fun st => (c.del.at st).dels.has d)) (fun _ => true)
      limit total (fun e => some (c.delegatorQuery e.1 d)) := by
  intro k
  rw [Query.mapM_some]; rfl

theorem filter_true {α : Type} (l : List α) : l.filter (fun _ => true) = l := by
  rw [List.filter_eq_self]; intro a _; rfl

theorem delegators_all {st : Addr} {limit : Nat} {total : Bool} {ps : List (List DelegationRow)}
    (h : Query.Pages (c.delegatorsPage st limit total) none ps) :
    ps.flatten = (c.del.at st).dels.keys.map (c.delegatorQuery st) := by
  rw [Query.Pages.map (delegators_shows c st limit total) h, filter_true]
  unfold Map.keys
  rw [List.map_map]; rfl

theorem stakers_all {d : Addr} {limit : Nat} {total : Bool} {ps : List (List DelegationRow)}
    (h : Query.Pages (c.stakersPage d limit total) none ps) :
    ps.flatten = (c.stakersByDelegator d).map (fun st => c.delegatorQuery st d) := by
  rw [Query.Pages.map (stakers_shows c d limit total) h, filter_true]
  unfold stakersByDelegator Map.keys
  show (c.del.f1.toList.filter (fun e => (c.del.at e.1).dels.has d)).map _ = _
  rw [List.filter_map, List.map_map]
  rfl

/-- C70: reading all pages of `DelegatorsByStaker` gives every delegator of the staker exactly once, with the answer of
the query `Delegator`; there are as many as `TotalDelegatorCount` says, and together they own at most `TotalDelegation`.
Whoever has delegators is a registered staker. -/
theorem C70_delegators (h : Reachable gov c) (st : Addr) {limit : Nat} {total : Bool} {ps : List (List DelegationRow)}
    (hp : Query.Pages (c.delegatorsPage st limit total) none ps) :
    (ps.flatten.map (·.delegator)).Nodup ∧
    (∀ d, d ∈ ps.flatten.map (·.delegator) ↔ (c.del.at st).dels.has d = true) ∧
    (∀ r ∈ ps.flatten, r = c.delegatorQuery st r.delegator) ∧
    ps.flatten.length = (c.delegatorsTotals st).2 ∧
    (ps.flatten.map (·.amount)).sum ≤ (c.delegatorsTotals st).1 ∧ (c.delegatorsTotals st).1 = c.del.amount st ∧
    (ps.flatten ≠ [] → c.st.stakers.has st = true) := by
  have hg := Reachable.good h
  have hi : Delegation.F1Inv (c.del.at st) := hg.mods.del.winv.tied.f1inv st
  have e := delegators_all hp
  have e1 : ps.flatten.map (·.delegator) = (c.del.at st).dels.keys := by
    rw [e, List.map_map]
    exact List.map_id _
  have ht : (c.delegatorsTotals st).1 = c.del.amount st := by
    unfold delegatorsTotals Delegation.State.amount
    cases (c.del.at st).data with
    | none => rfl
    | some d => rfl
  refine ⟨by rw [e1]; exact Map.keys_nodup _, ?_, ?_, ?_, ?_, ht, ?_⟩
  · intro d
    rw [e1, Map.mem_keys_iff, Stakers.has_iff]
  · intro r hr
    rw [e] at hr
    obtain ⟨d, -, rfl⟩ := List.mem_map.mp hr
    rfl
  · rw [e, List.length_map]
    have hk : (c.del.at st).dels.keys.length = (c.del.at st).dels.size := by unfold Map.keys Map.size; rw [List.length_map]
    rw [hk]
    show _ = ((c.del.at st).data.map (·.count)).getD 0
    cases hd : (c.del.at st).data with
    | none => rw [(hi.dnone hd).1]; rfl
    | some d => exact (hi.dsome d hd).cnt.symm
  · rw [ht, e, List.map_map]
    have h1 := (Delegation.C02_module hg.mods.del st).1
    have h2 : ((c.del.at st).dels.keys.map ((·.amount) ∘ c.delegatorQuery st)).sum =
        ((c.del.at st).dels.keys.map (Delegation.curDel (c.del.at st))).sum := rfl
    rw [h2]
    refine le_trans (le_of_eq ?_) h1
    unfold Map.sum Map.keys
    rw [List.map_map]; rfl
  · intro hne
    refine Reachable.housed h st ?_
    cases hd : (c.del.at st).data with
    | some d => rfl
    | none =>
      exfalso
      apply hne
      rw [e, (hi.dnone hd).1]; rfl

/-- C70: reading all pages of `StakersByDelegator` gives every staker the delegator has a delegation with exactly once,
with the answer of the query `Delegator`; the amounts add up to the delegation `AccountAssets` shows, and all the stakers
are registered. -/
theorem C70_stakers (h : Reachable gov c) (d : Addr) {limit : Nat} {total : Bool} {ps : List (List DelegationRow)}
    (hp : Query.Pages (c.stakersPage d limit total) none ps) :
    (ps.flatten.map (·.staker)).Nodup ∧
    (∀ st, st ∈ ps.flatten.map (·.staker) ↔ (c.del.at st).dels.has d = true) ∧
    (∀ r ∈ ps.flatten, r = c.delegatorQuery r.staker d ∧ c.st.stakers.has r.staker = true) ∧
    (∀ x, c.accountAssets d = some x → (ps.flatten.map (·.amount)).sum = x.delegation) := by
  have hg := Reachable.good h
  have e := stakers_all hp
  have e1 : ps.flatten.map (·.staker) = c.stakersByDelegator d := by
    rw [e, List.map_map]
    exact List.map_id _
  have hmem : ∀ st, st ∈ c.stakersByDelegator d ↔ (c.del.at st).dels.has d = true := by
    intro st
    unfold stakersByDelegator
    rw [List.mem_filter]
    exact ⟨fun x => x.2, fun x => ⟨dels_f1 st d x, x⟩⟩
  refine ⟨?_, ?_, ?_, ?_⟩
  · rw [e1]; exact (Map.keys_nodup _).filter _
  · intro st; rw [e1]; exact hmem st
  · intro r hr
    rw [e] at hr
    obtain ⟨st, hst, rfl⟩ := List.mem_map.mp hr
    refine ⟨rfl, Reachable.housed h st ?_⟩
    obtain ⟨x, hx⟩ := (Stakers.has_iff _ _).mp ((hmem st).mp hst)
    obtain ⟨y, hy⟩ := (hg.mods.del.winv.tied.f1inv st).data_of_del hx
    show (c.del.at st).data.isSome = true
    have hy' : (c.del.at st).data = some y := hy
    rw [hy']; rfl
  · intro x hx
    rw [(C61_delegation h d hx).2.1, ← owned_eq, e, List.map_map]
    rfl

/-- C70: the rewards of a row are what the delegator is paid if it withdraws now, up to one base unit per denomination. -/
theorem C70_rewards (h : Reachable gov c) {st d : Addr} (hm : exec gov c (.withdraw d st) = .ok c') (dn : Denom) :
    (c'.b (.user d)).amt dn ≤ (c.b (.user d)).amt dn + (c.delegatorQuery st d).rewards.amt dn + 1 ∧
    (c.b (.user d)).amt dn + (c.delegatorQuery st d).rewards.amt dn ≤ (c'.b (.user d)).amt dn + 1 := by
  obtain ⟨h1, h2⟩ := Delegation.module_ledgers (Reachable.good h).mods.del st
  have h2' : c.del.at st = (Delegation.ledgerOf c.del.trace st).f1 := h2
  have k : (Delegation.outstanding (c.del.at st) d).amt dn ≤ (Delegation.withdraw (c.del.at st) d).2.amt dn + 1 ∧
      (Delegation.withdraw (c.del.at st) d).2.amt dn ≤ (Delegation.outstanding (c.del.at st) d).amt dn + 1 := by
    rw [h2']
    exact ⟨(Delegation.C06_query h1 d dn).1, (Delegation.C06_query h1 d dn).2.1⟩
  have hm' : (Delegation.withdrawMsg c.dw d st).map c.withDel = .ok c' := hm
  obtain ⟨w, hw, rfl⟩ := map_ok hm'
  unfold Delegation.withdrawMsg at hw
  split at hw
  · cases hw
  · split at hw
    · cases hw
    · rename_i b hb
      injection hw with hw
      subst hw
      have e := Bank.send_ok hb
      have e1 : (b (.user d)).amt dn = (c.b (.user d)).amt dn + (Delegation.withdraw (c.del.at st) d).2.amt dn := by
        have e2 := (e.2 (.user d)) dn
        simp at e2
        exact e2
      have e3 : (c.withDel ⟨c.dw.s.apply st (.withdraw d), b⟩).b = b := rfl
      have e4 : (c.delegatorQuery st d).rewards = Delegation.outstanding (c.del.at st) d := rfl
      rw [e3, e4, e1]
      omega

/-- C70: the two lists agree: a row of one is a row of the other. -/
theorem C70_agree {st d : Addr} {limit limit' : Nat} {total total' : Bool}
    {ps qs : List (List DelegationRow)} (hp : Query.Pages (c.delegatorsPage st limit total) none ps)
    (hq : Query.Pages (c.stakersPage d limit' total') none qs) (r : DelegationRow) (h1 : r.staker = st) (h2 : r.delegator = d) :
    r ∈ ps.flatten ↔ r ∈ qs.flatten := by
  rw [delegators_all hp, stakers_all hq, List.mem_map, List.mem_map]
  unfold stakersByDelegator
  constructor
  · rintro ⟨d', hd', rfl⟩
    have h2' : d' = d := h2
    subst h2'
    obtain ⟨x, hx⟩ := (Map.mem_keys_iff _ _).mp hd'
    have hh : (c.del.at st).dels.has d' = true := (Stakers.has_iff _ _).mpr ⟨x, hx⟩
    exact ⟨st, List.mem_filter.mpr ⟨dels_f1 st d' hh, hh⟩, rfl⟩
  · rintro ⟨st', hst', rfl⟩
    have h1' : st' = st := h1
    subst h1'
    exact ⟨d, (Map.mem_keys_iff _ _).mpr ((Stakers.has_iff _ _).mp (List.mem_filter.mp hst').2), rfl⟩

/-- C70: a client that asks for at least one row per page comes to an end. -/
theorem C70_ends (c : Chain) (a : Addr) {limit : Nat} (hl : 0 < limit) (total : Bool) :
    (∃ ps, Query.Pages (c.delegatorsPage a limit total) none ps) ∧ ∃ ps, Query.Pages (c.stakersPage a limit total) none ps :=
  ⟨Query.Pages.ends (delegators_shows c a limit total) hl, Query.Pages.ends (stakers_shows c a limit total) hl⟩

/-- two more delegators of staker 1 -/
def delegators : List Op := [.delegate 2 1 30, .delegate 50 1 7]

/-- rewards are shown and paid -/
example : (Sample.second.delegatorQuery 1 1).rewards.amt kyve = 891000 ∧
    (exec Sample.gov Sample.second (.withdraw 1 1)).isOk = true := by decide +kernel

example : Reachable Sample.gov (Sample.run Sample.ready delegators) :=
  Sample.run_reachable Sample.reach_ready _ (by decide +kernel)
example : ((Sample.run Sample.ready delegators).delegatorsPage 1 2 true none).map (fun r => (r.1.map (fun x => (x.delegator, x.amount)), r.2)) =
    some ([(1, 100), (2, 30)], some 50) := by decide +kernel
example : ((Sample.run Sample.ready delegators).delegatorsPage 1 2 true (some 50)).map (fun r => (r.1.map (fun x => (x.delegator, x.amount)), r.2)) =
    some ([(50, 7)], none) := by decide +kernel
example : (Sample.run Sample.ready delegators).delegatorsTotals 1 = (137, 3) := by decide +kernel
example : ((Sample.run Sample.ready delegators).stakersPage 2 5 true none).map (fun r => (r.1.map (fun x => (x.staker, x.amount)), r.2)) =
    some ([(1, 30), (2, 100)], none) := by decide +kernel

end Chain
end Verif.Chain
