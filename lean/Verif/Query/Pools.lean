import Verif.Query.Stakers

/-!
# C73: what the queries show of a pool

The queries `Pool` and `Pools`.
-/

set_option linter.dupNamespace false
namespace Verif.Chain
open Verif
namespace Chain

/-! ## model -/

/-- x/query proto `PoolResponse` (without the address of the pool account) -/
structure PoolRow where
  id : Nat
  data : Pool.Pool
  proposal : Bundles.Proposal
  stakers : List Addr
  totalSelfDelegation : Nat
  totalDelegation : Nat
  status : PoolStatus
  balance : Nat
  fundings : List Funders.Funding

/-- x/query/keeper/grpc_query_pool.go:55-88 `parsePoolResponse`; `none` is the panic of `Amount.Uint64()` -/
def poolRow (c : Chain) (p : Pool.Pool) : Option PoolRow :=
  if (c.b (.pool p.id)).amt kyve < twoPow64 then
    some
      { id := p.id, data := p, proposal := c.proposal p.id, stakers := c.members p.id
        totalSelfDelegation := sum64 ((c.members p.id).map (fun a => Delegation.curDel (c.del.at a) a))
        totalDelegation := c.totalOf p.id
        status := c.poolStatus p
        balance := (c.b (.pool p.id)).amt kyve
        fundings := (c.fund.fundings.toList.filter (fun e => e.1.2 == p.id)).map (·.2) }
  else none

/-- grpc_query_pool.go:41-53 `Pool`; `none` is an error or a panic -/
def poolQuery (c : Chain) (id : Nat) : Option PoolRow := (c.pool.pools.get? id).bind c.poolRow

/-- the filters of `Pools`: a search in the name, the runtime (0: any), disabled or not, the storage provider (0: any) -/
structure PoolFilter where
  name : Pool.Str → Bool
  runtime : Pool.Str
  disabled : Bool
  storageProviderId : Nat

/-- x/pool/keeper/getters_pool.go:118-136 -/
def PoolFilter.accepts (f : PoolFilter) (p : Pool.Pool) : Bool :=
  if !f.name p.name then false
  else if f.runtime ≠ 0 ∧ f.runtime ≠ p.runtime then false
  else if f.disabled != p.disabled then false
  else if f.storageProviderId ≠ 0 ∧ f.storageProviderId ≠ p.storageProviderId then false
  else true

/-- grpc_query_pool.go:20-39 `Pools` with getters_pool.go:99-149 `GetPaginatedPoolsQuery` -/
def poolsPage (c : Chain) (f : PoolFilter) (limit : Nat) (total : Bool) (key : Option Nat) :
    Option (List PoolRow × Option Nat) :=
  ((Query.filteredPaginate c.pool.pools (fun e => f.accepts e.2) limit total key).1.mapM (fun e => c.poolRow e.2)).map
    (fun rows => (rows, (Query.filteredPaginate c.pool.pools (fun e => f.accepts e.2) limit total key).2))

/-! ## C73 -/

variable {c c' : Chain} {gov : Addr}

/-- C73: what is shown of a pool: its record and proposal, its members, each once; their delegation in total and the part
of it that is their own; a status that says whether and why not it can run; what its account has; and its fundings, one per
funder, with what the funders have left. -/
theorem C73_pool (h : Reachable gov c) (id : Nat) {r : PoolRow} (hr : c.poolQuery id = some r) :
    r.id = id ∧ c.pool.pools.get? id = some r.data ∧ r.proposal = c.proposal id ∧
    r.stakers.Nodup ∧ (∀ a, a ∈ r.stakers ↔ c.member id a = true) ∧ r.stakers.length ≤ 50 ∧
    r.totalDelegation = (r.stakers.map c.del.amount).sum ∧
    r.totalSelfDelegation = (r.stakers.map (fun a => Delegation.curDel (c.del.at a) a)).sum ∧
    r.totalSelfDelegation ≤ r.totalDelegation ∧
    r.status.reason = c.runError id ∧ r.balance = (c.b (.pool id)).amt kyve ∧
    (r.fundings.map (·.funder)).Nodup ∧
    (∀ f, f ∈ r.fundings ↔ c.fund.fundings.get? (f.funder, id) = some f) ∧
    (r.status = .noFunds → ∀ f ∈ r.fundings, ∀ d, f.amounts.amt d = 0) := by
  have hg := Reachable.good h
  unfold poolQuery at hr
  obtain ⟨p, hp, hr'⟩ := Option.bind_eq_some_iff.mp hr
  clear hr
  rename' hr' => hr
  have hid := pool_id h hp
  subst hid
  unfold poolRow at hr
  split at hr
  case isFalse => cases hr
  case isTrue hb =>
  injection hr with hr
  subst hr
  have hi : Funders.Inv c.fw := hg.mods.fund.reach.inv
  have hnd : (c.members p.id).Nodup := Stakers.stakersOf_nodup _ _
  have htot := basic_total h p.id
  have hself : ((c.members p.id).map (fun a => Delegation.curDel (c.del.at a) a)).sum ≤
      ((c.members p.id).map c.del.amount).sum := List.sum_le_sum (fun a _ => curDel_le h a a)
  have hsm : ((c.members p.id).map c.del.amount).sum < 2 ^ 63 :=
    lt_of_le_of_lt (stake_le_total c.del (c.members p.id) hnd) hg.sane.small
  have hse : sum64 ((c.members p.id).map (fun a => Delegation.curDel (c.del.at a) a)) =
      ((c.members p.id).map (fun a => Delegation.curDel (c.del.at a) a)).sum :=
    Nat.mod_eq_of_lt (lt_trans (lt_of_le_of_lt hself hsm) (by decide))
  have hmem : ∀ f, f ∈ (c.fund.fundings.toList.filter (fun e => e.1.2 == p.id)).map (·.2) ↔
      c.fund.fundings.get? (f.funder, p.id) = some f := by
    intro f
    rw [List.mem_map]
    constructor
    · rintro ⟨⟨⟨a, q⟩, g⟩, hm, rfl⟩
      rw [List.mem_filter] at hm
      have h2 : q = p.id := by simpa using hm.2
      have h1 : c.fund.fundings.get? (a, q) = some g := (Map.mem_iff _ _ _).mp hm.1
      have := hi.key _ _ h1
      injection this with e1 e2
      show c.fund.fundings.get? (g.funder, p.id) = some g
      rw [e1, ← h2]; exact h1
    · intro hf
      exact ⟨((f.funder, p.id), f), List.mem_filter.mpr ⟨(Map.mem_iff _ _ _).mpr hf, by simp⟩, rfl⟩
  refine ⟨rfl, hp, rfl, hnd, fun a => mem_members, ?_, htot, hse, ?_, (C54_status c p.id p hp rfl).1, rfl, ?_, hmem, ?_⟩
  · have h1 := hg.mods.st.inv.mem.cap p.id
    rw [hg.mods.st.inv.mem.cnt p.id] at h1
    have e3 : (c.members p.id).length = Stakers.nIn c.st.vals p.id := Stakers.length_stakersOf _ _
    show (c.members p.id).length ≤ 50
    rw [e3]; exact h1
  · show sum64 _ ≤ c.totalOf p.id
    rw [hse, htot]; exact hself
  · show (((c.fund.fundings.toList.filter (fun e => e.1.2 == p.id)).map (·.2)).map (·.funder)).Nodup
    have e : ((c.fund.fundings.toList.filter (fun e => e.1.2 == p.id)).map (·.2)).map (·.funder) =
        (c.fund.fundings.keys.filter (fun k => k.2 == p.id)).map (·.1) := by
      unfold Map.keys
      rw [List.filter_map, List.map_map, List.map_map]
      refine List.map_congr_left ?_
      rintro ⟨⟨a, q⟩, g⟩ hm
      have h1 : c.fund.fundings.get? (a, q) = some g := (Map.mem_iff _ _ _).mp (List.mem_filter.mp hm).1
      have := hi.key _ _ h1
      injection this with e1 e2
    rw [e, List.nodup_map_iff_inj_on (c.fund.fundings.keys_nodup.filter _)]
    rintro ⟨a, i⟩ h1 ⟨b, j⟩ h2 e
    have e1 : i = p.id := by simpa using (List.mem_filter.mp h1).2
    have e2 : j = p.id := by simpa using (List.mem_filter.mp h2).2
    rw [e1, e2, show a = b from e]
  · intro hs f hf d
    have hz := ((C54_status c p.id p hp rfl).2.2.mp hs).2 d
    rw [funds_total h p.id d] at hz
    have hin : f.amounts.amt d ∈ (Funders.fundingsIn c.fund p.id).map (fun f => f.amounts.amt d) :=
      List.mem_map.mpr ⟨f, hf, rfl⟩
    have := List.single_le_sum (fun x _ => Nat.zero_le x) _ hin
    omega

/-- C73: the query answers for every pool whose account has less than `2^64` coins. -/
theorem C73_answers (h : Reachable gov c) (id : Nat) :
    (c.poolQuery id).isSome = true ↔ c.pool.pools.has id = true ∧ (c.b (.pool id)).amt kyve < twoPow64 := by
  unfold poolQuery
  rw [Stakers.has_iff]
  cases hp : c.pool.pools.get? id with
  | none => simp
  | some p =>
    have hid := pool_id h hp
    show (c.poolRow p).isSome = true ↔ _
    unfold poolRow
    rw [hid]
    split
    · rename_i hlt; simp [hlt]
    · rename_i hlt; simp [hlt]

/-- C73: reading all pages of the pools shows exactly the pools that pass the filter (name, runtime and storage provider if
given, disabled or not), each once, by ascending id, with the answer of the query `Pool`. -/
theorem C73_list (h : Reachable gov c) {f : PoolFilter} {limit : Nat} {total : Bool} {ps : List (List PoolRow)}
    (hp : Query.Pages (c.poolsPage f limit total) none ps) :
    (ps.flatten.map (·.id)).Pairwise (· < ·) ∧ (∀ r ∈ ps.flatten, c.poolQuery r.id = some r) ∧
    ∀ id p, c.pool.pools.get? id = some p → (id ∈ ps.flatten.map (·.id) ↔
      f.name p.name = true ∧ (f.runtime = 0 ∨ p.runtime = f.runtime) ∧ p.disabled = f.disabled ∧
      (f.storageProviderId = 0 ∨ p.storageProviderId = f.storageProviderId)) := by
  have hall := Query.Pages.all (m := c.pool.pools) (acc := fun e => f.accepts e.2) (f := fun e => c.poolRow e.2)
    (fun k => rfl) hp
  have hrow : ∀ p r, c.poolRow p = some r → r.id = p.id := by
    intro p r hr
    unfold poolRow at hr
    split at hr
    · injection hr with hr; subst hr; rfl
    · cases hr
  have hids : ps.flatten.map (·.id) = (c.pool.pools.toList.filter (fun e => f.accepts e.2)).map (·.1) := by
    rw [Query.mapM_proj (u := fun e => e.2.id) (v := (·.id)) (fun a b hb => hrow a.2 b hb) hall]
    refine List.map_congr_left ?_
    rintro ⟨id, p⟩ hm
    exact pool_id h ((Map.mem_iff _ _ _).mp (List.mem_filter.mp hm).1)
  have hacc : ∀ p, f.accepts p = true ↔ f.name p.name = true ∧ (f.runtime = 0 ∨ p.runtime = f.runtime) ∧
      p.disabled = f.disabled ∧ (f.storageProviderId = 0 ∨ p.storageProviderId = f.storageProviderId) := by
    intro p
    unfold PoolFilter.accepts
    split
    · rename_i h1; simp only [Bool.not_eq_true'] at h1; simp [h1]
    · rename_i h1
      have h1 : f.name p.name = true := by simpa using h1
      split
      · rename_i h2
        constructor
        · intro h; cases h
        · rintro ⟨-, h3 | h3, -⟩
          · exact absurd h3 h2.1
          · exact absurd h3.symm h2.2
      · rename_i h2
        have h2 : f.runtime = 0 ∨ p.runtime = f.runtime := by
          by_cases h0 : f.runtime = 0
          · exact Or.inl h0
          · by_cases h3 : f.runtime = p.runtime
            · exact Or.inr h3.symm
            · exact absurd ⟨h0, h3⟩ h2
        split
        · rename_i h3
          constructor
          · intro h; cases h
          · rintro ⟨-, -, h4, -⟩
            rw [h4] at h3; simp at h3
        · rename_i h3
          have h3 : p.disabled = f.disabled := by
            revert h3
            cases p.disabled <;> cases f.disabled <;> simp
          split
          · rename_i h4
            constructor
            · intro h; cases h
            · rintro ⟨-, -, -, h5 | h5⟩
              · exact absurd h5 h4.1
              · exact absurd h5.symm h4.2
          · rename_i h4
            have h4 : f.storageProviderId = 0 ∨ p.storageProviderId = f.storageProviderId := by
              by_cases h0 : f.storageProviderId = 0
              · exact Or.inl h0
              · by_cases h5 : f.storageProviderId = p.storageProviderId
                · exact Or.inr h5.symm
                · exact absurd ⟨h0, h5⟩ h4
            exact ⟨fun _ => ⟨h1, h2, h3, h4⟩, fun _ => rfl⟩
  refine ⟨?_, ?_, ?_⟩
  · rw [hids]
    have hs : (c.pool.pools.toList.map (·.1)).Pairwise (· < ·) := by
      rw [List.pairwise_map]
      exact c.pool.pools.sorted.imp (fun h => of_decide_eq_true h)
    exact hs.sublist (List.filter_sublist.map _)
  · intro r hr
    obtain ⟨⟨id, p⟩, hm, e⟩ := (Query.mapM_mem hall r).mp hr
    have hg : c.pool.pools.get? id = some p := (Map.mem_iff _ _ _).mp (List.mem_filter.mp hm).1
    have e : c.poolRow p = some r := e
    rw [hrow p r e, pool_id h hg]
    unfold poolQuery
    rw [hg]; exact e
  · intro id p hg
    rw [hids, ← hacc, List.mem_map]
    constructor
    · rintro ⟨⟨id', p'⟩, hm, rfl⟩
      rw [List.mem_filter] at hm
      have hg' : c.pool.pools.get? id' = some p' := (Map.mem_iff _ _ _).mp hm.1
      have hg : c.pool.pools.get? id' = some p := hg
      rw [hg'] at hg; cases hg; exact hm.2
    · intro ha
      exact ⟨(id, p), List.mem_filter.mpr ⟨(Map.mem_iff _ _ _).mpr hg, ha⟩, rfl⟩

/-! ## witnesses -/

example : (Sample.ready.poolQuery 0).map (fun r => (r.stakers, r.totalSelfDelegation, r.totalDelegation, r.fundings.length)) =
    some ([1, 2, 3, 4], 400, 400, 1) := by decide +kernel
example : (Sample.ready.poolsPage ⟨fun _ => true, 0, false, 0⟩ 10 true none).map (fun r => (r.1.map (·.id), r.2)) =
    some ([0], none) := by decide +kernel
example : (Sample.ready.poolsPage ⟨fun _ => true, 0, true, 0⟩ 10 true none).map (fun r => (r.1.map (·.id), r.2)) =
    some ([], none) := by decide +kernel

end Chain
end Verif.Chain
