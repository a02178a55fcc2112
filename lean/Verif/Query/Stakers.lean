import Verif.Chain.Placed
import Verif.Query.Delegators
import Verif.Funders.Totals

/-!
# C71, C72: what the queries show of a staker

The queries `Staker`, `StakersByPool` and `Stakers` (all and inactive; for active ones see `C53_active_stakers`).
-/

set_option linter.dupNamespace false
namespace Verif.Chain
open Verif
namespace Chain

/-! ## model -/

/-- x/query proto `BasicPool` (without the logo) -/
structure BasicPool where
  id : Nat
  name : Pool.Str
  runtime : Pool.Str
  inflationShareWeight : Dec
  uploadInterval : Nat
  totalFunds : Coins
  totalDelegation : Nat
  status : PoolStatus

/-- x/query/keeper/helper.go:42-52 -/
def basicPool (c : Chain) (p : Pool.Pool) : BasicPool :=
  { id := p.id, name := p.name, runtime := p.runtime, inflationShareWeight := p.inflationShareWeight
    uploadInterval := p.uploadInterval, totalFunds := Funders.totalActiveFunding c.fund p.id
    totalDelegation := c.totalOf p.id, status := c.poolStatus p }

/-- x/query proto `PoolMembership` -/
structure Membership where
  pool : BasicPool
  points : Nat
  leaving : Bool
  valaddress : Addr
  balance : Nat

/-- helper.go:33-60: `none` is a panic, of `Amount.Uint64()` if the valaddress has `2^64` coins, or of the nil upgrade plan
of a pool that does not exist -/
def membership (c : Chain) (id : Nat) (v : Stakers.Val) : Option Membership :=
  match c.pool.pools.get? id with
  | none => none
  | some p =>
    if (c.b (.user v.valaddress)).amt kyve < twoPow64 then
      some { pool := c.basicPool p, points := v.points, leaving := v.leaving, valaddress := v.valaddress
             balance := (c.b (.user v.valaddress)).amt kyve }
    else none

/-- x/stakers/keeper/getters_valaccount.go:57-74 `GetValaccountsFromStaker` with the pool ids, in store order -/
def valaccounts (c : Chain) (a : Addr) : List (Nat × Stakers.Val) :=
  (c.st.valIdx.keys.filter (fun k => k.1 == a)).filterMap (fun k => (c.st.vals.get? (k.2, k.1)).map (fun v => (k.2, v)))

/-- x/query proto `FullStaker`; `address` is `none` for the empty string, `data` are commission, rewards and metadata -/
structure FullStaker where
  address : Option Addr
  data : Option Stakers.Staker
  pending : Option (Dec × Nat)
  selfDelegation : Nat
  selfUnbonding : Nat
  totalDelegation : Nat
  delegatorCount : Nat
  pools : List Membership

/-- helper.go:11-81 `GetFullStaker`; `none` is a panic.  For an address that is not a staker the code goes on with the empty
address, of which nothing is stored. -/
def fullStaker (c : Chain) (a : Addr) : Option FullStaker :=
  match c.st.stakers.get? a with
  | none => some
      { address := none, data := none, pending := none
        selfDelegation := Delegation.curDel (c.del.at a) a
        selfUnbonding := sum64 (((c.unbondingsOf a).filter (fun e => e.staker == a)).map (·.amount))
        totalDelegation := 0, delegatorCount := 0, pools := [] }
  | some s => ((c.valaccounts a).mapM (fun e => c.membership e.1 e.2)).map (fun rows =>
      { address := some a, data := some s
        pending := ((c.st.changeIdx.get? a).bind c.st.changes.get?).map (fun e => (e.commission, e.creation))
        selfDelegation := Delegation.curDel (c.del.at a) a
        selfUnbonding := sum64 (((c.unbondingsOf a).filter (fun e => e.staker == a)).map (·.amount))
        totalDelegation := c.del.amount a
        delegatorCount := ((c.del.at a).data.map (·.count)).getD 0
        pools := rows })

/-- x/query/keeper/grpc_query_staker.go:58-70 `Staker`; `none` is an error or a panic -/
def stakerQuery (c : Chain) (a : Addr) : Option FullStaker :=
  if c.st.stakers.has a then c.fullStaker a else none

/-- x/query/keeper/grpc_query_stakers_by_pool.go:13-38 `StakersByPool`; `none` is an error or a panic -/
def stakersByPool (c : Chain) (id : Nat) : Option (List (FullStaker × Stakers.Val)) :=
  if c.pool.pools.has id then
    ((c.members id).filter (fun a => c.st.stakers.has a)).mapM (fun a =>
      (c.fullStaker a).bind (fun r => (c.st.vals.get? (id, a)).map (fun v => (r, v))))
  else none

/-- x/stakers/keeper/getters_valaccount.go:76-88 `GetPoolCount` -/
def poolCount (c : Chain) (a : Addr) : Nat := (c.st.valIdx.keys.filter (fun k => k.1 == a)).length

/-- x/query/keeper/grpc_query_staker.go:16-56 `Stakers` with x/delegation/keeper/getters_index_stakers.go:90-106 (all) and
129-150 (`inactive`): a page over the ranking; `hit` is the search in address and moniker.  The code also panics if the data
of a staker outside the page cannot be shown; the model fails only for those on the page. -/
def stakersList (c : Chain) (inactive : Bool) (hit : FullStaker → Bool) (limit : Nat) (total : Bool)
    (key : Option (Nat × Addr)) : Option (List FullStaker × Option (Nat × Addr)) :=
  ((Query.filteredPaginate c.del.index (fun e => !(inactive && decide (c.poolCount e.1.2 > 0)) &&
      ((c.fullStaker e.1.2).map hit).getD true) limit total key).1.mapM (fun e => c.fullStaker e.1.2)).map
    (fun rows => (rows, (Query.filteredPaginate c.del.index (fun e => !(inactive && decide (c.poolCount e.1.2 > 0)) &&
      ((c.fullStaker e.1.2).map hit).getD true) limit total key).2))

/-! ## C72: one staker -/

variable {c c' : Chain} {gov : Addr}

theorem mem_valaccounts (h : Reachable gov c) (a : Addr) (id : Nat) (v : Stakers.Val) :
    (id, v) ∈ c.valaccounts a ↔ c.st.vals.get? (id, a) = some v := by
  have hi := (Reachable.good h).mods.st.inv.mem.idx
  unfold valaccounts
  rw [List.mem_filterMap]
  constructor
  · rintro ⟨⟨b, j⟩, hk, e⟩
    rw [List.mem_filter] at hk
    have hb : b = a := by simpa using hk.2
    subst hb
    obtain ⟨w, hw, e2⟩ := Option.map_eq_some_iff.mp e
    injection e2 with e3 e4
    subst e3; subst e4
    exact hw
  · intro hv
    refine ⟨(a, id), ?_, ?_⟩
    · rw [List.mem_filter]
      refine ⟨?_, by simp⟩
      rw [Map.mem_keys_iff, ← Stakers.has_iff]
      have := hi a id
      have e : c.st.vals.has (id, a) = true := (Stakers.has_iff _ _).mpr ⟨v, hv⟩
      exact this.trans e
    · show (c.st.vals.get? (id, a)).map _ = _
      rw [hv]; rfl

theorem valaccounts_nodup (c : Chain) (a : Addr) : ((c.valaccounts a).map (·.1)).Nodup := by
  have h1 : (c.valaccounts a).map (·.1) =
      (c.st.valIdx.keys.filter (fun k => k.1 == a)).filterMap (fun k => (c.st.vals.get? (k.2, k.1)).map (fun _ => k.2)) := by
    unfold valaccounts
    rw [List.map_filterMap]
    refine List.filterMap_congr ?_
    intro k _
    cases c.st.vals.get? (k.2, k.1) <;> rfl
  rw [h1]
  unfold List.Nodup
  rw [List.pairwise_filterMap]
  have hn : (c.st.valIdx.keys.filter (fun k => k.1 == a)).Nodup := c.st.valIdx.keys_nodup.filter _
  refine List.Pairwise.imp_of_mem ?_ hn
  rintro ⟨b, i⟩ ⟨b', j⟩ h1 h2 hne x hx y hy e
  have e1 : b = a := by simpa using (List.mem_filter.mp h1).2
  have e2 : b' = a := by simpa using (List.mem_filter.mp h2).2
  obtain ⟨_, _, e3⟩ := Option.map_eq_some_iff.mp hx
  obtain ⟨_, _, e4⟩ := Option.map_eq_some_iff.mp hy
  simp only at e3 e4
  exact hne (by rw [e1, e2, e3, e4, e])

/-- Specification: what is shown of a membership of `a` is what the pool, the valaccount and the bank have. -/
structure Shown (c : Chain) (a : Addr) (m : Membership) : Prop where
  points : ∃ v, c.st.vals.get? (m.pool.id, a) = some v ∧ m.points = v.points ∧ m.leaving = v.leaving ∧
    m.valaddress = v.valaddress
  balance : m.balance = (c.b (.user m.valaddress)).amt kyve
  pool : ∃ p, c.pool.pools.get? m.pool.id = some p ∧ m.pool.name = p.name ∧ m.pool.runtime = p.runtime ∧
    m.pool.inflationShareWeight = p.inflationShareWeight ∧ m.pool.uploadInterval = p.uploadInterval ∧
    m.pool.status.reason = c.runError m.pool.id
  delegation : m.pool.totalDelegation = ((c.members m.pool.id).map c.del.amount).sum
  funds : ∀ d, m.pool.totalFunds.amt d = ((Funders.fundingsIn c.fund m.pool.id).map (fun f => f.amounts.amt d)).sum

theorem basic_total (h : Reachable gov c) (id : Nat) : c.totalOf id = ((c.members id).map c.del.amount).sum := by
  have h1 := stake_le_total c.del (c.members id) (Stakers.stakersOf_nodup _ _)
  exact Bundles.power_all (lt_of_le_of_lt h1 (Reachable.good h).sane.small)

theorem funds_total (h : Reachable gov c) (id : Nat) (d : Denom) : (Funders.totalActiveFunding c.fund id).amt d =
    ((Funders.fundingsIn c.fund id).map (fun f => f.amounts.amt d)).sum := by
  have hi : Funders.Inv c.fw := (Reachable.good h).mods.fund.reach.inv
  exact Funders.total_active hi.toSInv id d

theorem pool_id (h : Reachable gov c) {id : Nat} {p : Pool.Pool} (hp : c.pool.pools.get? id = some p) : p.id = id :=
  (Reachable.good h).mods.pool.inv.key id p hp

theorem membership_shown (h : Reachable gov c) {a : Addr} {id : Nat} {v : Stakers.Val} {m : Membership}
    (hv : c.st.vals.get? (id, a) = some v) (hm : c.membership id v = some m) : m.pool.id = id ∧ Shown c a m := by
  unfold membership at hm
  cases hp : c.pool.pools.get? id with
  | none => rw [hp] at hm; cases hm
  | some p =>
    rw [hp] at hm
    simp only at hm
    split at hm
    · injection hm with hm
      have hid := pool_id h hp
      subst hm
      have e : (c.basicPool p).id = id := hid
      refine ⟨e, ⟨v, ?_, rfl, rfl, rfl⟩, rfl, ⟨p, ?_, rfl, rfl, rfl, rfl, ?_⟩, ?_, fun d => funds_total h p.id d⟩
      · show c.st.vals.get? ((c.basicPool p).id, a) = _
        rw [e]; exact hv
      · show c.pool.pools.get? (c.basicPool p).id = _
        rw [e]; exact hp
      · show (c.poolStatus p).reason = c.runError (c.basicPool p).id
        rw [e]; exact (C54_status c id p hp hid).1
      · exact basic_total h p.id
    · cases hm

/-- C72: what the query shows of a staker: its record, the commission change it ordered last and that has not been applied,
its delegation and number of delegators, its self-delegation as part of it, and exactly the pools it is a member of, each
once, with the data of the membership and of the pool. -/
theorem C72_staker (h : Reachable gov c) (a : Addr) {r : FullStaker} (hr : c.stakerQuery a = some r) :
    r.address = some a ∧ r.data = c.st.stakers.get? a ∧ c.st.stakers.has a = true ∧
    r.pending = Stakers.lastOrder c.st.trace a ∧
    r.totalDelegation = c.del.amount a ∧ r.delegatorCount = (c.del.at a).dels.keys.length ∧
    r.selfDelegation = Delegation.curDel (c.del.at a) a ∧ r.selfDelegation ≤ r.totalDelegation ∧
    r.selfUnbonding = sum64 (((c.unbondingsOf a).filter (fun e => e.staker == a)).map (·.amount)) ∧
    (r.pools.map (·.pool.id)).Nodup ∧ (∀ id, id ∈ r.pools.map (·.pool.id) ↔ c.member id a = true) ∧
    ∀ m ∈ r.pools, Shown c a m := by
  have hg := Reachable.good h
  unfold stakerQuery at hr
  split at hr
  case isFalse => cases hr
  case isTrue hs =>
  obtain ⟨s, hs'⟩ := (Stakers.has_iff _ _).mp hs
  unfold fullStaker at hr
  rw [hs'] at hr
  simp only at hr
  obtain ⟨rows, h1, h2⟩ := Option.map_eq_some_iff.mp hr
  have hmem := Query.mapM_mem h1
  have hids : rows.map (·.pool.id) = (c.valaccounts a).map (·.1) := by
    clear h2 hr hmem
    have key : ∀ (l : List (Nat × Stakers.Val)), (∀ e ∈ l, e ∈ c.valaccounts a) → ∀ rows,
        l.mapM (fun e => c.membership e.1 e.2) = some rows → rows.map (·.pool.id) = l.map (·.1) := by
      intro l
      induction l with
      | nil => intro _ rows hl; rw [List.mapM_nil] at hl; cases hl; rfl
      | cons x l ih =>
        intro hx rows hl
        rw [List.mapM_cons] at hl
        cases hm : c.membership x.1 x.2 with
        | none => rw [hm] at hl; cases hl
        | some m =>
          cases hr : l.mapM (fun e => c.membership e.1 e.2) with
          | none => rw [hm, hr] at hl; cases hl
          | some ms =>
            rw [hm, hr] at hl
            cases hl
            have := ih (fun e he => hx e (by simp [he])) ms hr
            have hv := (mem_valaccounts h a x.1 x.2).mp (hx x (by simp))
            show m.pool.id :: ms.map (·.pool.id) = x.1 :: l.map (·.1)
            rw [this, (membership_shown h hv hm).1]
    exact key _ (fun _ x => x) rows h1
  subst h2
  have hi : Delegation.F1Inv (c.del.at a) := hg.mods.del.winv.tied.f1inv a
  refine ⟨rfl, hs'.symm, hs, hg.mods.st.inv.ch.log a, rfl, ?_, rfl, curDel_le h a a, rfl, ?_, ?_, ?_⟩
  · have hk : (c.del.at a).dels.keys.length = (c.del.at a).dels.size := by unfold Map.keys Map.size; rw [List.length_map]
    rw [hk]
    show ((c.del.at a).data.map (·.count)).getD 0 = _
    cases hd : (c.del.at a).data with
    | none => rw [(hi.dnone hd).1]; rfl
    | some d => exact (hi.dsome d hd).cnt
  · show (rows.map (·.pool.id)).Nodup
    rw [hids]; exact valaccounts_nodup c a
  · intro id
    show id ∈ rows.map (·.pool.id) ↔ _
    rw [hids, List.mem_map]
    unfold member
    rw [Stakers.has_iff]
    constructor
    · rintro ⟨⟨j, v⟩, hv, rfl⟩
      exact ⟨v, (mem_valaccounts h a j v).mp hv⟩
    · rintro ⟨v, hv⟩
      exact ⟨(id, v), (mem_valaccounts h a id v).mpr hv, rfl⟩
  · intro m hm
    obtain ⟨⟨j, v⟩, hv, e⟩ := (hmem m).mp hm
    exact (membership_shown h ((mem_valaccounts h a j v).mp hv) e).2

theorem mapM_isSome {α β : Type} {f : α → Option β} {l : List α} :
    (l.mapM f).isSome = true ↔ ∀ x ∈ l, (f x).isSome = true := by
  induction l with
  | nil => rw [List.mapM_nil]; simp
  | cons a l ih =>
    rw [List.mapM_cons]
    cases ha : f a with
    | none => simp [ha]
    | some b =>
      cases hl : l.mapM f with
      | none =>
        rw [hl] at ih
        simp only [List.mem_cons, forall_eq_or_imp, ha, Option.isSome_some, true_and]
        rw [← ih]; simp
      | some bs =>
        rw [hl] at ih
        simp only [List.mem_cons, forall_eq_or_imp, ha, Option.isSome_some, true_and]
        rw [← ih]; simp

/-- C72: the query answers for every staker, unless an account of one of its nodes has `2^64` coins or more. -/
theorem C72_answers (h : Reachable gov c) (a : Addr) :
    (c.stakerQuery a).isSome = true ↔ c.st.stakers.has a = true ∧
      ∀ id v, c.st.vals.get? (id, a) = some v → (c.b (.user v.valaddress)).amt kyve < twoPow64 := by
  unfold stakerQuery
  split
  case isFalse hs => simp [hs]
  case isTrue hs =>
  obtain ⟨s, hs'⟩ := (Stakers.has_iff _ _).mp hs
  unfold fullStaker
  rw [hs']
  simp only [Option.isSome_map, hs, true_and]
  rw [mapM_isSome]
  have hone : ∀ id v, c.st.vals.get? (id, a) = some v →
      ((c.membership id v).isSome = true ↔ (c.b (.user v.valaddress)).amt kyve < twoPow64) := by
    intro id v hv
    have hp : c.pool.pools.has id = true := Reachable.placed h id a ((Stakers.has_iff _ _).mpr ⟨v, hv⟩)
    obtain ⟨p, hp'⟩ := (Stakers.has_iff _ _).mp hp
    unfold membership
    rw [hp']
    simp only
    split
    · rename_i hlt; simp [hlt]
    · rename_i hlt; simp [hlt]
  constructor
  · intro h1 id v hv
    exact (hone id v hv).mp (h1 (id, v) ((mem_valaccounts h a id v).mpr hv))
  · rintro h1 ⟨id, v⟩ hv
    have hv' := (mem_valaccounts h a id v).mp hv
    exact (hone id v hv').mpr (h1 id v hv')

/-- C72: the stakers shown of a pool are exactly its members, each once and at most 50, with the answer of the query
`Staker` and the valaccount; the query answers exactly for existing pools if every member can be shown. -/
theorem C72_by_pool (h : Reachable gov c) (id : Nat) :
    ((c.stakersByPool id).isSome = true ↔ c.pool.pools.has id = true ∧ ∀ a, c.member id a = true → (c.stakerQuery a).isSome = true) ∧
    ∀ l, c.stakersByPool id = some l →
      l.map (·.1.address) = (c.members id).map some ∧ (l.map (·.1.address)).Nodup ∧ l.length ≤ 50 ∧
      (∀ a, some a ∈ l.map (·.1.address) ↔ c.member id a = true) ∧
      ∀ r v, (r, v) ∈ l → ∃ a, c.stakerQuery a = some r ∧ c.st.vals.get? (id, a) = some v := by
  have hg := Reachable.good h
  have hreg : ∀ a, c.member id a = true → c.st.stakers.has a = true := by
    intro a ha
    obtain ⟨v, hv⟩ := (Stakers.has_iff _ _).mp ha
    exact hg.mods.st.inv.mem.mem id a v hv
  have hfil : (c.members id).filter (fun a => c.st.stakers.has a) = c.members id := by
    rw [List.filter_eq_self]
    intro a ha
    exact hreg a (mem_members.mp ha)
  have hq : ∀ a, c.member id a = true → c.stakerQuery a = c.fullStaker a := by
    intro a ha
    unfold stakerQuery
    rw [if_pos (hreg a ha)]
  unfold stakersByPool
  constructor
  · split
    case isFalse hp => simp [hp]
    case isTrue hp =>
    rw [hfil, mapM_isSome]
    simp only [hp, true_and]
    constructor
    · intro h1 a ha
      have := h1 a (mem_members.mpr ha)
      rw [hq a ha]
      cases hf : c.fullStaker a with
      | none => rw [hf] at this; cases this
      | some r => rfl
    · intro h1 a ha
      have ha' := mem_members.mp ha
      have := h1 a ha'
      rw [hq a ha'] at this
      obtain ⟨v, hv⟩ := (Stakers.has_iff _ _).mp ha'
      cases hf : c.fullStaker a with
      | none => rw [hf] at this; cases this
      | some r => rw [hv]; rfl
  · intro l hl
    split at hl
    case isFalse => cases hl
    case isTrue hp =>
    rw [hfil] at hl
    have haddr : ∀ a r, c.st.stakers.has a = true → c.fullStaker a = some r → r.address = some a := by
      intro a r hs hr
      have : c.stakerQuery a = some r := by unfold stakerQuery; rw [if_pos hs]; exact hr
      exact (C72_staker h a this).1
    have e1 : l.map (·.1.address) = (c.members id).map some := by
      have key : ∀ (xs : List Addr), (∀ a ∈ xs, c.st.stakers.has a = true) → ∀ l,
          xs.mapM (fun a => (c.fullStaker a).bind (fun r => (c.st.vals.get? (id, a)).map (fun v => (r, v)))) = some l →
          l.map (·.1.address) = xs.map some := by
        intro xs
        induction xs with
        | nil => intro _ l hl; rw [List.mapM_nil] at hl; cases hl; rfl
        | cons x xs ih =>
          intro hx l hl
          rw [List.mapM_cons] at hl
          cases hm : c.fullStaker x with
          | none => rw [hm] at hl; cases hl
          | some r =>
            cases hv : c.st.vals.get? (id, x) with
            | none => rw [hm, hv] at hl; cases hl
            | some v =>
              cases hr : xs.mapM (fun a => (c.fullStaker a).bind (fun r => (c.st.vals.get? (id, a)).map (fun v => (r, v)))) with
              | none => rw [hm, hv, hr] at hl; cases hl
              | some ms =>
                rw [hm, hv, hr] at hl
                cases hl
                show r.address :: ms.map (·.1.address) = some x :: xs.map some
                rw [ih (fun e he => hx e (by simp [he])) ms hr, haddr x r (hx x (by simp)) hm]
      exact key _ (fun a ha => hreg a (mem_members.mp ha)) l hl
    have hnd : (c.members id).Nodup := Stakers.stakersOf_nodup _ _
    refine ⟨e1, ?_, ?_, ?_, ?_⟩
    · rw [e1]; exact hnd.map (Option.some_injective _)
    · have : l.length = (c.members id).length := by
        have := congrArg List.length e1
        simpa using this
      rw [this]
      have h1 := hg.mods.st.inv.mem.cap id
      have h2 := hg.mods.st.inv.mem.cnt id
      rw [h2] at h1
      have e3 : (c.members id).length = Stakers.nIn c.st.vals id := Stakers.length_stakersOf _ _
      rw [e3]; exact h1
    · intro a
      rw [e1, List.mem_map]
      constructor
      · rintro ⟨b, hb, e⟩
        injection e with e
        subst e
        exact mem_members.mp hb
      · intro ha; exact ⟨a, mem_members.mpr ha, rfl⟩
    · intro r v hrv
      obtain ⟨a, ha, e⟩ := (Query.mapM_mem hl (r, v)).mp hrv
      obtain ⟨r', h1, h2⟩ := Option.bind_eq_some_iff.mp e
      obtain ⟨v', h3, h4⟩ := Option.map_eq_some_iff.mp h2
      injection h4 with h5 h6
      subst h5; subst h6
      exact ⟨a, by rw [hq a (mem_members.mp ha)]; exact h1, h3⟩

/-! ## C71: the list of stakers -/

/-- C71: reading all pages of the list of stakers shows the ranking: nobody twice, by descending delegation, every staker
with a delegator that matches the search (and is in no pool, if only inactive ones are asked for) is there; whoever is
there matches the search, is in no pool if inactive ones are asked for, and is a registered staker or has no delegation
at all. -/
theorem C71_list_partial (h : Reachable gov c) {inactive : Bool} {hit : FullStaker → Bool} {limit : Nat} {total : Bool}
    {ps : List (List FullStaker)} (hp : Query.Pages (c.stakersList inactive hit limit total) none ps) :
    ∃ ranking : List Addr, ranking.Nodup ∧ ranking.mapM c.fullStaker = some ps.flatten ∧
      ranking.Pairwise (fun a b => c.del.amount b ≤ c.del.amount a) ∧
      (∀ a r, c.fullStaker a = some r → hit r = true → (inactive = true → ∀ id, c.member id a = false) →
        (∃ d, (c.del.at a).dels.has d = true) → a ∈ ranking) ∧
      (∀ a ∈ ranking, (∀ r, c.fullStaker a = some r → hit r = true) ∧ (inactive = true → ∀ id, c.member id a = false) ∧
        (c.st.stakers.has a = true ∨ c.del.amount a = 0 ∧ ∀ d, (c.del.at a).dels.has d = false)) := by
  have hg := Reachable.good h
  have hmax : ∀ st, c.del.amount st ≤ Delegation.maxU64 := by
    intro st
    have := amount_small h st
    unfold Delegation.maxU64; omega
  obtain ⟨k1, k2, k3, k4⟩ := Delegation.C11_ranking hg.mods.del hmax
  have k1 : (c.del.index.keys.map (·.2)).Nodup := k1
  have k2 : ∀ st, (c.del.at st).data.isSome = true → st ∈ c.del.index.keys.map (·.2) := k2
  have k4 : (c.del.index.keys.map (fun k => c.del.amount k.2)).Pairwise (· ≥ ·) := k4
  have hall := Query.Pages.all (m := c.del.index)
    (acc := fun e => !(inactive && decide (c.poolCount e.1.2 > 0)) && ((c.fullStaker e.1.2).map hit).getD true)
    (f := fun e => c.fullStaker e.1.2) (fun k => rfl) hp
  have hcount : ∀ a, ¬ c.poolCount a > 0 ↔ ∀ id, c.member id a = false := by
    intro a
    unfold poolCount
    rw [Nat.pos_iff_ne_zero.not, not_not, List.length_eq_zero_iff, List.filter_eq_nil_iff]
    constructor
    · intro h1 id
      cases hm : c.member id a with
      | false => rfl
      | true =>
        exfalso
        have hidx : c.st.valIdx.has (a, id) = c.st.vals.has (id, a) := hg.mods.st.inv.mem.idx a id
        have h2 : c.st.valIdx.has (a, id) = true := hidx.trans hm
        obtain ⟨v, hv⟩ := (Stakers.has_iff _ _).mp h2
        exact h1 (a, id) ((Map.mem_keys_iff _ _).mpr ⟨v, hv⟩) (by simp)
    · rintro h1 ⟨b, id⟩ hk hb
      have hb : b = a := by simpa using hb
      subst hb
      have hidx : c.st.valIdx.has (b, id) = c.st.vals.has (id, b) := hg.mods.st.inv.mem.idx b id
      have h2 : c.st.valIdx.has (b, id) = true := (Stakers.has_iff _ _).mpr ((Map.mem_keys_iff _ _).mp hk)
      have h3 : c.member id b = true := hidx.symm.trans h2
      rw [h1 id] at h3; cases h3
  generalize hf : (fun e : (Nat × Addr) × Unit => !(inactive && decide (c.poolCount e.1.2 > 0)) &&
    ((c.fullStaker e.1.2).map hit).getD true) = acc at hall
  have hacc : ∀ k a, acc ((k, a), ()) = true ↔ (inactive = true → ∀ id, c.member id a = false) ∧
      ∀ r, c.fullStaker a = some r → hit r = true := by
    intro k a
    rw [← hf]
    simp only [Bool.and_eq_true, Bool.not_eq_true', Bool.and_eq_false_iff, decide_eq_false_iff_not, hcount a]
    refine and_congr ?_ ?_
    · cases inactive <;> simp
    · cases hfs : c.fullStaker a with
      | none => simp
      | some r => simp
  have hmemr : ∀ a, a ∈ (c.del.index.toList.filter acc).map (·.1.2) ↔ a ∈ c.del.index.keys.map (·.2) ∧
      ((inactive = true → ∀ id, c.member id a = false) ∧ ∀ r, c.fullStaker a = some r → hit r = true) := by
    intro a
    unfold Map.keys
    rw [List.map_map, List.mem_map, List.mem_map]
    constructor
    · rintro ⟨⟨⟨k, b⟩, u⟩, hm, rfl⟩
      rw [List.mem_filter] at hm
      exact ⟨⟨_, hm.1, rfl⟩, (hacc k b).mp hm.2⟩
    · rintro ⟨⟨⟨⟨k, b⟩, u⟩, hm, rfl⟩, h2⟩
      exact ⟨((k, b), u), List.mem_filter.mpr ⟨hm, (hacc k b).mpr h2⟩, rfl⟩
  refine ⟨(c.del.index.toList.filter acc).map (·.1.2), ?_, ?_, ?_, ?_, ?_⟩
  · have hsub : ((c.del.index.toList.filter acc).map (·.1.2)).Sublist (c.del.index.keys.map (·.2)) := by
      unfold Map.keys
      rw [List.map_map]
      exact List.filter_sublist.map _
    exact k1.sublist hsub
  · rw [List.mapM_map]; exact hall
  · have hsub : ((c.del.index.toList.filter acc).map (fun e => c.del.amount e.1.2)).Sublist
        (c.del.index.keys.map (fun k => c.del.amount k.2)) := by
      unfold Map.keys
      rw [List.map_map]
      exact List.filter_sublist.map _
    have h5 := k4.sublist hsub
    rw [List.pairwise_map] at h5 ⊢
    exact h5
  · rintro a r hr hh hin ⟨d, hd⟩
    refine (hmemr a).mpr ⟨k2 a ?_, hin, ?_⟩
    · obtain ⟨x, hx⟩ := (Stakers.has_iff _ _).mp hd
      obtain ⟨y, hy⟩ := (hg.mods.del.winv.tied.f1inv a).data_of_del hx
      have hy : (c.del.at a).data = some y := hy
      rw [hy]; rfl
    · intro r' hr'
      rw [hr] at hr'; cases hr'; exact hh
  · intro a ha
    obtain ⟨-, h1, h2⟩ := (hmemr a).mp ha
    refine ⟨h2, h1, ?_⟩
    cases hd : (c.del.at a).data with
    | some y => exact Or.inl (Reachable.housed h a (by rw [hd]; rfl))
    | none =>
      refine Or.inr ⟨?_, fun d => ?_⟩
      · unfold Delegation.State.amount; rw [hd]; rfl
      · have hi : Delegation.F1Inv (c.del.at a) := hg.mods.del.winv.tied.f1inv a
        rw [(hi.dnone hd).1]; rfl

/-- the row that is shown of somebody who is no staker, and a staker that is not shown -/
def ghosts : List Op := [.createStaker 5 100000000000000000 0, .undelegate 1 77 0, .beginBlock 600000000 0 0 false]

theorem reach_ghosts : Reachable Sample.gov (Sample.run Sample.ready ghosts) :=
  Sample.run_reachable Sample.reach_ready _ (by decide +kernel)

/-- C71 is false of rows without a staker: after a request to undelegate nothing from an address that is no staker the list
has a row with an empty address. -/
theorem C71_phantom : ∃ c, Reachable Sample.gov c ∧ c.st.stakers.has 77 = false ∧
    ∃ rows, c.stakersList false (fun _ => true) 100 true none = some (rows, none) ∧ ∃ r ∈ rows, r.address = none := by
  refine ⟨_, reach_ghosts, by decide +kernel, ?_⟩
  have hk : ((Sample.run Sample.ready ghosts).stakersList false (fun _ => true) 100 true none).map
      (fun r => (r.1.map (·.address), r.2)) = some ([some 1, some 2, some 3, some 4, some 5, none], none) := by
    decide +kernel
  obtain ⟨⟨rows, k⟩, h1, h2⟩ := Option.map_eq_some_iff.mp hk
  injection h2 with h3 h4
  simp only at h3 h4
  subst h4
  refine ⟨rows, h1, ?_⟩
  have : (none : Option Addr) ∈ rows.map (·.address) := by rw [h3]; simp
  obtain ⟨r, hr, e⟩ := List.mem_map.mp this
  exact ⟨r, hr, e⟩

/-- C71 is false of stakers without delegation: such a staker is on the list until the node restarts. -/
theorem C71_vanishes : ∃ c c', Reachable Sample.gov c ∧ Reachable Sample.gov c' ∧
    c' = c.step Sample.gov (.beginBlock 1 0 0 true) ∧ c.st.stakers.has 5 = true ∧ c'.st.stakers.has 5 = true ∧
    (c.stakersList false (fun _ => true) 100 true none).map (fun r => r.1.map (·.address)) =
      some [some 1, some 2, some 3, some 4, some 5] ∧
    (c'.stakersList false (fun _ => true) 100 true none).map (fun r => r.1.map (·.address)) =
      some [some 1, some 2, some 3, some 4] := by
  refine ⟨Sample.run Sample.ready [.createStaker 5 100000000000000000 0],
    Sample.run Sample.ready [.createStaker 5 100000000000000000 0, .beginBlock 1 0 0 true],
    Sample.run_reachable Sample.reach_ready _ (by decide +kernel),
    Sample.run_reachable Sample.reach_ready _ (by decide +kernel), rfl, ?_, ?_, ?_, ?_⟩ <;> decide +kernel

/-! ## witnesses -/

example : (Sample.ready.stakerQuery 1).map (fun r => (r.address, r.selfDelegation, r.totalDelegation, r.delegatorCount)) =
    some (some 1, 100, 100, 1) := by decide +kernel
example : (Sample.ready.stakerQuery 1).map (fun r => r.pools.map (fun m => (m.pool.id, m.valaddress, m.pool.totalDelegation))) =
    some [(0, 11, 400)] := by decide +kernel
example : (Sample.ready.stakersByPool 0).map (fun l => l.map (fun r => (r.1.address, r.2.valaddress))) =
    some [(some 1, 11), (some 2, 12), (some 3, 13), (some 4, 14)] := by decide +kernel
example : ((Sample.run Sample.ready ghosts).stakersList true (fun _ => true) 100 true none).map
    (fun r => r.1.map (·.address)) = some [some 5, none] := by decide +kernel
example : ((Sample.run Sample.ready delegators).stakersList false (fun _ => true) 2 true none).map
    (fun r => (r.1.map (fun r => (r.address, r.totalDelegation)), r.2.map (·.2))) =
    some ([(some 1, 137), (some 2, 100)], some 3) := by decide +kernel

end Chain
end Verif.Chain
