import Verif.Query.Stakers

/-!
# C75, C76, C77: the vote in progress, the archive page by page, the unbondings of an account

The queries `CurrentVoteStatus`, `FinalizedBundlesQuery` (without an index; with an index see C30) and
`AccountDelegationUnbondings`.
-/

set_option linter.dupNamespace false
namespace Verif.Chain
open Verif
namespace Chain

/-! ## model -/

/-- proto `QueryCurrentVoteStatusResponse` -/
structure VoteStatus where
  valid : Nat
  invalid : Nat
  abstain : Nat
  total : Nat
deriving DecidableEq, Repr

/-- x/query/keeper/grpc_current_vote_status.go:13-33 `CurrentVoteStatus`; `none` is an error -/
def currentVoteStatus (c : Chain) (id : Nat) : Option VoteStatus :=
  if c.pool.pools.has id then some ⟨(c.dist id).valid, (c.dist id).invalid, (c.dist id).abstain, (c.dist id).total⟩
  else none

/-- `query.PageRequest` of the query of finalized bundles; keys are 8-byte bundle ids -/
structure BundleReq where
  offset : Nat := 0
  key : Option Nat := none
  limit : Nat := 0
  reverse : Bool := false
deriving DecidableEq, Repr

/-- the bundles of a page, the next key and `Total` -/
structure BundlePage where
  rows : List (Nat × Bundles.FBundle)
  next : Option Nat
  total : Nat
deriving DecidableEq, Repr

/-- the store below the prefix of the pool: bundle ids and bundles in the order of the ids -/
def bundlesOf (c : Chain) (id : Nat) : List (Nat × Bundles.FBundle) :=
  (c.bun.finalized.toList.filter (fun e => e.1.1 == id)).map (fun e => (e.1.2, e.2))

/-- x/bundles/keeper/getters_bundles.go:235-242: one more than the last id -/
def bundlesTotal (l : List (Nat × Bundles.FBundle)) : Nat :=
  match l.getLast? with
  | some e => u64add e.1 1
  | none => 0

/-- getters_bundles.go:209-285 `GetPaginatedFinalizedBundleQuery`; `none` is an error.  The bundles are shown as they are
stored: the conversion of `RawBundleToQueryBundle` (numbers to strings, the stake security hidden for bundles of older
versions) is left out. -/
def bundlesPage (c : Chain) (id : Nat) (r : BundleReq) : Option BundlePage :=
  if 0 < r.offset ∧ r.key.isSome then none
  else
    let limit := if r.limit = 0 then Query.defaultLimit else r.limit
    let total := bundlesTotal (c.bundlesOf id)
    let key := r.key.getD (if r.reverse then u64sub total r.offset else r.offset)
    let walk := if r.reverse then ((c.bundlesOf id).filter (fun e => decide (e.1 < key))).reverse
      else (c.bundlesOf id).filter (fun e => decide (key ≤ e.1))
    some
      { rows := walk.take limit
        next := if (walk.drop limit).isEmpty then none
          else if r.reverse then ((walk.take limit).getLast?).map (·.1) else (walk.drop limit).head?.map (·.1)
        total := total }

/-- the rows of a page of the query of finalized bundles that starts at a key, and the next key -/
def bundlesFrom (c : Chain) (id limit : Nat) (reverse : Bool) (key : Option Nat) :
    Option (List (Nat × Bundles.FBundle) × Option Nat) :=
  (c.bundlesPage id { key := key, limit := limit, reverse := reverse }).map (fun p => (p.rows, p.next))

/-- proto `DelegationUnbonding` -/
structure UnbondingRow where
  amount : Nat
  creation : Nat
  staker : FullStaker

/-- the undelegation queue below the prefix of a delegator in the secondary index (getters_undelegation.go:17-33: key
delegator and id, written and deleted with the entry) -/
def unbondings (c : Chain) (who : Addr) : Map Nat Delegation.QEntry :=
  c.del.queue.restrict (fun i => ((c.del.queue.get? i).map (fun e => e.delegator == who)).getD false)

/-- grpc_account_delegation_unbondings.go:32-41 -/
def unbondingRow (c : Chain) (e : Nat × Delegation.QEntry) : Option UnbondingRow :=
  (c.fullStaker e.2.staker).map (fun s => { amount := e.2.amount, creation := e.2.creation, staker := s })

/-- x/query/keeper/grpc_account_delegation_unbondings.go:20-53 `AccountDelegationUnbondings`, rows and next key -/
def unbondingsPage (c : Chain) (who : Addr) (limit : Nat) (total : Bool) (key : Option Nat) :
    Option (List UnbondingRow × Option Nat) :=
  ((Query.filteredPaginate (c.unbondings who) (fun _ => true) limit total key).1.mapM c.unbondingRow).map
    (fun rows => (rows, (Query.filteredPaginate (c.unbondings who) (fun _ => true) limit total key).2))

/-! ## C75 -/

variable {c c' : Chain} {gov : Addr}

/-- C75: for every existing pool the query answers; what it shows is the delegation of the present members who voted valid,
invalid and abstain on the proposal in progress, and of all members; the three never exceed the total; without a proposal
all four are zero. -/
theorem C75_votes (h : Reachable gov c) (id : Nat) :
    ((∃ v, c.currentVoteStatus id = some v) ↔ c.pool.pools.has id = true) ∧
    ∀ v, c.currentVoteStatus id = some v →
      v.valid + v.invalid + v.abstain ≤ v.total ∧
      (∀ p, c.bun.proposals.get? id = some p →
        v.valid = Bundles.stakeFor (c.members id) c.del.amount p.valid ∧
        v.invalid = Bundles.stakeFor (c.members id) c.del.amount p.invalid ∧
        v.abstain = Bundles.stakeFor (c.members id) c.del.amount p.abstain ∧
        v.total = ((c.members id).map c.del.amount).sum) ∧
      (c.bun.proposals.get? id = none → v = ⟨0, 0, 0, 0⟩) := by
  refine ⟨?_, ?_⟩
  · unfold currentVoteStatus
    split
    · rename_i hh
      exact ⟨fun _ => hh, fun _ => ⟨_, rfl⟩⟩
    · rename_i hh
      exact ⟨fun ⟨v, hv⟩ => (by cases hv), fun e => absurd e hh⟩
  · intro v hv
    unfold currentVoteStatus at hv
    split at hv
    case isFalse => cases hv
    injection hv with hv
    subst hv
    cases hp : c.bun.proposals.get? id with
    | none =>
      have hd : c.dist id = ⟨0, 0, 0, 0, .unspecified⟩ := by unfold dist; rw [hp]
      rw [hd]
      exact ⟨Nat.le_refl _, fun p e => (by cases e), fun _ => rfl⟩
    | some p =>
      have hd : c.dist id = Bundles.voteDist (c.member id) c.del.amount (c.members id) p := by unfold dist; rw [hp]
      have hg := Reachable.good h
      have e : c.proposal id = p := by unfold Chain.proposal Bundles.State.proposal; rw [hp]; rfl
      have hv := (hg.bun.prop id).nodup
      rw [e] at hv
      have hc := clean_votes hv
      have hn : (c.members id).Nodup := Stakers.stakersOf_nodup _ _
      have hs := lt_of_le_of_lt (stake_le_total c.del (c.members id) hn) hg.sane.small
      have hm : ∀ a, c.member id a = true ↔ a ∈ c.members id := fun a => mem_members.symm
      have h1 : (c.dist id).valid = Bundles.stakeFor (c.members id) c.del.amount p.valid := by
        rw [hd]; exact Bundles.power_eq hn hc.valid hm hs
      have h2 : (c.dist id).invalid = Bundles.stakeFor (c.members id) c.del.amount p.invalid := by
        rw [hd]; exact Bundles.power_eq hn hc.invalid hm hs
      have h3 : (c.dist id).abstain = Bundles.stakeFor (c.members id) c.del.amount p.abstain := by
        rw [hd]; exact Bundles.power_eq hn hc.abstain hm hs
      have h4 : (c.dist id).total = Bundles.stakeAll (c.members id) c.del.amount := by
        rw [hd]; exact Bundles.power_all hs
      refine ⟨?_, ?_, fun e => by cases e⟩
      · show (c.dist id).valid + (c.dist id).invalid + (c.dist id).abstain ≤ (c.dist id).total
        rw [h1, h2, h3, h4]
        exact Bundles.stakeFor_disjoint3 _ _ _ _ _ hc.vi hc.va hc.ia
      · rintro q e
        cases e
        exact ⟨h1, h2, h3, h4⟩

/-! ## C76 -/

theorem mem_bundlesOf (c : Chain) (id i : Nat) (f : Bundles.FBundle) :
    (i, f) ∈ c.bundlesOf id ↔ c.bun.finalized.get? (id, i) = some f := by
  unfold bundlesOf
  rw [List.mem_map]
  constructor
  · rintro ⟨⟨⟨j, k⟩, g⟩, hm, e⟩
    rw [List.mem_filter] at hm
    cases e
    have e : j = id := by simpa using hm.2
    subst e
    exact (Map.mem_iff _ _ _).mp hm.1
  · intro hg
    exact ⟨((id, i), f), List.mem_filter.mpr ⟨(Map.mem_iff _ _ _).mpr hg, by simp⟩, rfl⟩

theorem bundlesOf_sorted (c : Chain) (id : Nat) : ((c.bundlesOf id).map (·.1)).Pairwise (· < ·) := by
  unfold bundlesOf
  rw [List.map_map, List.pairwise_map]
  refine List.Pairwise.imp_of_mem ?_ (c.bun.finalized.sorted.filter _)
  rintro ⟨⟨i, a⟩, f⟩ ⟨⟨j, b⟩, g⟩ h1 h2 hlt
  rw [List.mem_filter] at h1 h2
  have e1 : i = id := by simpa using h1.2
  have e2 : j = id := by simpa using h2.2
  subst e1; subst e2
  have hlt : (decide (j < j) || (decide (j = j) && decide (a < b))) = true := hlt
  simpa using hlt

/-- the number of finalized bundles of a pool, zero if there is no such pool -/
def bundleCount (c : Chain) (id : Nat) : Nat := ((c.pool.pools.get? id).map (·.totalBundles)).getD 0

theorem bundlesOf_ids (h : Reachable gov c) (id : Nat) : (c.bundlesOf id).map (·.1) = List.range (c.bundleCount id) := by
  refine List.Pairwise.eq_of_mem_iff (bundlesOf_sorted c id) List.pairwise_lt_range ?_
  intro i
  rw [List.mem_range, List.mem_map]
  have hb := (Reachable.good h).bun
  unfold bundleCount
  cases hp : c.pool.pools.get? id with
  | none =>
    refine ⟨?_, fun e => absurd e (Nat.not_lt_zero _)⟩
    rintro ⟨⟨j, f⟩, hm, -⟩
    rw [mem_bundlesOf, hb.orphan id j hp] at hm
    cases hm
  | some p =>
    refine Iff.trans ?_ ((hb.chained id p hp).dense i)
    constructor
    · rintro ⟨⟨j, f⟩, hm, rfl⟩
      exact ⟨f, (mem_bundlesOf ..).mp hm⟩
    · rintro ⟨f, hf⟩
      exact ⟨(i, f), (mem_bundlesOf ..).mpr hf, rfl⟩

theorem bundlesTotal_eq (h : Reachable gov c) (id : Nat) (hn : c.bundleCount id < twoPow64) :
    bundlesTotal (c.bundlesOf id) = c.bundleCount id := by
  have hi := bundlesOf_ids h id
  have hl := congrArg List.getLast? hi
  rw [List.getLast?_map] at hl
  unfold bundlesTotal
  cases hx : (c.bundlesOf id).getLast? with
  | none =>
    rw [hx] at hl
    rw [List.getLast?_eq_none_iff] at hx
    rw [hx] at hi
    have := congrArg List.length hi
    simpa using this
  | some e =>
    rw [hx] at hl
    have hlt : e.1 + 1 = c.bundleCount id := by
      generalize c.bundleCount id = n at hl hn
      cases n with
      | zero => simp at hl
      | succ n =>
        rw [List.range_succ] at hl
        simp at hl
        omega
    show (e.1 + 1) % twoPow64 = _
    rw [hlt]
    exact Nat.mod_eq_of_lt hn

theorem filter_ge_range (n k : Nat) : (List.range n).filter (fun i => decide (k ≤ i)) = List.range' k (n - k) := by
  refine List.Pairwise.eq_of_mem_iff (List.pairwise_lt_range.filter _) List.pairwise_lt_range' ?_
  intro i
  rw [List.mem_filter, List.mem_range, List.mem_range'_1, decide_eq_true_eq]
  omega

theorem filter_lt_range (n k : Nat) : (List.range n).filter (fun i => decide (i < k)) = List.range (min k n) := by
  refine List.Pairwise.eq_of_mem_iff (List.pairwise_lt_range.filter _) List.pairwise_lt_range ?_
  intro i
  rw [List.mem_filter, List.mem_range, List.mem_range, decide_eq_true_eq]
  omega

theorem take_range' (s n l : Nat) : (List.range' s n).take l = List.range' s (min l n) := by
  induction l generalizing s n with
  | zero => simp
  | succ l ih =>
    cases n with
    | zero => simp
    | succ n =>
      rw [List.range'_succ, List.take_succ_cons, ih, Nat.succ_min_succ, List.range'_succ]

theorem drop_range' (s n l : Nat) : (List.range' s n).drop l = List.range' (s + l) (n - l) := by
  induction l generalizing s n with
  | zero => simp
  | succ l ih =>
    cases n with
    | zero => simp
    | succ n =>
      rw [List.range'_succ, List.drop_succ_cons, ih]
      congr 1 <;> omega

/-- `n` ids down from (and without) `k` -/
def down (k n : Nat) : List Nat := (List.range n).map (fun j => k - 1 - j)

theorem reverse_range (n : Nat) : (List.range n).reverse = down n n := by
  unfold down
  apply List.ext_getElem
  · simp
  · intro i h1 h2
    simp

theorem take_down (k n l : Nat) : (down k n).take l = down k (min l n) := by
  unfold down
  rw [← List.map_take, List.take_range]

theorem drop_down (k n l : Nat) : (down k n).drop l = down (k - l) (n - l) := by
  unfold down
  rw [← List.map_drop, List.range_eq_range', drop_range', List.range_eq_range']
  apply List.ext_getElem
  · simp
  · intro i h1 h2
    simp
    omega

/-- what a page of the archive shows, the code's own words replaced by numbers: forward from `k`, or down from `k` -/
theorem bundlesPage_eq (h : Reachable gov c) (id : Nat) {r : BundleReq} {p : BundlePage} (hp : c.bundlesPage id r = some p)
    (hn : c.bundleCount id < twoPow64) :
    p.total = c.bundleCount id ∧ (∀ i f, (i, f) ∈ p.rows → c.bun.finalized.get? (id, i) = some f) ∧
    ∀ l, l = (if r.limit = 0 then Query.defaultLimit else r.limit) →
    (r.reverse = false → ∀ k, k = r.key.getD r.offset →
      p.rows.map (·.1) = List.range' k (min l (c.bundleCount id - k)) ∧
      p.next = if k + l < c.bundleCount id then some (k + l) else none) ∧
    (r.reverse = true → ∀ k, k = min (r.key.getD (u64sub (c.bundleCount id) r.offset)) (c.bundleCount id) →
      p.rows.map (·.1) = down k (min l k) ∧
      p.next = if l < k then some (k - l) else none) := by
  unfold bundlesPage at hp
  split at hp
  case isTrue => cases hp
  have ht := bundlesTotal_eq h id hn
  rw [ht] at hp
  have hi := bundlesOf_ids h id
  have hm := mem_bundlesOf c id
  generalize c.bundleCount id = n at *
  generalize c.bundlesOf id = bs at *
  simp only [] at hp
  injection hp with hp
  subst hp
  refine ⟨rfl, ?_, ?_⟩
  · intro i f hf
    have hf := List.mem_of_mem_take hf
    split at hf
    · rw [List.mem_reverse] at hf
      exact (hm i f).mp (List.mem_filter.mp hf).1
    · exact (hm i f).mp (List.mem_filter.mp hf).1
  · intro l el
    have hl : 0 < l := by
      rw [el]; split
      · decide
      · omega
    refine ⟨?_, ?_⟩
    · intro er k ek
      simp only [er, Bool.false_eq_true, if_false, ← el, ← ek]
      have e : (bs.filter (fun e => decide (k ≤ e.1))).map (·.1) = List.range' k (n - k) := by
        have e0 : (bs.filter (fun e => decide (k ≤ e.1))).map (·.1) = (bs.map (·.1)).filter (fun i => decide (k ≤ i)) := by
          rw [List.filter_map]; rfl
        rw [e0, hi, filter_ge_range]
      generalize bs.filter (fun e => decide (k ≤ e.1)) = w at e
      refine ⟨by rw [List.map_take, e, take_range'], ?_⟩
      have e1 : (w.drop l).map (·.1) = List.range' (k + l) (n - k - l) := by rw [List.map_drop, e, drop_range']
      rw [← List.head?_map, e1]
      have e2 : (w.drop l).isEmpty = decide (n - k - l = 0) := by
        have := congrArg List.length e1
        rw [List.length_map, List.length_range'] at this
        rw [← this]
        cases w.drop l <;> simp
      rw [e2]
      by_cases hz : n - k - l = 0
      · rw [if_pos (decide_eq_true hz), if_neg (by omega)]
      · rw [if_neg (by simpa using hz), if_pos (by omega)]
        obtain ⟨m, hm'⟩ : ∃ m, n - k - l = m + 1 := ⟨n - k - l - 1, by omega⟩
        rw [hm', List.range'_succ]; rfl
    · intro er k ek
      simp only [er, if_true, ← el]
      generalize r.key.getD (u64sub n r.offset) = k0 at ek
      have e : ((bs.filter (fun e => decide (e.1 < k0))).reverse).map (·.1) = down k k := by
        have e0 : (bs.filter (fun e => decide (e.1 < k0))).map (·.1) = (bs.map (·.1)).filter (fun i => decide (i < k0)) := by
          rw [List.filter_map]; rfl
        rw [List.map_reverse, e0, hi, filter_lt_range, ← ek, reverse_range]
      generalize (bs.filter (fun e => decide (e.1 < k0))).reverse = w at e
      refine ⟨by rw [List.map_take, e, take_down], ?_⟩
      have e1 : (w.drop l).map (·.1) = down (k - l) (k - l) := by rw [List.map_drop, e, drop_down]
      have e2 : (w.drop l).isEmpty = decide (k - l = 0) := by
        have := congrArg List.length e1
        rw [List.length_map] at this
        have h3 : (down (k - l) (k - l)).length = k - l := by unfold down; simp
        rw [h3] at this
        rw [← this]
        cases w.drop l <;> simp
      have e3 : (w.take l).map (·.1) = down k (min l k) := by rw [List.map_take, e, take_down]
      rw [e2, ← List.getLast?_map, e3]
      by_cases hz : k - l = 0
      · rw [if_pos (decide_eq_true hz), if_neg (by omega)]
      · rw [if_neg (by simpa using hz), if_pos (by omega), Nat.min_eq_left (by omega)]
        unfold down
        obtain ⟨m, rfl⟩ : ∃ m, l = m + 1 := ⟨l - 1, by omega⟩
        rw [List.range_succ, List.map_append, List.map_singleton, List.getLast?_concat]
        congr 1; omega

theorem mod_small {n o m : Nat} (h : o ≤ n) (hn : n < m) : (n + m - o) % m = n - o := by
  have : n + m - o = (n - o) + m := by omega
  rw [this, Nat.add_mod_right]
  exact Nat.mod_eq_of_lt (by omega)

theorem sub_small {n o : Nat} (h : o ≤ n) (hn : n < twoPow64) : u64sub n o = n - o := mod_small h hn

theorem mod_wraps {n o m : Nat} (hn : n < m / 2) (h1 : n < o) (h2 : o ≤ m / 2) : n ≤ (n + m - o) % m := by
  rw [Nat.mod_eq_of_lt (by omega)]
  omega

theorem sub_wraps {n o : Nat} (hn : n < twoPow64 / 2) (h1 : n < o) (h2 : o ≤ twoPow64 / 2) : n ≤ u64sub n o :=
  mod_wraps hn h1 h2

theorem page_start {n o l : Nat} {rev : Bool} (hn : n < twoPow64) (ho : rev = true → o ≤ n) :
    rev = true → n - o = min (BundleReq.key { offset := o, limit := l, reverse := rev } |>.getD (u64sub n o)) n := by
  intro er
  rw [show BundleReq.key { offset := o, limit := l, reverse := rev } = none from rfl, Option.getD_none, sub_small (ho er) hn,
    Nat.min_eq_left (Nat.sub_le _ _)]

theorem limit_pos {l : Nat} (hl : 0 < l) : l = if l = 0 then Query.defaultLimit else l := by
  rw [if_neg (by omega)]

/-- C76: `Total` is the number of finalized bundles of the pool; a page asked by `offset` starts that many bundles after the
first (backwards: before the last), holds `limit` bundles or all that remain, each the stored one under its id; there is a
next key exactly if bundles remain. -/
theorem C76_page (h : Reachable gov c) (id : Nat) {o l : Nat} {rev : Bool} (hl : 0 < l) (hn : c.bundleCount id < twoPow64)
    (ho : rev = true → o ≤ c.bundleCount id) :
    ∃ p, c.bundlesPage id { offset := o, limit := l, reverse := rev } = some p ∧ p.total = c.bundleCount id ∧
      (∀ i f, (i, f) ∈ p.rows → c.bun.finalized.get? (id, i) = some f) ∧
      p.rows.map (·.1) = (((if rev then (List.range (c.bundleCount id)).reverse else List.range (c.bundleCount id)).drop o).take l) ∧
      (p.next.isSome = true ↔ o + l < c.bundleCount id) := by
  have hx : ∃ p, c.bundlesPage id { offset := o, limit := l, reverse := rev } = some p := by
    unfold bundlesPage
    exact ⟨_, if_neg (by rintro ⟨-, e⟩; cases e)⟩
  obtain ⟨p, hp⟩ := hx
  obtain ⟨h1, h2, h3⟩ := bundlesPage_eq h id hp hn
  obtain ⟨h4, h5⟩ := h3 l (limit_pos hl)
  have hs := page_start (l := l) hn ho
  refine ⟨p, hp, h1, h2, ?_⟩
  clear hp h3 h1 h2 hn h
  cases rev with
  | false =>
    obtain ⟨h6, h7⟩ := h4 rfl o rfl
    clear h4 h5 hs
    generalize c.bundleCount id = n at *
    refine ⟨?_, ?_⟩
    · rw [h6, if_neg (by decide), List.range_eq_range', drop_range', take_range', Nat.zero_add]
    · rw [h7]; split <;> simp_all
  | true =>
    obtain ⟨h6, h7⟩ := h5 rfl (c.bundleCount id - o) (hs rfl)
    clear h4 h5 hs
    generalize c.bundleCount id = n at *
    refine ⟨?_, ?_⟩
    · rw [h6, if_pos rfl, reverse_range, drop_down, take_down]
    · rw [h7]
      have := ho rfl
      split <;> simp <;> omega

/-- the pages of a list of `n` ids, as sizes and next keys -/
structure Cut (n l : Nat) (rev : Bool) (k : Option Nat) (p : List (Nat × Bundles.FBundle)) (nk : Option Nat) : Prop where
  fwd : rev = false → p.map (·.1) = List.range' (k.getD 0) (min l (n - k.getD 0)) ∧
        nk = if k.getD 0 + l < n then some (k.getD 0 + l) else none
  bwd : rev = true → ∀ m, m = min (k.getD n) n → p.map (·.1) = down m (min l m) ∧ nk = if l < m then some (m - l) else none

theorem bundlesFrom_cut (h : Reachable gov c) (id : Nat) {l : Nat} {rev : Bool} (hl : 0 < l) (hn : c.bundleCount id < twoPow64)
    (k : Option Nat) : ∃ p nk, c.bundlesFrom id l rev k = some (p, nk) ∧ Cut (c.bundleCount id) l rev k p nk ∧
      ∀ i f, (i, f) ∈ p → c.bun.finalized.get? (id, i) = some f := by
  have hx : ∃ p, c.bundlesPage id { key := k, limit := l, reverse := rev } = some p := by
    unfold bundlesPage
    exact ⟨_, if_neg (by rintro ⟨e, -⟩; exact absurd e (Nat.lt_irrefl 0))⟩
  obtain ⟨p, hp⟩ := hx
  obtain ⟨h1, h2, h3⟩ := bundlesPage_eq h id hp hn
  obtain ⟨h4, h5⟩ := h3 l (limit_pos hl)
  refine ⟨p.rows, p.next, (by unfold bundlesFrom; rw [hp]; rfl), ⟨fun er => h4 er _ rfl, fun er m em => h5 er m ?_⟩, h2⟩
  rw [em, sub_small (Nat.zero_le _) hn, Nat.sub_zero]

theorem cut_all {q : Option Nat → Option (List (Nat × Bundles.FBundle) × Option Nat)} {n l : Nat} {rev : Bool}
    (one : ∀ k p nk, q k = some (p, nk) → Cut n l rev k p nk) {k : Option Nat}
    {ps : List (List (Nat × Bundles.FBundle))} (hp : Query.Pages q k ps) :
    (rev = false → ps.flatten.map (·.1) = List.range' (k.getD 0) (n - k.getD 0)) ∧
    (rev = true → ∀ m, m = min (k.getD n) n → ps.flatten.map (·.1) = down m m) := by
  induction hp with
  | @last k p e =>
    obtain ⟨h2, h3⟩ := one _ _ _ e
    simp only [List.flatten_cons, List.flatten_nil, List.append_nil]
    refine ⟨fun er => ?_, fun er m em => ?_⟩
    · obtain ⟨h4, h5⟩ := h2 er
      rw [h4]
      split at h5
      · cases h5
      · congr 1; omega
    · obtain ⟨h4, h5⟩ := h3 er m em
      rw [h4]
      split at h5
      · cases h5
      · congr 1; omega
  | @more k k' p ps e _ ih =>
    obtain ⟨h2, h3⟩ := one _ _ _ e
    obtain ⟨i2, i3⟩ := ih
    rw [List.flatten_cons]
    refine ⟨fun er => ?_, fun er m em => ?_⟩
    · obtain ⟨h4, h5⟩ := h2 er
      rw [List.map_append, h4, i2 er]
      split at h5
      · injection h5 with h5
        subst h5
        rename_i hlt
        rw [Option.getD_some]
        generalize k.getD 0 = x at *
        rw [Nat.min_eq_left (by omega), List.range'_append_1]
        congr 1; omega
      · cases h5
    · obtain ⟨h4, h5⟩ := h3 er m em
      split at h5
      · injection h5 with h5
        subst h5
        rename_i hlt
        have hmn : m ≤ n := by rw [em]; exact Nat.min_le_right _ _
        rw [List.map_append, h4, i3 er (m - l) (by rw [Option.getD_some]; omega), ← take_down m m l, ← drop_down,
          List.take_append_drop]
      · cases h5

theorem cut_ends {q : Option Nat → Option (List (Nat × Bundles.FBundle) × Option Nat)} {n l : Nat} {rev : Bool} (hl : 0 < l)
    (one : ∀ k, ∃ p nk, q k = some (p, nk) ∧ Cut n l rev k p nk) : ∃ ps, Query.Pages q none ps := by
  have key : ∀ m k, (if rev then k.getD n else n - k.getD 0) ≤ m → ∃ ps, Query.Pages q k ps := by
    intro m
    induction m with
    | zero =>
      intro k hk
      obtain ⟨p, nk, e, h2, h3⟩ := one k
      have hnone : nk = none := by
        cases rev with
        | false =>
          rw [(h2 rfl).2]
          rw [if_neg (by decide)] at hk
          exact if_neg (by omega)
        | true =>
          rw [(h3 rfl _ rfl).2]
          rw [if_pos rfl] at hk
          exact if_neg (by omega)
      exact ⟨[p], .last (by rw [e, hnone])⟩
    | succ m ih =>
      intro k hk
      obtain ⟨p, nk, e, h2, h3⟩ := one k
      cases hnx : nk with
      | none => exact ⟨[p], .last (by rw [e, hnx])⟩
      | some k' =>
        obtain ⟨ps, hps⟩ := ih (some k') (by
          cases rev with
          | false =>
            have e := (h2 rfl).2
            rw [if_neg (by decide)] at hk ⊢
            rw [hnx] at e
            rw [Option.getD_some]
            split at e
            · injection e with e
              omega
            · cases e
          | true =>
            have e := (h3 rfl _ rfl).2
            rw [if_pos rfl] at hk ⊢
            rw [hnx] at e
            rw [Option.getD_some]
            split at e
            · injection e with e
              omega
            · cases e)
        exact ⟨p :: ps, .more (by rw [e, hnx]) hps⟩
  exact key _ none (Nat.le_refl _)

theorem pages_member {q : Option Nat → Option (List (Nat × Bundles.FBundle) × Option Nat)} {P : Nat × Bundles.FBundle → Prop}
    (one : ∀ k p nk, q k = some (p, nk) → ∀ e ∈ p, P e) {k : Option Nat}
    {ps : List (List (Nat × Bundles.FBundle))} (hp : Query.Pages q k ps) : ∀ e ∈ ps.flatten, P e := by
  induction hp with
  | @last k p e =>
    intro x hx
    exact one _ _ _ e x (by simpa using hx)
  | @more k k' p ps e _ ih =>
    intro x hx
    rw [List.flatten_cons] at hx
    rcases List.mem_append.mp hx with hx | hx
    · exact one _ _ _ e x hx
    · exact ih x hx

/-- C76: a client that reads all pages by key gets every finalized bundle of the pool exactly once, in the order of the ids
(backwards: in the opposite order). -/
theorem C76_read (h : Reachable gov c) (id : Nat) {l : Nat} {rev : Bool} (hl : 0 < l) (hn : c.bundleCount id < twoPow64)
    {ps : List (List (Nat × Bundles.FBundle))} (hp : Query.Pages (c.bundlesFrom id l rev) none ps) :
    ps.flatten.map (·.1) = (if rev then (List.range (c.bundleCount id)).reverse else List.range (c.bundleCount id)) ∧
    ∀ i f, (i, f) ∈ ps.flatten ↔ c.bun.finalized.get? (id, i) = some f := by
  have hc := bundlesFrom_cut (rev := rev) h id hl hn
  obtain ⟨h2, h3⟩ := cut_all (n := c.bundleCount id) (l := l) (rev := rev) (fun k p nk e => by
    obtain ⟨p', nk', e', h1, -⟩ := hc k
    rw [e] at e'; cases e'; exact h1) hp
  have h1 := pages_member (P := fun e => c.bun.finalized.get? (id, e.1) = some e.2) (fun k p nk e => by
    obtain ⟨p', nk', e', -, h1⟩ := hc k
    rw [e] at e'; cases e'; exact fun x hx => h1 x.1 x.2 hx) hp
  clear hc hn
  have e : ps.flatten.map (·.1) = (if rev then (List.range (c.bundleCount id)).reverse else List.range (c.bundleCount id)) := by
    cases rev with
    | false => rw [h2 rfl, if_neg (by decide), List.range_eq_range']; rfl
    | true => rw [h3 rfl (c.bundleCount id) (by rw [Option.getD_none, Nat.min_self]), if_pos rfl, reverse_range]
  refine ⟨e, fun i f => ⟨h1 (i, f), fun hf => ?_⟩⟩
  have hi : i ∈ ps.flatten.map (·.1) := by
    have : i ∈ List.range (c.bundleCount id) := by
      rw [← bundlesOf_ids h id, List.mem_map]
      exact ⟨(i, f), (mem_bundlesOf ..).mpr hf, rfl⟩
    rw [e]
    split
    · rwa [List.mem_reverse]
    · exact this
  obtain ⟨⟨j, g⟩, hm, rfl⟩ := List.mem_map.mp hi
  have := h1 (j, g) hm
  rw [hf] at this
  cases this
  exact hm

/-- and it always gets to the end -/
theorem C76_ends (h : Reachable gov c) (id : Nat) {l : Nat} (rev : Bool) (hl : 0 < l) (hn : c.bundleCount id < twoPow64) :
    ∃ ps, Query.Pages (c.bundlesFrom id l rev) none ps :=
  cut_ends hl (fun k => by
    obtain ⟨p, nk, e, h1, -⟩ := bundlesFrom_cut (rev := rev) h id hl hn k
    exact ⟨p, nk, e, h1⟩)

/-- C76, finding: backwards, an offset beyond the first bundle does not give an empty page: the position wraps around and
the newest bundles are shown again. -/
theorem C76_wraps (h : Reachable gov c) (id : Nat) {o l : Nat} (hl : 0 < l) (hn : c.bundleCount id < twoPow64 / 2)
    (h1 : c.bundleCount id < o) (h2 : o ≤ twoPow64 / 2) :
    ∃ p, c.bundlesPage id { offset := o, limit := l, reverse := true } = some p ∧
      p.rows.map (·.1) = (List.range (c.bundleCount id)).reverse.take l := by
  have hx : ∃ p, c.bundlesPage id { offset := o, limit := l, reverse := true } = some p := by
    unfold bundlesPage
    exact ⟨_, if_neg (by rintro ⟨-, e⟩; cases e)⟩
  obtain ⟨p, hp⟩ := hx
  obtain ⟨-, -, h3⟩ := bundlesPage_eq h id hp (lt_of_lt_of_le hn (Nat.div_le_self _ _))
  obtain ⟨-, h5⟩ := h3 l (limit_pos hl)
  refine ⟨p, hp, ?_⟩
  obtain ⟨h6, -⟩ := h5 rfl (c.bundleCount id) (by
    rw [Option.getD_none]
    exact (Nat.min_eq_right (sub_wraps hn h1 h2)).symm)
  rw [h6, reverse_range, take_down]

/-! ## C77 -/

/-- C77: reading all pages of the unbondings of an account gives its requests that have not been paid, oldest first, each
exactly once, with amount and time of the request and the data of the staker; it fails only if the data of a staker cannot be shown
(C72). -/
theorem C77_unbondings (h : Reachable gov c) (who : Addr) {limit : Nat} {total : Bool} {ps : List (List UnbondingRow)}
    (hp : Query.Pages (c.unbondingsPage who limit total) none ps) :
    (∃ rest, Delegation.requests c.del.trace = Delegation.paids c.del.trace ++ rest ∧
      ps.flatten.map (fun r => (r.amount, r.creation, some r.staker)) =
        ((rest.map (·.2)).filter (fun e => e.delegator == who)).map (fun e => (e.amount, e.creation, c.fullStaker e.staker))) ∧
    ((∀ a, c.st.stakers.has a = true → (c.stakerQuery a).isSome = true) →
      ∀ k, (c.unbondingsPage who limit total k).isSome = true) := by
  refine ⟨⟨c.del.queue.toList, Delegation.C08_once_in_order (Reachable.good h).mods.del, ?_⟩, ?_⟩
  · have hs : Query.Shows (c.unbondingsPage who limit total) (c.unbondings who) (fun _ => true) limit total c.unbondingRow := by
      intro k; unfold unbondingsPage; rfl
    have hall := Query.Pages.all hs hp
    have e1 := Query.mapM_proj (u := fun e => (e.2.amount, e.2.creation, c.fullStaker e.2.staker))
      (v := fun r : UnbondingRow => (r.amount, r.creation, some r.staker)) (fun x b hb => by
        unfold unbondingRow at hb
        generalize hy : c.fullStaker x.2.staker = y at *
        cases y with
        | none => cases hb
        | some s => cases hb; rfl) hall
    rw [e1, filter_true]
    have e2 : (c.unbondings who).toList =
        c.del.queue.toList.filter (fun e => e.2.delegator == who) := by
      unfold unbondings Map.restrict
      refine List.filter_congr ?_
      rintro ⟨i, e⟩ hm
      have : c.del.queue.get? i = some e := (Map.mem_iff _ _ _).mp hm
      show ((c.del.queue.get? i).map _).getD false = _
      rw [this]; rfl
    rw [e2, List.filter_map, List.map_map]
    rfl
  · intro hs k
    unfold unbondingsPage
    rw [Option.isSome_map]
    refine (mapM_isSome).mpr ?_
    intro e he
    unfold unbondingRow
    rw [Option.isSome_map]
    by_cases hh : c.st.stakers.has e.2.staker = true
    · have := hs _ hh
      unfold stakerQuery at this
      rwa [if_pos hh] at this
    · have hn : c.st.stakers.get? e.2.staker = none := by
        cases hg : c.st.stakers.get? e.2.staker with
        | none => rfl
        | some x => exact absurd ((Stakers.has_iff _ _).mpr ⟨x, hg⟩) hh
      unfold fullStaker
      rw [hn]; rfl

/-! ## concrete cases -/

/-- three voters of four have voted valid -/
example : Sample.voted.currentVoteStatus 0 = some ⟨300, 0, 0, 400⟩ := by decide +kernel

/-- an archive of two bundles -/
def archive : Chain := Sample.run Sample.second
  [Sample.votes 2 8 .valid, Sample.votes 3 8 .valid, .beginBlock 60 0 0 false, .submit (Sample.bundle 2 9 20)]

theorem reach_archive : Reachable Sample.gov archive := Sample.run_reachable Sample.reach_second _ (by decide +kernel)

example : archive.bundleCount 0 = 2 := by decide +kernel

example : (archive.bundlesPage 0 { limit := 1 }).map (fun p => (p.rows.map (·.1), p.next, p.total)) = some ([0], some 1, 2) := by
  decide +kernel

example : (archive.bundlesPage 0 { limit := 1, reverse := true }).map (fun p => (p.rows.map (·.1), p.next, p.total)) =
    some ([1], some 1, 2) := by
  decide +kernel

/-- the wrapped offset shows the newest bundles again -/
example : (archive.bundlesPage 0 { offset := 5, reverse := true }).map (fun p => p.rows.map (·.1)) = some [1, 0] := by
  decide +kernel

end Chain
end Verif.Chain
