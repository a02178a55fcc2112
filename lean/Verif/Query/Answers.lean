import Verif.Chain.Pools
import Verif.Query.Pagination

/-!
# C53, C56, C57, C58: what the queries answer

Model of the queries of /repo/x/query a protocol node asks before it acts, of the list of active stakers, and of the
numbers x/stakers gives to governance.
-/

set_option linter.dupNamespace false
namespace Verif.Chain
open Verif

namespace Chain

/-! ## model -/

/-- x/query/keeper/grpc_query_can_validate.go:14-53 `CanValidate`: the staker in `reason`, `none` if not possible -/
def canValidate (c : Chain) (id : Nat) (node : Addr) : Option Addr :=
  if !c.pool.pools.has id then none
  else (c.st.stakersOf id).find? (fun a => c.st.authorized id a node)

/-- x/query/keeper/grpc_query_can_propose.go:13-33 `CanPropose`: `possible` -/
def canProposeQuery (c : Chain) (id : Nat) (staker proposer : Addr) (fromIndex : Nat) : Bool :=
  (c.canPropose id staker proposer fromIndex).isNone

/-- the answers of `CanVote` -/
inductive VoteAnswer where
  | impossible | noAbstain | possible
deriving DecidableEq, Repr

/-- x/query/keeper/grpc_query_can_vote.go:14-44 `CanVote` -/
def canVoteQuery (c : Chain) (id : Nat) (staker voter : Addr) (storageId : Nat) : VoteAnswer :=
  if (c.canVote id staker voter storageId).isSome then .impossible
  else if staker ∈ (c.proposal id).abstain then .noAbstain
  else .possible

/-- x/stakers/keeper/getters_staker.go:304-318 `getAllActiveStakers`, in store order -/
def activeStakers (c : Chain) : List Addr := c.st.active.keys

/-- x/stakers/keeper/exported_functions.go:80-91 `TotalBondedTokens` -/
def totalBonded (c : Chain) : Int := (c.activeStakers.map (fun a => Delegation.i64 (c.del.amount a))).sum

/-- exported_functions.go:97-114 `GetActiveValidators`: addresses and bonded tokens -/
def activeValidators (c : Chain) : List (Addr × Int) :=
  c.activeStakers.map (fun a => (a, Delegation.i64 (c.del.amount a)))

/-- x/delegation/keeper/getters_delegator.go:104-117 `GetStakersByDelegator`.  The index it reads is written and deleted
together with the entries it points to (getters_delegator.go:22-35, 67-84), so the model reads those. -/
def stakersByDelegator (c : Chain) (d : Addr) : List Addr :=
  c.del.f1.keys.filter (fun st => (c.del.at st).dels.has d)

/-- x/stakers/keeper/exported_functions.go:118-133 `GetDelegations`: validators and amounts -/
def govDelegations (c : Chain) (d : Addr) : List (Addr × Int) :=
  ((c.stakersByDelegator d).filter (fun a => c.st.active.has a)).map
    (fun st => (st, Delegation.i64 (Delegation.curDel (c.del.at st) d)))

/-! ## C56: CanValidate -/

variable {c c' : Chain} {id : Nat} {gov : Addr}

/-- C56: the query says yes exactly if the pool exists and the address is registered by a member, and the staker it names
is that member; on a reachable chain there is only one. -/
theorem C56_can_validate (h : Reachable gov c) (id : Nat) (node : Addr) :
    (∀ a, c.canValidate id node = some a ↔ c.pool.pools.has id = true ∧ Registered c id a node) ∧
    (∀ a a', Registered c id a node → Registered c id a' node → a = a') := by
  have hu : ∀ a a', Registered c id a node → Registered c id a' node → a = a' := by
    rintro a a' ⟨v, h1, h2⟩ ⟨v', h3, h4⟩
    exact (Reachable.good h).mods.st.inv.mem.inPool id a a' v v' h1 h3 (by rw [h2, h4])
  refine ⟨?_, hu⟩
  intro a
  unfold canValidate
  cases hp : c.pool.pools.has id with
  | false => simp
  | true =>
    simp only [Bool.not_true, Bool.false_eq_true, if_false, true_and]
    constructor
    · intro hf
      have h1 := List.find?_some hf
      exact authorized_iff.mp h1
    · intro hr
      have hm : a ∈ c.st.stakersOf id := by
        obtain ⟨v, h1, -⟩ := hr
        rw [Stakers.mem_stakersOf]; exact ⟨v, h1⟩
      cases hf : (c.st.stakersOf id).find? (fun a => c.st.authorized id a node) with
      | none =>
        have := List.find?_eq_none.mp hf a hm
        exact absurd (authorized_iff.mpr hr) this
      | some a' =>
        have h1 := List.find?_some hf
        rw [hu a' a (authorized_iff.mp h1) hr]

/-! ## C57: CanVote and CanPropose -/

/-- C57: the answer of `CanVote` is exactly what happens to a vote cast now: `impossible` if every vote is rejected,
otherwise valid and invalid votes are accepted, and abstaining too unless the answer says so. -/
theorem C57_can_vote (c : Chain) (m : VoteMsg) :
    (∃ c', c.vote m = .ok c') ↔
      match m.vote with
      | .unspecified => False
      | .abstain => c.canVoteQuery m.pool m.staker m.creator m.storageId = .possible
      | _ => c.canVoteQuery m.pool m.staker m.creator m.storageId ≠ .impossible := by
  unfold vote canVoteQuery
  cases hc : c.canVote m.pool m.staker m.creator m.storageId with
  | some e => cases m.vote <;> simp
  | none =>
    by_cases ha : m.staker ∈ (c.proposal m.pool).abstain <;> cases hv : m.vote <;> simp [castVote, ha]

/-- C57: if `CanPropose` says no, submitting is rejected. -/
theorem C57_cannot_submit {m : SubmitMsg} (h : c.canProposeQuery m.pool m.staker m.creator m.fromIndex = false) :
    ∃ e, c.submit m = .error e := by
  unfold canProposeQuery at h
  unfold submit
  cases hc : c.canPropose m.pool m.staker m.creator m.fromIndex with
  | none => rw [hc] at h; cases h
  | some e => exact ⟨e, rfl⟩

/-- C57: if `CanPropose` says no, skipping is rejected. -/
theorem C57_cannot_skip {m : SkipMsg} (h : c.canProposeQuery m.pool m.staker m.creator m.fromIndex = false) :
    ∃ e, c.skip m = .error e := by
  unfold canProposeQuery at h
  unfold skip
  cases hc : c.canPropose m.pool m.staker m.creator m.fromIndex with
  | none => rw [hc] at h; cases h
  | some e => exact ⟨e, rfl⟩

/-- Specification: the bundle is well-formed for its pool. -/
structure WellFormed (c : Chain) (m : SubmitMsg) : Prop where
  storage : m.storageId ≠ 0
  some_ : 0 < m.bundleSize
  fits : ∀ p, c.pool.pools.get? m.pool = some p → m.bundleSize ≤ p.maxBundleSize
  from_ : m.fromKey ≠ 0
  to_ : m.toKey ≠ 0

theorem args_ok {m : SubmitMsg} (h : c.canPropose m.pool m.staker m.creator m.fromIndex = none)
    (hw : WellFormed c m) : c.submitArgs m = none := by
  obtain ⟨p, hr, -, -, -, hf⟩ := canPropose_none h
  unfold submitArgs
  rw [hr.found]
  simp only
  rw [if_neg hw.storage, if_neg (by simp [hf]), if_neg (by have := hw.some_; omega),
    if_neg (by have := hw.fits p hr.found; omega), if_neg (by simp [hw.from_, hw.to_])]

/-- C57: if `CanPropose` says yes and nothing is proposed, then every well-formed bundle that starts at the given index
is accepted. -/
theorem C57_can_propose_first {m : SubmitMsg} (h : c.canProposeQuery m.pool m.staker m.creator m.fromIndex = true)
    (he : (c.proposal m.pool).storageId = 0) (hw : WellFormed c m) : ∃ c', c.submit m = .ok c' := by
  have h' : c.canPropose m.pool m.staker m.creator m.fromIndex = none := by simpa [canProposeQuery] using h
  unfold submit
  simp only [h', args_ok h' hw]
  unfold submitGo
  have e : ((c.resetPoints m.pool m.staker).proposal m.pool).storageId = 0 := he
  rw [if_pos e]
  exact ⟨_, rfl⟩

/-- C57: if `CanPropose` says yes on a reachable chain, a well-formed bundle is accepted unless the votes on the pending
bundle have not decided it, or the payout of the pending bundle panics (see C22). -/
theorem C57_can_propose (hr : Reachable gov c) {m : SubmitMsg}
    (h : c.canProposeQuery m.pool m.staker m.creator m.fromIndex = true) (hw : WellFormed c m) :
    (∃ c', c.submit m = .ok c') ∨ c.submit m = .error "quorum not reached" ∨ c.submit m = .error "panic" := by
  have h' : c.canPropose m.pool m.staker m.creator m.fromIndex = none := by simpa [canProposeQuery] using h
  obtain ⟨p, hrun, -, -, -, -⟩ := canPropose_none h'
  have hg := Reachable.good hr
  unfold submit
  simp only [h', args_ok h' hw]
  unfold submitGo
  by_cases h0 : ((c.resetPoints m.pool m.staker).proposal m.pool).storageId = 0
  · rw [if_pos h0]; exact Or.inl ⟨_, rfl⟩
  · rw [if_neg h0]
    have hfit : Fit gov (c.resetPoints m.pool m.staker) := (Good.fit hg).q (.one (.reset m.pool m.staker) trivial)
    have m0 := (QSteps.one (.reset m.pool m.staker) trivial : QSteps gov c (c.resetPoints m.pool m.staker)).still
    have hpo : PropOk (c.resetPoints m.pool m.staker) m.pool ((c.resetPoints m.pool m.staker).proposal m.pool) :=
      (hg.bun.prop m.pool).mono (fun a ha => by have := m0.stakers a; exact this.trans ha) (le_refl _)
    have hnf := tally_not_failed hfit (id := m.pool) (pl := p) hrun.found hpo
    cases ht : (c.resetPoints m.pool m.staker).tally m.pool ((c.resetPoints m.pool m.staker).proposal m.pool) with
    | panicked => exact Or.inr (Or.inr rfl)
    | failed x => exact absurd ht (hnf x)
    | done y v =>
      have key : ∀ o : Out, o = .done y v →
          (∃ c', submitTallied m ((c.resetPoints m.pool m.staker).proposal m.pool) o = .ok c') ∨
          submitTallied m ((c.resetPoints m.pool m.staker).proposal m.pool) o = .error "quorum not reached" := by
        rintro o rfl
        obtain ⟨v1, v2, v3, v4, st⟩ := v
        unfold submitTallied
        cases st <;> simp
      rcases key _ rfl with h1 | h1
      · exact Or.inl h1
      · exact Or.inr (Or.inl h1)

/-- C57: the same for skipping: it is accepted unless the payout of the pending bundle panics. -/
theorem C57_can_skip (hr : Reachable gov c) {m : SkipMsg}
    (h : c.canProposeQuery m.pool m.staker m.creator m.fromIndex = true) :
    (∃ c', c.skip m = .ok c') ∨ c.skip m = .error "panic" := by
  have h' : c.canPropose m.pool m.staker m.creator m.fromIndex = none := by simpa [canProposeQuery] using h
  obtain ⟨p, hrun, -, -, -, -⟩ := canPropose_none h'
  have hg := Reachable.good hr
  unfold skip
  simp only [h']
  have hfit : Fit gov (c.resetPoints m.pool m.staker) := (Good.fit hg).q (.one (.reset m.pool m.staker) trivial)
  have m0 := (QSteps.one (.reset m.pool m.staker) trivial : QSteps gov c (c.resetPoints m.pool m.staker)).still
  have hpo : PropOk (c.resetPoints m.pool m.staker) m.pool ((c.resetPoints m.pool m.staker).proposal m.pool) :=
    (hg.bun.prop m.pool).mono (fun a ha => by have := m0.stakers a; exact this.trans ha) (le_refl _)
  have hnf := tally_not_failed hfit (id := m.pool) (pl := p) hrun.found hpo
  have e : (c.resetPoints m.pool m.staker).proposal m.pool = c.proposal m.pool := rfl
  rw [e] at hnf
  cases ht : (c.resetPoints m.pool m.staker).tally m.pool (c.proposal m.pool) with
  | panicked => exact Or.inr rfl
  | failed x => exact absurd ht (hnf x)
  | done y v => exact Or.inl ⟨_, rfl⟩

/-! ## C53: the list of active stakers -/

theorem activeStakers_iff (h : Reachable gov c) (a : Addr) : a ∈ c.activeStakers ↔ ∃ id, c.member id a = true := by
  have hm := (Reachable.good h).mods.st
  obtain ⟨h1, h2, h3, h4⟩ := Stakers.C13_active gov _ hm a
  unfold activeStakers
  rw [Map.mem_keys_iff]
  constructor
  · rintro ⟨v, hv⟩
    have h3' : c.st.active.get? a = if c.st.poolsOf a = [] then none else some (c.st.poolsOf a).length := h3
    rw [hv] at h3'
    split at h3'
    · cases h3'
    · rename_i hne
      obtain ⟨p, l, hl⟩ := List.exists_cons_of_ne_nil hne
      exact ⟨p, (h2 p).mp (by show p ∈ c.st.poolsOf a; rw [hl]; simp)⟩
  · rintro ⟨p, hp⟩
    have hp' : p ∈ c.st.poolsOf a := (h2 p).mpr hp
    have h3' : c.st.active.get? a = if c.st.poolsOf a = [] then none else some (c.st.poolsOf a).length := h3
    rw [if_neg (by intro e; rw [e] at hp'; cases hp')] at h3'
    exact ⟨_, h3'⟩

/-- The query for active stakers (x/query/keeper/grpc_query_staker.go:16-56 with
x/delegation/keeper/getters_index_stakers.go:112-127): `sorted` is the list of active stakers as `sort.Slice` leaves it
(a permutation in descending order of delegation, the order of equal ones is not specified), `hit` the search. -/
def activeStakersPage (sorted : List Addr) (hit : Addr → Bool) (k n : Nat) : Query.Answer Addr :=
  Query.arrayPaginationAccumulator sorted (Query.request k n) hit

/-- C53: reading all pages of the active stakers, whatever the page size, lists every member of some pool that matches the
search, nobody else and nobody twice, by descending delegation; every page tells the right total. -/
theorem C53_active_stakers (h : Reachable gov c) {sorted : List Addr} (hp : sorted.Perm c.activeStakers)
    (hs : sorted.Pairwise (fun a b => c.del.amount b ≤ c.del.amount a)) (hit : Addr → Bool) {n m : Nat} (hn : 0 < n)
    (hm : m * n < 2 ^ 63) (hn' : n < 2 ^ 63) (hl : c.activeStakers.length < 2 ^ 62) (hfull : c.activeStakers.length ≤ m * n) :
    ∃ (pages : List (List Addr)) (total : Nat), pages.length = m ∧
      (∀ k, k < m → ∃ p, pages[k]? = some p ∧ activeStakersPage sorted hit k n = .page p total) ∧
      total = pages.flatten.length ∧ pages.flatten.Nodup ∧
      (∀ a, a ∈ pages.flatten ↔ hit a = true ∧ ∃ id, c.member id a = true) ∧
      pages.flatten.Pairwise (fun a b => c.del.amount b ≤ c.del.amount a) := by
  obtain ⟨pages, h1, h2, h3⟩ := Query.C53_all_pages sorted hit hn hm hn' (by rw [hp.length_eq]; exact hl)
    (le_trans (List.length_filter_le _ _) (by rw [hp.length_eq]; exact hfull))
  refine ⟨pages, (sorted.filter hit).length, h1, h3, by rw [h2], ?_, ?_, ?_⟩
  · rw [h2]; exact (hp.nodup_iff.mpr (Map.keys_nodup _)).filter _
  · intro a
    rw [h2, List.mem_filter, hp.mem_iff, activeStakers_iff h, and_comm]
  · rw [h2]; exact hs.filter _

/-! ## C58: governance -/

theorem i64_small {n : Nat} (h : n < 2 ^ 63) : Delegation.i64 n = n := by unfold Delegation.i64; rw [if_pos h]

theorem amount_small (h : Reachable gov c) (a : Addr) : c.del.amount a < 2 ^ 63 :=
  lt_of_le_of_lt (amount_le_totalAll c.del a) (Reachable.good h).sane.small

/-- C58: governance sees exactly the stakers that are in some pool, each once, with its whole delegation, and the bonded
tokens are their sum. -/
theorem C58_bonded (h : Reachable gov c) :
    (c.activeValidators.map (·.1)).Nodup ∧
    (∀ a n, (a, n) ∈ c.activeValidators ↔ n = c.del.amount a ∧ ∃ id, c.member id a = true) ∧
    c.totalBonded = (c.activeValidators.map (·.2)).sum := by
  refine ⟨?_, ?_, ?_⟩
  · unfold activeValidators
    rw [List.map_map]
    have : (Prod.fst ∘ fun a => (a, Delegation.i64 (c.del.amount a))) = (id : Addr → Addr) := rfl
    rw [this, List.map_id]
    exact Map.keys_nodup _
  · intro a n
    unfold activeValidators
    rw [List.mem_map, ← activeStakers_iff h]
    constructor
    · rintro ⟨b, hb, e⟩
      injection e with e1 e2
      subst e1
      exact ⟨by rw [← e2, i64_small (amount_small h b)], hb⟩
    · rintro ⟨rfl, ha⟩
      exact ⟨a, ha, by rw [i64_small (amount_small h a)]⟩
  · unfold totalBonded activeValidators
    rw [List.map_map]; rfl

/-- the weight governance gives a delegator through a validator -/
def weight (c : Chain) (d st : Addr) : Int := (((c.govDelegations d).filter (fun p => p.1 == st)).map (·.2)).sum

theorem curDel_le (h : Reachable gov c) (st d : Addr) : Delegation.curDel (c.del.at st) d ≤ c.del.amount st :=
  (Delegation.C02_module (Reachable.good h).mods.del st).2.1 d

theorem curDel_none {s : Delegation.F1} {d : Addr} (h : s.dels.has d = false) : Delegation.curDel s d = 0 := by
  have : s.dels.get? d = none := by
    unfold Map.has at h
    cases hg : s.dels.get? d with
    | none => rfl
    | some x => rw [hg] at h; cases h
  unfold Delegation.curDel
  rw [this]

theorem dels_f1 (st d : Addr) (h : (c.del.at st).dels.has d = true) : st ∈ c.del.f1.keys := by
  rw [Map.mem_keys_iff]
  unfold Delegation.State.at at h
  cases hg : c.del.f1.get? st with
  | none => rw [hg] at h; cases h
  | some x => exact ⟨x, rfl⟩

/-- a delegator's weight through a validator is its delegation if the validator is active, and nothing otherwise -/
theorem weight_eq (h : Reachable gov c) (d st : Addr) :
    c.weight d st = if c.st.active.has st = true then ((Delegation.curDel (c.del.at st) d : Nat) : Int) else 0 := by
  have hnd : (c.stakersByDelegator d).Nodup := (Map.keys_nodup _).filter _
  unfold weight govDelegations
  rw [List.filter_map, List.map_map]
  have key : ∀ l : List Addr, l.Nodup →
      ((l.filter ((fun p : Addr × Int => p.1 == st) ∘ fun st => (st, Delegation.i64 (Delegation.curDel (c.del.at st) d)))).map
        ((fun p : Addr × Int => p.2) ∘ fun st => (st, Delegation.i64 (Delegation.curDel (c.del.at st) d)))).sum
      = if st ∈ l then Delegation.i64 (Delegation.curDel (c.del.at st) d) else 0 := by
    intro l hl
    induction l with
    | nil => simp
    | cons a l ih =>
      obtain ⟨h1, h2⟩ := List.nodup_cons.mp hl
      have ih' := ih h2
      rw [List.filter_cons]
      by_cases ha : a = st
      · subst ha
        rw [if_pos (by simp), List.map_cons, List.sum_cons, ih', if_neg h1, if_pos (by simp)]
        simp
      · rw [if_neg (by simp [ha]), ih']
        by_cases hin : st ∈ l
        · rw [if_pos hin, if_pos (List.mem_cons_of_mem _ hin)]
        · rw [if_neg hin, if_neg (by simp only [List.mem_cons, not_or]; exact ⟨fun e => ha e.symm, hin⟩)]
  have e := key _ (hnd.filter (fun a => c.st.active.has a))
  rw [e]
  have hs : Delegation.curDel (c.del.at st) d < 2 ^ 63 := lt_of_le_of_lt (curDel_le h st d) (amount_small h st)
  by_cases hact : c.st.active.has st = true
  · rw [if_pos hact]
    cases hd : (c.del.at st).dels.has d with
    | true =>
      rw [if_pos (by
        rw [List.mem_filter]
        refine ⟨?_, hact⟩
        unfold stakersByDelegator
        rw [List.mem_filter]
        exact ⟨dels_f1 st d hd, hd⟩), i64_small hs]
    | false =>
      rw [curDel_none hd]
      split
      · rfl
      · rfl
  · rw [if_neg hact, if_neg (by rw [List.mem_filter]; rintro ⟨-, h2⟩; exact hact h2)]

theorem sum_dels_le (m : Map Addr Delegation.Del) (f : Addr → Nat) (hf : ∀ d, m.has d = false → f d = 0)
    (ds : List Addr) (hd : ds.Nodup) : (ds.map f).sum ≤ m.sum (fun d _ => f d) := by
  have h1 : (ds.map f).sum ≤ ((m.keys).map f).sum := by
    have e : (ds.map f).sum = ((ds.filter (fun d => m.has d)).map f).sum := by
      induction ds with
      | nil => rfl
      | cons a l ih =>
        rw [List.filter_cons]
        cases ha : m.has a with
        | true => simp [ih (List.nodup_cons.mp hd).2]
        | false => simp [ih (List.nodup_cons.mp hd).2, hf a ha]
    rw [e]
    have hsub : (ds.filter (fun d => m.has d)).Subperm m.keys := by
      refine List.subperm_of_subset (hd.filter _) ?_
      intro a ha
      have := (List.mem_filter.mp ha).2
      rw [Map.mem_keys_iff]
      exact (Stakers.has_iff _ _).1 this
    obtain ⟨l, hl1, hl2⟩ := hsub
    have := (hl2.map f).sum_le_sum
    rw [← (hl1.map f).sum_eq]
    exact this (fun _ _ => Nat.zero_le _)
  refine le_trans h1 (le_of_eq ?_)
  unfold Map.sum Map.keys
  rw [List.map_map]; rfl

/-- C58: whatever delegators vote themselves, their weights through a validator never add up to more than that
validator's bonded tokens. -/
theorem C58_deductions (h : Reachable gov c) (st : Addr) (hst : ∃ id, c.member id st = true) (ds : List Addr)
    (hd : ds.Nodup) : (ds.map (fun d => c.weight d st)).sum ≤ (c.del.amount st : Int) := by
  have hact : c.st.active.has st = true := by
    rw [Stakers.has_iff]
    have := (activeStakers_iff h st).mpr hst
    unfold activeStakers at this
    rwa [Map.mem_keys_iff] at this
  have e : (ds.map (fun d => c.weight d st)).sum = (((ds.map (fun d => Delegation.curDel (c.del.at st) d)).sum : Nat) : Int) := by
    clear hd
    induction ds with
    | nil => rfl
    | cons a l ih => rw [List.map_cons, List.sum_cons, ih, weight_eq h, if_pos hact]; simp
  rw [e]
  have h1 := sum_dels_le (c.del.at st).dels (fun d => Delegation.curDel (c.del.at st) d) (fun d hd => curDel_none hd) ds hd
  have h2 := (Delegation.C02_module (Reachable.good h).mods.del st).1
  exact_mod_cast le_trans h1 h2

/-- C58: the weight of a delegator through a staker that is in no pool is zero. -/
theorem C58_inactive (h : Reachable gov c) (st d : Addr) (hst : ∀ id, c.member id st = false) : c.weight d st = 0 := by
  rw [weight_eq h, if_neg]
  intro hact
  rw [Stakers.has_iff] at hact
  obtain ⟨id, hid⟩ := (activeStakers_iff h st).mp (by unfold activeStakers; rw [Map.mem_keys_iff]; exact hact)
  rw [hst id] at hid; cases hid

/-! ## witnesses -/

example : Sample.ready.canValidate 0 11 = some 1 ∧ Sample.ready.canValidate 0 15 = none := by decide +kernel
example : Sample.proposed.canVoteQuery 0 2 12 7 = .possible ∧ Sample.voted.canVoteQuery 0 2 12 7 = .impossible ∧
    Sample.abstained.canVoteQuery 0 4 14 7 = .noAbstain := by decide +kernel
example : Sample.later.canProposeQuery 0 1 11 10 = true ∧ Sample.later.canProposeQuery 0 2 12 10 = false := by decide +kernel
example : Sample.ready.activeStakers = [1, 2, 3, 4] ∧ Sample.ready.totalBonded = 400 ∧ Sample.ready.weight 1 1 = 100 := by
  decide +kernel

end Chain
end Verif.Chain
