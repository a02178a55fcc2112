import Verif.Query.Pools

/-!
# C74: what the queries show of funders and fundings

The queries `Funder`, `FundingsByFunder` and `FundingsByPool`.
-/

set_option linter.dupNamespace false
namespace Verif.Chain
open Verif
namespace Chain

/-! ## model -/

/-- x/query proto `Funding` -/
structure FundingRow where
  funder : Addr
  pool : Nat
  amounts : Coins
  perBundle : Coins
  totalFunded : Coins
  score : Nat

/-- x/query/keeper/grpc_query_fundings.go:47-60 `parseFundings`, one entry; `none` is the panic of `GetScore` -/
def fundingRow (c : Chain) (f : Funders.Funding) : Option FundingRow :=
  (Funders.score c.fund.params f.amounts).map (fun s =>
    { funder := f.funder, pool := f.pool, amounts := f.amounts, perBundle := f.perBundle, totalFunded := f.totalFunded
      score := s })

/-- x/query proto `FundingStatus` -/
inductive FundingStatus where
  | unspecified | active | inactive
deriving DecidableEq, Repr

/-- grpc_query_funders.go:59-75 `filterFundingsOnStatus` (`IsAllPositive` of coins without zeros: not empty) and
x/funders/keeper/getters_funding.go:138-144 -/
def FundingStatus.accepts (s : FundingStatus) (f : Funders.Funding) : Bool :=
  match s with
  | .unspecified => true
  | .active => !f.amounts.isZero
  | .inactive => f.amounts.isZero

/-- x/query proto `FundingStats` -/
structure FunderStats where
  used : Coins
  allocated : Coins
  perBundle : Coins
  pools : List Nat
  score : Nat

/-- grpc_query_funders.go:77-109 `parseFunder`: the loop; `none` is the panic of `GetScore` -/
def funderStats (c : Chain) : List Funders.Funding → FunderStats → Option FunderStats
  | [], r => some r
  | f :: l, r =>
    match Funders.score c.fund.params f.amounts with
    | none => none
    | some s => funderStats c l
        { used := r.used.add f.totalFunded
          allocated := r.allocated.add f.amounts
          perBundle := if f.amounts.isZero then r.perBundle else r.perBundle.add f.perBundle
          pools := r.pools ++ [f.pool]
          score := u64add r.score s }

/-- grpc_query_funders.go:38-57 `Funder`; `none` is an error or a panic -/
def funderQuery (c : Chain) (a : Addr) (st : FundingStatus) : Option (FunderStats × List FundingRow) :=
  if c.fund.funders.has a then
    (c.funderStats (c.fundingsOf a) ⟨Coins.zero, Coins.zero, Coins.zero, [], 0⟩).bind (fun s =>
      (((c.fundingsOf a).filter st.accepts).mapM c.fundingRow).map (fun l => (s, l)))
  else none

/-- the store of the fundings by pool, written together with the one by funder (getters_funding.go:88-105 `SetFunding`;
neither is ever deleted from) -/
def byPool (c : Chain) : Map (Nat × Addr) Funders.Funding :=
  (c.fund.fundings.toList.map (fun e => ((e.1.2, e.1.1), e.2))).foldl (fun m e => m.set e.1 e.2) ∅

/-- grpc_query_fundings.go:12-28 `FundingsByFunder` with getters_funding.go:108-162 `GetPaginatedFundingQuery` -/
def fundingsByFunder (c : Chain) (a : Addr) (st : FundingStatus) (limit : Nat) (total : Bool) (key : Option (Addr × Nat)) :
    Option (List FundingRow × Option (Addr × Nat)) :=
  ((Query.filteredPaginate c.fund.fundings (fun e => e.2.funder == a && st.accepts e.2) limit total key).1.mapM
      (fun e => c.fundingRow e.2)).map
    (fun rows => (rows, (Query.filteredPaginate c.fund.fundings (fun e => e.2.funder == a && st.accepts e.2) limit total key).2))

/-- grpc_query_fundings.go:30-45 `FundingsByPool` with getters_funding.go:108-162 -/
def fundingsByPool (c : Chain) (id : Nat) (st : FundingStatus) (limit : Nat) (total : Bool) (key : Option (Nat × Addr)) :
    Option (List FundingRow × Option (Nat × Addr)) :=
  ((Query.filteredPaginate c.byPool (fun e => e.2.pool == id && st.accepts e.2) limit total key).1.mapM
      (fun e => c.fundingRow e.2)).map
    (fun rows => (rows, (Query.filteredPaginate c.byPool (fun e => e.2.pool == id && st.accepts e.2) limit total key).2))

/-! ## C74 -/

variable {c c' : Chain} {gov : Addr}

theorem byPool_get (c : Chain) (id : Nat) (a : Addr) : c.byPool.get? (id, a) = c.fund.fundings.get? (a, id) := by
  have key : ∀ (l : List ((Addr × Nat) × Funders.Funding)) (m : Map (Nat × Addr) Funders.Funding), (l.map (·.1)).Nodup →
      ((l.map (fun e => ((e.1.2, e.1.1), e.2))).foldl (fun m e => m.set e.1 e.2) m).get? (id, a) =
        match l.find? (fun e => decide (e.1 = (a, id))) with
        | some e => some e.2
        | none => m.get? (id, a) := by
    intro l
    induction l with
    | nil => intro m _; rfl
    | cons x l ih =>
      intro m hn
      have hn' := List.nodup_cons.mp (show (x.1 :: l.map (·.1)).Nodup from hn)
      rw [List.map_cons, List.foldl_cons, ih _ hn'.2]
      rw [List.find?_cons]
      by_cases hx : x.1 = (a, id)
      · have hd : decide (x.1 = (a, id)) = true := by simp [hx]
        rw [hd]
        have : l.find? (fun e => decide (e.1 = (a, id))) = none := by
          rw [List.find?_eq_none]
          intro e he hk
          have hk : e.1 = (a, id) := by simpa using hk
          exact hn'.1 (List.mem_map.mpr ⟨e, he, by rw [hk, hx]⟩)
        rw [this]
        simp only
        rw [hx, Map.get?_set]
        simp
      · have hd : decide (x.1 = (a, id)) = false := by simp [hx]
        rw [hd]
        simp only
        cases l.find? (fun e => decide (e.1 = (a, id))) with
        | some e => rfl
        | none =>
          simp only
          rw [Map.get?_set, if_neg]
          intro e
          injection e with e1 e2
          exact hx (Prod.ext e2.symm e1.symm)
  unfold byPool
  rw [key _ _ c.fund.fundings.keys_nodup]
  cases hf : c.fund.fundings.toList.find? (fun e => decide (e.1 = (a, id))) with
  | none =>
    cases hg : c.fund.fundings.get? (a, id) with
    | none => rfl
    | some f =>
      have := List.find?_eq_none.mp hf ((a, id), f) ((Map.mem_iff _ _ _).mpr hg)
      simp at this
  | some e =>
    have h1 := List.find?_some hf
    have h1 : e.1 = (a, id) := by simpa using h1
    have h2 := List.mem_of_find?_eq_some hf
    have h3 := (Map.mem_iff _ e.1 e.2).mp h2
    rw [← h1, h3]

theorem fundingRow_funding {f : Funders.Funding} {r : FundingRow} (h : c.fundingRow f = some r) :
    r.funder = f.funder ∧ r.pool = f.pool ∧ r.amounts = f.amounts ∧ r.perBundle = f.perBundle ∧
    r.totalFunded = f.totalFunded ∧ Funders.score c.fund.params r.amounts = some r.score := by
  unfold fundingRow at h
  obtain ⟨s, h1, rfl⟩ := Option.map_eq_some_iff.mp h
  exact ⟨rfl, rfl, rfl, rfl, rfl, h1⟩

/-- Specification: the row shows the funding of `r.funder` in `r.pool`. -/
structure Displays (c : Chain) (r : FundingRow) : Prop where
  funding : ∃ f, c.fund.fundings.get? (r.funder, r.pool) = some f ∧ r.amounts = f.amounts ∧ r.perBundle = f.perBundle ∧
    r.totalFunded = f.totalFunded
  score : Funders.score c.fund.params r.amounts = some r.score

/-- Specification: a funding counts as active if something is left. -/
def FundingStatus.Fits (s : FundingStatus) (f : Funders.Funding) : Prop :=
  match s with
  | .unspecified => True
  | .active => ∃ d, f.amounts.amt d ≠ 0
  | .inactive => ∀ d, f.amounts.amt d = 0

theorem accepts_iff (s : FundingStatus) (f : Funders.Funding) : s.accepts f = true ↔ s.Fits f := by
  cases s with
  | unspecified => simp [FundingStatus.accepts, FundingStatus.Fits]
  | active =>
    show (!f.amounts.isZero) = true ↔ _
    rw [Bool.not_eq_true']; exact Coins.isZero_false_iff
  | inactive => exact Coins.isZero_iff

theorem funding_key (h : Reachable gov c) {a : Addr} {id : Nat} {f : Funders.Funding}
    (hf : c.fund.fundings.get? (a, id) = some f) : f.funder = a ∧ f.pool = id := by
  have hi : Funders.Inv c.fw := (Reachable.good h).mods.fund.reach.inv
  have := hi.key _ _ hf
  injection this with e1 e2
  exact ⟨e1, e2⟩

/-- C74: reading all pages of the fundings of a funder shows exactly its fundings with the asked status, one per pool, by
ascending pool id. -/
theorem C74_by_funder (h : Reachable gov c) {a : Addr} {st : FundingStatus} {limit : Nat} {total : Bool}
    {ps : List (List FundingRow)} (hp : Query.Pages (c.fundingsByFunder a st limit total) none ps) :
    (ps.flatten.map (·.pool)).Pairwise (· < ·) ∧ (∀ r ∈ ps.flatten, r.funder = a ∧ Displays c r) ∧
    ∀ id, id ∈ ps.flatten.map (·.pool) ↔ ∃ f, c.fund.fundings.get? (a, id) = some f ∧ st.Fits f := by
  have hall := Query.Pages.all (m := c.fund.fundings) (acc := fun e => e.2.funder == a && st.accepts e.2)
    (f := fun e => c.fundingRow e.2) (fun k => rfl) hp
  have hids : ps.flatten.map (·.pool) = (c.fund.fundings.toList.filter (fun e => e.2.funder == a && st.accepts e.2)).map (·.1.2) := by
    rw [Query.mapM_proj (u := fun e => e.2.pool) (v := (·.pool)) (fun x b hb => (fundingRow_funding hb).2.1) hall]
    refine List.map_congr_left ?_
    rintro ⟨⟨b, id⟩, f⟩ hm
    exact (funding_key h ((Map.mem_iff _ _ _).mp (List.mem_filter.mp hm).1)).2
  refine ⟨?_, ?_, ?_⟩
  · rw [hids, List.pairwise_map]
    refine List.Pairwise.imp_of_mem ?_ (c.fund.fundings.sorted.filter (fun e => e.2.funder == a && st.accepts e.2))
    rintro ⟨⟨b, i⟩, f⟩ ⟨⟨b', j⟩, g⟩ h1 h2 hlt
    have e1 : ∀ (x : Addr) (k : Nat) (u : Funders.Funding), ((x, k), u) ∈ c.fund.fundings.toList.filter (fun e => e.2.funder == a && st.accepts e.2) → x = a := by
      intro x k u hm
      rw [List.mem_filter, Bool.and_eq_true] at hm
      have := (funding_key h ((Map.mem_iff _ _ _).mp hm.1)).1
      rw [← this]; simpa using hm.2.1
    have eb := e1 b i f h1
    have eb' := e1 b' j g h2
    subst eb; subst eb'
    have hlt : (KeyOrd.lt b' b' || (decide (b' = b') && KeyOrd.lt i j)) = true := hlt
    rw [KeyOrd.irrefl] at hlt
    simp only [decide_true, Bool.true_and, Bool.false_or] at hlt
    exact of_decide_eq_true hlt
  · intro r hr
    obtain ⟨⟨⟨b, id⟩, f⟩, hm, e⟩ := (Query.mapM_mem hall r).mp hr
    rw [List.mem_filter, Bool.and_eq_true] at hm
    have hg : c.fund.fundings.get? (b, id) = some f := (Map.mem_iff _ _ _).mp hm.1
    obtain ⟨k1, k2⟩ := funding_key h hg
    obtain ⟨r1, r2, r3, r4, r5, r6⟩ := fundingRow_funding e
    have r1 : r.funder = f.funder := r1
    have r2 : r.pool = f.pool := r2
    refine ⟨by rw [r1]; simpa using hm.2.1, ⟨f, ?_, r3, r4, r5⟩, r6⟩
    rw [r1, r2, k1, k2]; exact hg
  · intro id
    rw [hids, List.mem_map]
    constructor
    · rintro ⟨⟨⟨b, i⟩, f⟩, hm, rfl⟩
      rw [List.mem_filter, Bool.and_eq_true] at hm
      have hg : c.fund.fundings.get? (b, i) = some f := (Map.mem_iff _ _ _).mp hm.1
      have k1 := (funding_key h hg).1
      have k2 : f.funder = a := by simpa using hm.2.1
      refine ⟨f, ?_, (accepts_iff st f).mp hm.2.2⟩
      show c.fund.fundings.get? (a, i) = some f
      rw [← k2, k1]; exact hg
    · rintro ⟨f, hf, hs⟩
      refine ⟨((a, id), f), ?_, rfl⟩
      rw [List.mem_filter, Bool.and_eq_true]
      exact ⟨(Map.mem_iff _ _ _).mpr hf, by simpa using (funding_key h hf).1, (accepts_iff st f).mpr hs⟩

/-- C74: reading all pages of the fundings of a pool shows exactly its fundings with the asked status, one per funder. -/
theorem C74_by_pool (h : Reachable gov c) {id : Nat} {st : FundingStatus} {limit : Nat} {total : Bool}
    {ps : List (List FundingRow)} (hp : Query.Pages (c.fundingsByPool id st limit total) none ps) :
    (ps.flatten.map (·.funder)).Nodup ∧ (∀ r ∈ ps.flatten, r.pool = id ∧ Displays c r) ∧
    ∀ a, a ∈ ps.flatten.map (·.funder) ↔ ∃ f, c.fund.fundings.get? (a, id) = some f ∧ st.Fits f := by
  have hall := Query.Pages.all (m := c.byPool) (acc := fun e => e.2.pool == id && st.accepts e.2)
    (f := fun e => c.fundingRow e.2) (fun k => rfl) hp
  have hget : ∀ (i : Nat) (a : Addr) (f : Funders.Funding), ((i, a), f) ∈ c.byPool.toList →
      c.fund.fundings.get? (a, i) = some f := by
    intro i a f hm
    rw [← byPool_get]; exact (Map.mem_iff _ _ _).mp hm
  have hids : ps.flatten.map (·.funder) = (c.byPool.toList.filter (fun e => e.2.pool == id && st.accepts e.2)).map (·.1.2) := by
    rw [Query.mapM_proj (u := fun e => e.2.funder) (v := (·.funder)) (fun x b hb => (fundingRow_funding hb).1) hall]
    refine List.map_congr_left ?_
    rintro ⟨⟨i, b⟩, f⟩ hm
    exact (funding_key h (hget i b f (List.mem_filter.mp hm).1)).1
  refine ⟨?_, ?_, ?_⟩
  · rw [hids]
    have hn : (c.byPool.toList.filter (fun e => e.2.pool == id && st.accepts e.2)).Nodup := by
      have hk : (c.byPool.toList.map Prod.fst).Nodup := c.byPool.keys_nodup
      exact (List.Nodup.of_map _ hk).filter _
    rw [List.nodup_map_iff_inj_on hn]
    rintro ⟨⟨i, b⟩, f⟩ h1 ⟨⟨j, b'⟩, g⟩ h2 e
    have e : b = b' := e
    subst e
    rw [List.mem_filter, Bool.and_eq_true] at h1 h2
    have g1 := hget i b f h1.1
    have g2 := hget j b g h2.1
    have i1 : i = id := by rw [← (funding_key h g1).2]; simpa using h1.2.1
    have j1 : j = id := by rw [← (funding_key h g2).2]; simpa using h2.2.1
    subst i1; subst j1
    rw [g1] at g2; cases g2; rfl
  · intro r hr
    obtain ⟨⟨⟨i, b⟩, f⟩, hm, e⟩ := (Query.mapM_mem hall r).mp hr
    rw [List.mem_filter, Bool.and_eq_true] at hm
    have hg := hget i b f hm.1
    obtain ⟨k1, k2⟩ := funding_key h hg
    obtain ⟨r1, r2, r3, r4, r5, r6⟩ := fundingRow_funding e
    have r1 : r.funder = f.funder := r1
    have r2 : r.pool = f.pool := r2
    refine ⟨by rw [r2]; simpa using hm.2.1, ⟨f, ?_, r3, r4, r5⟩, r6⟩
    rw [r1, r2, k1, k2]; exact hg
  · intro a
    rw [hids, List.mem_map]
    constructor
    · rintro ⟨⟨⟨i, b⟩, f⟩, hm, rfl⟩
      rw [List.mem_filter, Bool.and_eq_true] at hm
      have hg := hget i b f hm.1
      have k1 := (funding_key h hg).2
      have k2 : f.pool = id := by simpa using hm.2.1
      refine ⟨f, ?_, (accepts_iff st f).mp hm.2.2⟩
      show c.fund.fundings.get? (b, id) = some f
      rw [← k2, k1]; exact hg
    · rintro ⟨f, hf, hs⟩
      refine ⟨((id, a), f), ?_, rfl⟩
      rw [List.mem_filter, Bool.and_eq_true]
      refine ⟨(Map.mem_iff _ _ _).mpr ?_, by simpa using (funding_key h hf).2, (accepts_iff st f).mpr hs⟩
      rw [byPool_get]; exact hf

theorem stats_spec (l : List Funders.Funding) (r r' : FunderStats) (h : c.funderStats l r = some r') :
    (∀ d, r'.used.amt d = r.used.amt d + (l.map (fun f => f.totalFunded.amt d)).sum) ∧
    (∀ d, r'.allocated.amt d = r.allocated.amt d + (l.map (fun f => f.amounts.amt d)).sum) ∧
    (∀ d, r'.perBundle.amt d = r.perBundle.amt d + ((l.filter (fun f => !f.amounts.isZero)).map (fun f => f.perBundle.amt d)).sum) ∧
    r'.pools = r.pools ++ l.map (·.pool) ∧
    ∃ ss, l.mapM (fun f => Funders.score c.fund.params f.amounts) = some ss ∧
      (r.score < twoPow64 → r'.score = (r.score + ss.sum) % twoPow64) := by
  induction l generalizing r with
  | nil =>
    unfold funderStats at h
    cases h
    refine ⟨by simp, by simp, by simp, by simp, [], rfl, fun hs => ?_⟩
    simp [Nat.mod_eq_of_lt hs]
  | cons f l ih =>
    unfold funderStats at h
    cases hs : Funders.score c.fund.params f.amounts with
    | none => rw [hs] at h; cases h
    | some s =>
      rw [hs] at h
      obtain ⟨h1, h2, h3, h4, ss, h5, h6⟩ := ih _ h
      refine ⟨fun d => ?_, fun d => ?_, fun d => ?_, ?_, s :: ss, ?_, fun hr => ?_⟩
      · rw [h1, Coins.amt_add, List.map_cons, List.sum_cons, Nat.add_assoc]
      · rw [h2, Coins.amt_add, List.map_cons, List.sum_cons, Nat.add_assoc]
      · rw [h3]
        cases hz : f.amounts.isZero with
        | true => rw [List.filter_cons_of_neg (by simp [hz])]; rfl
        | false =>
          rw [List.filter_cons_of_pos (by simp [hz]), List.map_cons, List.sum_cons]
          show (r.perBundle.add f.perBundle).amt d + _ = _
          rw [Coins.amt_add, Nat.add_assoc]
      · rw [h4]; simp
      · rw [List.mapM_cons, hs, h5]; rfl
      · have hlt : u64add r.score s < twoPow64 := Nat.mod_lt _ (by decide)
        rw [h6 hlt]
        show (u64add r.score s + ss.sum) % twoPow64 = _
        unfold u64add
        rw [List.sum_cons, Nat.mod_add_mod, Nat.add_assoc]

/-- C74: the funds shown of a funder are sums over its fundings: what was charged, what is left (all of which it can get
back, C36), what it pays per bundle in the pools in which something is left, and every pool it ever funded, each once; the
fundings are those with the asked status. -/
theorem C74_funder (h : Reachable gov c) (a : Addr) (st : FundingStatus) {s : FunderStats} {l : List FundingRow}
    (hq : c.funderQuery a st = some (s, l)) :
    (∀ d, s.used.amt d = ((c.fundingsOf a).map (fun f => f.totalFunded.amt d)).sum) ∧
    (∀ d, s.allocated.amt d = ((c.fundingsOf a).map (fun f => f.amounts.amt d)).sum) ∧
    (∀ d, s.perBundle.amt d = (((c.fundingsOf a).filter (fun f => !f.amounts.isZero)).map (fun f => f.perBundle.amt d)).sum) ∧
    (∀ id, id ∈ s.pools ↔ c.fund.fundings.has (a, id) = true) ∧ s.pools.Nodup ∧
    (∃ ss, (c.fundingsOf a).mapM (fun f => Funders.score c.fund.params f.amounts) = some ss ∧ s.score = sum64 ss) ∧
    (l.map (·.pool)).Nodup ∧ (∀ r ∈ l, r.funder = a ∧ Displays c r) ∧
    ∀ id, id ∈ l.map (·.pool) ↔ ∃ f, c.fund.fundings.get? (a, id) = some f ∧ st.Fits f := by
  unfold funderQuery at hq
  split at hq
  case isFalse => cases hq
  case isTrue hf =>
  obtain ⟨s', h1, h2⟩ := Option.bind_eq_some_iff.mp hq
  obtain ⟨l', h3, h4⟩ := Option.map_eq_some_iff.mp h2
  injection h4 with e1 e2
  subst e1; subst e2
  obtain ⟨k1, k2, k3, k4, ss, k5, k6⟩ := stats_spec _ _ _ h1
  have hnd : ((c.fundingsOf a).map (·.pool)).Nodup := by
    have e : (c.fundingsOf a).map (·.pool) = (c.fund.fundings.keys.filter (fun k => k.1 == a)).map (·.2) := by
      unfold fundingsOf Map.keys
      rw [List.filter_map, List.map_map, List.map_map]
      refine List.map_congr_left ?_
      rintro ⟨⟨b, q⟩, g⟩ hm
      exact (funding_key h ((Map.mem_iff _ _ _).mp (List.mem_filter.mp hm).1)).2
    rw [e, List.nodup_map_iff_inj_on (c.fund.fundings.keys_nodup.filter _)]
    rintro ⟨x, i⟩ h1 ⟨y, j⟩ h2 e
    have e1 : x = a := by simpa using (List.mem_filter.mp h1).2
    have e2 : y = a := by simpa using (List.mem_filter.mp h2).2
    rw [e1, e2, show i = j from e]
  have hpool : ∀ id, id ∈ (c.fundingsOf a).map (·.pool) ↔ c.fund.fundings.has (a, id) = true := by
    intro id
    rw [Stakers.has_iff, List.mem_map]
    constructor
    · rintro ⟨f, hf, rfl⟩; exact ⟨f, (fundingsOf_left h a f.pool f).mp ⟨hf, rfl⟩⟩
    · rintro ⟨f, hf⟩
      obtain ⟨m1, m2⟩ := (fundingsOf_left h a id f).mpr hf
      exact ⟨f, m1, m2⟩
  have e4 : s'.pools = (c.fundingsOf a).map (·.pool) := by rw [k4]; rfl
  have hl : l'.map (·.pool) = ((c.fundingsOf a).filter st.accepts).map (·.pool) :=
    Query.mapM_proj (u := fun f => f.pool) (v := (·.pool)) (fun x b hb => (fundingRow_funding hb).2.1) h3
  refine ⟨fun d => ?_, fun d => ?_, fun d => ?_, fun id => ?_, ?_, ⟨ss, k5, ?_⟩, ?_, ?_, ?_⟩
  · rw [k1]; show 0 + _ = _; rw [Nat.zero_add]
  · rw [k2]; show 0 + _ = _; rw [Nat.zero_add]
  · rw [k3]; show 0 + _ = _; rw [Nat.zero_add]
  · rw [e4]; exact hpool id
  · rw [e4]; exact hnd
  · rw [k6 (by decide)]; show (0 + _) % _ = _; rw [Nat.zero_add]; rfl
  · rw [hl]
    exact hnd.sublist (List.filter_sublist.map _)
  · intro r hr
    obtain ⟨f, hm, e⟩ := (Query.mapM_mem h3 r).mp hr
    have hf' := (fundingsOf_left h a f.pool f).mp ⟨(List.mem_filter.mp hm).1, rfl⟩
    obtain ⟨m1, m2⟩ := funding_key h hf'
    obtain ⟨r1, r2, r3, r4, r5, r6⟩ := fundingRow_funding e
    exact ⟨by rw [r1, m1], ⟨f, by rw [r1, r2, m1]; exact hf', r3, r4, r5⟩, r6⟩
  · intro id
    rw [hl, List.mem_map]
    constructor
    · rintro ⟨f, hm, rfl⟩
      rw [List.mem_filter] at hm
      exact ⟨f, (fundingsOf_left h a f.pool f).mp ⟨hm.1, rfl⟩, (accepts_iff st f).mp hm.2⟩
    · rintro ⟨f, hf, hs⟩
      obtain ⟨m1, m2⟩ := (fundingsOf_left h a id f).mpr hf
      exact ⟨f, List.mem_filter.mpr ⟨m1, (accepts_iff st f).mpr hs⟩, m2⟩

/-! ## witnesses -/

example : (Sample.ready.funderQuery 50 .active).map (fun r => (r.1.allocated.amt kyve, r.1.pools, r.2.map (·.pool))) =
    some (2000000000, [0], [0]) := by decide +kernel
example : (Sample.ready.fundingsByPool 0 .unspecified 10 true none).map (fun r => (r.1.map (·.funder), r.2)) =
    some ([50], none) := by decide +kernel
example : (Sample.ready.fundingsByFunder 50 .inactive 10 true none).map (fun r => (r.1.map (·.pool), r.2)) =
    some ([], none) := by decide +kernel

end Chain
end Verif.Chain
