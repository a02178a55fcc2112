import Verif.Upgrade.Properties

/-!
# The hypotheses of C78 are met

Every state of the chain that knows the native coin only and has whole weights is the new form of an old state.
-/

set_option linter.dupNamespace false

namespace Verif.Upgrade
open Verif
open Verif.Pool (Str)
open Verif.Chain (Chain Reachable Sane)

/-- a map with changed values -/
def build {K V W : Type} [DecidableEq K] [KeyOrd K] (m : Map K W) (g : W → V) : Map K V :=
  m.toList.foldl (fun r e => r.set e.1 (g e.2)) ∅

theorem get?_build {K V W : Type} [DecidableEq K] [KeyOrd K] (m : Map K W) (g : W → V) (k : K) :
    (build m g).get? k = (m.get? k).map g := by
  unfold build
  rw [get?_foldl_set (fun e => g e.2) m.toList m.keys_nodup]
  have e : getL k m.toList = m.get? k := rfl
  rw [e]
  cases m.get? k <;> rfl

/-- the native part of a funding -/
def oldFunding (f : Funders.Funding) : OldFunding :=
  ⟨f.funder, f.pool, f.amounts.amt kyve, f.perBundle.amt kyve, f.totalFunded.amt kyve⟩

/-- the native part of delegation data -/
def oldData (d : Delegation.Data) : OldData := ⟨d.cur.amt kyve, d.total, d.latest, d.count, d.undel⟩

/-- the native part of an F1 store -/
def oldF1 (f : Delegation.F1) : OldF1 :=
  ⟨f.data.map oldData, f.dels, build f.entries (fun c => c.amt kyve), f.slashes, f.halted, f.wrapped⟩

/-- the native part of a staker -/
def oldStaker (s : Stakers.Staker) : OldStaker := ⟨s.commission, s.rewards.amt kyve, s.info⟩

/-- a pool in the old format -/
def oldPool (p : Pool.Pool) : OldPool := ⟨Dec.trunc p.inflationShareWeight, p⟩

/-- a chain in the old format -/
def oldOf (c : Chain) : Old where
  rest := c
  fundings := build c.fund.fundings oldFunding
  minAmount := ((c.fund.params.entry? kyve).map (·.minAmount)).getD 0
  minPerBundle := ((c.fund.params.entry? kyve).map (·.minPerBundle)).getD 0
  minMultiple := c.fund.params.minMultiple
  f1 := build c.del.f1 oldF1
  stakers := build c.st.stakers oldStaker
  uploadTimeout := c.bun.params.uploadTimeout
  networkFee := c.bun.params.networkFee
  maxPoints := c.bun.params.maxPoints
  inflationShare := c.pool.params.protocolInflationShare
  payoutRate := c.pool.params.poolInflationPayoutRate
  pools := build c.pool.pools oldPool

/-- nothing but the native coin -/
def pure (c : Coins) : Bool := decide (c = Coins.single kyve (c.amt kyve))

/-- the chain knows the native coin only and has whole weights -/
def plain (c : Chain) : Bool :=
  c.fund.fundings.toList.all (fun e => pure e.2.amounts && pure e.2.perBundle && pure e.2.totalFunded) &&
  c.del.f1.toList.all (fun e => (e.2.data.map (fun d => pure d.cur)).getD true && e.2.entries.toList.all (fun x => pure x.2)) &&
  c.st.stakers.toList.all (fun e => pure e.2.rewards) &&
  c.pool.pools.toList.all (fun e => e.2.inflationShareWeight == Dec.ofNat (Dec.trunc e.2.inflationShareWeight))

theorem pure_eq {c : Coins} (h : pure c = true) : Coins.single kyve (c.amt kyve) = c := by
  unfold pure at h
  rw [decide_eq_true_eq] at h
  exact h.symm

theorem oldF1_native {f : Delegation.F1} (h1 : (f.data.map (fun d => pure d.cur)).getD true = true)
    (h2 : f.entries.toList.all (fun x => pure x.2) = true) : F1Native (oldF1 f) f := by
  refine ⟨?_, rfl, ?_, rfl, rfl, rfl⟩
  · show f.data = (f.data.map oldData).map _
    cases hd : f.data with
    | none => rfl
    | some d =>
      rw [hd] at h1
      have e := pure_eq h1
      show some d = some (Delegation.Data.mk (Coins.single kyve (d.cur.amt kyve)) d.total d.latest d.count d.undel)
      rw [e]
  · intro i
    show f.entries.get? i = ((build f.entries (fun c => c.amt kyve)).get? i).map (Coins.single kyve)
    rw [get?_build, Option.map_map]
    cases hx : f.entries.get? i with
    | none => rfl
    | some x =>
      have := List.all_eq_true.mp h2 (i, x) ((Map.mem_iff _ _ _).mpr hx)
      show some x = some (Coins.single kyve (x.amt kyve))
      rw [pure_eq this]

theorem oldOf_native {c : Chain} (h : plain c = true) : Native (oldOf c) c := by
  unfold plain at h
  rw [Bool.and_eq_true, Bool.and_eq_true, Bool.and_eq_true] at h
  obtain ⟨⟨⟨h1, h2⟩, h3⟩, h4⟩ := h
  refine ⟨rfl, rfl, rfl, rfl, ?_, rfl, rfl, rfl, ?_, rfl, ?_, rfl, ?_, rfl, rfl, rfl, rfl, rfl, rfl⟩
  · intro id
    show _ = ((build c.pool.pools oldPool).get? id).map _
    rw [get?_build, Option.map_map]
    cases hx : c.pool.pools.get? id with
    | none => rfl
    | some p =>
      have e := List.all_eq_true.mp h4 (id, p) ((Map.mem_iff _ _ _).mpr hx)
      have e' : p.inflationShareWeight = Dec.ofNat (Dec.trunc p.inflationShareWeight) := by simpa using e
      show some p = some { p with inflationShareWeight := Dec.ofNat (Dec.trunc p.inflationShareWeight) }
      rw [← e']
  · intro a
    show _ = ((build c.st.stakers oldStaker).get? a).map _
    rw [get?_build, Option.map_map]
    cases hx : c.st.stakers.get? a with
    | none => rfl
    | some s =>
      have e := List.all_eq_true.mp h3 (a, s) ((Map.mem_iff _ _ _).mpr hx)
      show some s = some ⟨s.commission, Coins.single kyve (s.rewards.amt kyve), s.info⟩
      rw [pure_eq e]
  · intro a
    show Option.Rel F1Native ((build c.del.f1 oldF1).get? a) _
    rw [get?_build]
    cases hx : c.del.f1.get? a with
    | none => exact .none
    | some f =>
      have e := List.all_eq_true.mp h2 (a, f) ((Map.mem_iff _ _ _).mpr hx)
      rw [Bool.and_eq_true] at e
      exact .some (oldF1_native e.1 e.2)
  · intro i
    show _ = ((build c.fund.fundings oldFunding).get? i).map _
    rw [get?_build, Option.map_map]
    cases hx : c.fund.fundings.get? i with
    | none => rfl
    | some f =>
      have e := List.all_eq_true.mp h1 (i, f) ((Map.mem_iff _ _ _).mpr hx)
      rw [Bool.and_eq_true, Bool.and_eq_true] at e
      show some f = some ⟨f.funder, f.pool, Coins.single kyve (f.amounts.amt kyve), Coins.single kyve (f.perBundle.amt kyve),
        Coins.single kyve (f.totalFunded.amt kyve)⟩
      rw [pure_eq e.1.1, pure_eq e.1.2, pure_eq e.2]

theorem oldOf_keyed {gov : Addr} {c : Chain} (h : Reachable gov c) : Keyed (oldOf c) := by
  have hg := Verif.Chain.Reachable.good h
  refine ⟨?_, ?_⟩
  · intro i f hf
    have hf' : (build c.fund.fundings oldFunding).get? i = some f := hf
    rw [get?_build] at hf'
    obtain ⟨g, hq, rfl⟩ := Option.map_eq_some_iff.mp hf'
    have hi : Funders.Inv c.fw := hg.mods.fund.reach.inv
    exact (hi.key i g hq).symm
  · intro id p hp
    have hp' : (build c.pool.pools oldPool).get? id = some p := hp
    rw [get?_build] at hp'
    obtain ⟨q, hq, rfl⟩ := Option.map_eq_some_iff.mp hp'
    exact hg.mods.pool.inv.key id q hq

/-- the literals, with the runtime of the sample pool among them -/
def lits (runtime : Str) : Literals := ⟨1, 2, 120, [(runtime, 61), (runtime + 1, 62), (runtime + 2, 63)]⟩

/-- the sample chain after its first bundle -/
def sampleOld : Old := oldOf Chain.Sample.second

/-- an upgrade of a chain with a funded pool, stakers, rewards and bundles -/
example : plain Chain.Sample.second = true := by decide +kernel
example : Native sampleOld Chain.Sample.second := oldOf_native (by decide +kernel)
example : Keyed sampleOld := oldOf_keyed Chain.Sample.reach_second
example : ((migrate (lits 1) sampleOld).map (fun c => ((c.pool.pools.get? 0).map (fun p => (p.inflationShareWeight, p.plan)),
    (c.fund.fundings.get? (50, 0)).map (fun f => (f.amounts.amt kyve, f.perBundle.amt kyve)),
    (c.st.stakers.get? 1).map (fun s => s.rewards.amt kyve)))) =
    some (some (Dec.one, ⟨120, 61, 120, 600⟩), some (1999000000, 1000000), some 99000) := by decide +kernel
example : ∃ c, migrate (lits 1) sampleOld = some c ∧ Reachable Chain.Sample.gov c := by
  have h : (migrate (lits 1) sampleOld).isSome = true := by decide +kernel
  obtain ⟨c, hc⟩ := Option.isSome_iff_exists.mp h
  exact ⟨c, hc, C78_reachable _ _ (by decide) (by decide) (oldOf_keyed Chain.Sample.reach_second)
    (oldOf_native (by decide +kernel)) (by decide +kernel) Chain.Sample.reach_second hc⟩

end Verif.Upgrade
