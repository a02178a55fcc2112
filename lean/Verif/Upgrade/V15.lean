import Verif.Chain.Invariant
import Verif.Chain.SampleReach

/-!
# The v1.5 upgrade: app/upgrades/v1_5

The store migration of the upgrade handler.  The old stores hold amounts of the native coin as `uint64`, the new ones
coin lists.  Old stores are the maps below; the parts of the state the migration does not touch are taken from a chain.
Not modelled: events, the migrations of the other cosmos modules (`mm.RunMigrations`), `x/gov` parameters; a pool
without protocol or upgrade plan.
-/

set_option linter.dupNamespace false

namespace Verif.Upgrade
open Verif
open Verif.Pool (Str)

/-- v1_4_types/funders/funders.pb.go `Funding` -/
structure OldFunding where
  funder : Addr
  pool : Nat
  amount : Nat
  perBundle : Nat
  totalFunded : Nat

/-- v1_4_types/delegation/delegation.pb.go `DelegationData` -/
structure OldData where
  rewards : Nat
  total : Nat
  latest : Nat
  count : Nat
  undel : Bool

/-- what the store of x/delegation holds for a staker; only `DelegationData` and the value of `DelegationEntry` have a
new format -/
structure OldF1 where
  data : Option OldData
  dels : Map Addr Delegation.Del
  entries : Map Nat Dec
  slashes : Map Nat Dec
  halted : Bool
  wrapped : Bool

/-- v1_4_types/stakers/stakers.pb.go `Staker` -/
structure OldStaker where
  commission : Dec
  rewards : Nat
  info : Nat

/-- v1_4_types/pool/pool.pb.go `Pool`: the weight is a `uint64`, everything else is as in the new format; `shape` is
a pool with these values (its weight is not read) -/
structure OldPool where
  weight : Nat
  shape : Pool.Pool

/-- the state before the upgrade.  `rest` holds the stores the migration leaves alone: of `rest` neither the pools, the
parameters of x/pool, x/funders and x/bundles, the fundings, the stakers nor the F1 stores are read. -/
structure Old where
  rest : Chain.Chain
  fundings : Map (Addr × Nat) OldFunding
  minAmount : Nat
  minPerBundle : Nat
  minMultiple : Nat
  f1 : Map Addr OldF1
  stakers : Map Addr OldStaker
  uploadTimeout : Nat
  networkFee : Dec
  maxPoints : Nat
  inflationShare : Dec
  payoutRate : Dec
  pools : Map Nat OldPool

/-- the literals of the handler (the strings are opaque) -/
structure Literals where
  /-- upgrade.go:223 -/
  andromeda : Denom
  /-- upgrade.go:231 -/
  source : Denom
  /-- upgrade.go:419, 426, 433 -/
  version : Str
  /-- upgrade.go:416-438 runtime and binaries of each upgrade -/
  upgrades : List (Str × Str)

/-- `sdk.NewCoins(sdk.NewInt64Coin(globalTypes.Denom, int64(x)))`: an amount of `2^63` or more is negative as `int64`,
and `NewInt64Coin` panics; a zero coin is dropped -/
def coin? (x : Nat) : Option Coins := if x < 2 ^ 63 then some (Coins.single kyve x) else none

/-- `for e := range list { keeper.Set(key, value) }` with a body that may panic, over a store with the old format; the
new records are written under the keys of the new records -/
def rewrite {K W K' V : Type} [DecidableEq K] [KeyOrd K] [DecidableEq K'] [KeyOrd K'] (l : List (K × W))
    (f : K × W → Option (K' × V)) : Option (Map K' V) :=
  l.foldlM (fun m e => (f e).map (fun r => m.set r.1 r.2)) ∅

/-- upgrade.go:251-259 one funding -/
def migrateFunding (f : OldFunding) : Option Funders.Funding := do
  let a ← coin? f.amount
  let p ← coin? f.perBundle
  let t ← coin? f.totalFunded
  pure ⟨f.funder, f.pool, a, p, t⟩

/-- upgrade.go:209-239 the new parameters of x/funders -/
def fundersParams (k : Literals) (o : Old) : Funders.Params :=
  ⟨[⟨kyve, 6, o.minAmount, o.minPerBundle, 35800000000000000⟩,
    ⟨k.andromeda, 6, 1000000000, 100000, 100700000000000000⟩,
    ⟨k.source, 6, 1000000000, 100000, 20700000000000000⟩], o.minMultiple⟩

/-- upgrade.go:266-273 the delegation entries of a staker -/
def migrateEntries (m : Map Nat Dec) : Map Nat DecCoins :=
  m.toList.foldl (fun r e => r.set e.1 (Coins.single kyve e.2)) ∅

/-- upgrade.go:276-286 the delegation data of a staker -/
def migrateData (d : OldData) : Option Delegation.Data :=
  (coin? d.rewards).map (fun c => ⟨c, d.total, d.latest, d.count, d.undel⟩)

/-- upgrade.go:264-289 `migrateDelegationModule` for one staker -/
def migrateF1 (f : OldF1) : Option Delegation.F1 :=
  match f.data with
  | none => some ⟨none, f.dels, migrateEntries f.entries, f.slashes, f.halted, f.wrapped⟩
  | some d => (migrateData d).map (fun d => ⟨some d, f.dels, migrateEntries f.entries, f.slashes, f.halted, f.wrapped⟩)

/-- upgrade.go:294-305 one staker -/
def migrateStaker (s : OldStaker) : Option Stakers.Staker :=
  (coin? s.rewards).map (fun c => ⟨s.commission, c, s.info⟩)

/-- upgrade.go:313-325 the new parameters of x/bundles -/
def bundlesParams (o : Old) : Bundles.Params :=
  ⟨o.uploadTimeout, [(1, 4194000000), (2, 6288000000), (3, 0)], o.networkFee, o.maxPoints⟩

/-- upgrade.go:341-345 the new parameters of x/pool -/
def poolParams (o : Old) : Pool.Params := ⟨o.inflationShare, o.payoutRate, 500000000000000000⟩

/-- upgrade.go:348-393 one pool -/
def migratePool (p : OldPool) : Pool.Pool := { p.shape with inflationShareWeight := Dec.one }

/-- upgrade.go:440-463 the loop over the pools for one runtime; `SetPool` of an unchanged pool changes nothing -/
def upgradeRuntime (k : Literals) (now : Nat) (u : Str × Str) (s : Pool.State) : Pool.State :=
  s.forEach (fun p =>
    if p.runtime ≠ u.1 then p
    else if p.plan.scheduledAt ≠ 0 then p
    else { p with plan := ⟨k.version, u.2, now, 600⟩ })

/-- upgrade.go:61-109 `CreateUpgradeHandler`: the state after the upgrade, `none` if the handler panics -/
def migrate (k : Literals) (o : Old) : Option Chain.Chain := do
  let fundings ← rewrite o.fundings.toList (fun e => (migrateFunding e.2).map (fun f => ((f.funder, f.pool), f)))
  let f1 ← rewrite o.f1.toList (fun e => (migrateF1 e.2).map (fun f => (e.1, f)))
  let stakers ← rewrite o.stakers.toList (fun e => (migrateStaker e.2).map (fun s => (e.1, s)))
  let pools ← rewrite o.pools.toList (fun e => some ((migratePool e.2).id, migratePool e.2))
  pure { o.rest with
    fund := { o.rest.fund with fundings := fundings, params := fundersParams k o }
    del := { o.rest.del with f1 := f1 }
    st := { o.rest.st with stakers := stakers }
    bun := { o.rest.bun with params := bundlesParams o }
    pool := k.upgrades.foldl (fun s u => upgradeRuntime k o.rest.now u s)
      ⟨pools, o.rest.pool.count, poolParams o⟩ }

/-! ## what the migration should do -/

/-- an old funding read with its amounts in the native coin -/
def OldFunding.native (f : OldFunding) : Funders.Funding :=
  ⟨f.funder, f.pool, Coins.single kyve f.amount, Coins.single kyve f.perBundle, Coins.single kyve f.totalFunded⟩

/-- an old staker read with its rewards in the native coin -/
def OldStaker.native (s : OldStaker) : Stakers.Staker := ⟨s.commission, Coins.single kyve s.rewards, s.info⟩

/-- an old pool read with a decimal weight -/
def OldPool.native (p : OldPool) : Pool.Pool := { p.shape with inflationShareWeight := Dec.ofNat p.weight }

/-- `g` is the F1 store `f` with all rewards in the native coin -/
structure F1Native (f : OldF1) (g : Delegation.F1) : Prop where
  data : g.data = f.data.map (fun d => ⟨Coins.single kyve d.rewards, d.total, d.latest, d.count, d.undel⟩)
  dels : g.dels = f.dels
  entries : ∀ i, g.entries.get? i = (f.entries.get? i).map (Coins.single kyve)
  slashes : g.slashes = f.slashes
  halted : g.halted = f.halted
  wrapped : g.wrapped = f.wrapped

/-- `c` is the old state with all amounts in the native coin, in the new format.  What only exists in the new format is
open: the whitelist, the storage costs and the maximal voting power. -/
structure Native (o : Old) (c : Chain.Chain) : Prop where
  bank : c.b = o.rest.b
  now : c.now = o.rest.now
  halted : c.halted = o.rest.halted
  crashed : c.crashed = o.rest.crashed
  pools : ∀ id, c.pool.pools.get? id = (o.pools.get? id).map OldPool.native
  count : c.pool.count = o.rest.pool.count
  inflationShare : c.pool.params.protocolInflationShare = o.inflationShare
  payoutRate : c.pool.params.poolInflationPayoutRate = o.payoutRate
  stakers : ∀ a, c.st.stakers.get? a = (o.stakers.get? a).map OldStaker.native
  st : c.st = { o.rest.st with stakers := c.st.stakers }
  f1 : ∀ a, Option.Rel F1Native (o.f1.get? a) (c.del.f1.get? a)
  del : c.del = { o.rest.del with f1 := c.del.f1 }
  fundings : ∀ i, c.fund.fundings.get? i = (o.fundings.get? i).map OldFunding.native
  minMultiple : c.fund.params.minMultiple = o.minMultiple
  fund : c.fund = { o.rest.fund with fundings := c.fund.fundings, params := c.fund.params }
  uploadTimeout : c.bun.params.uploadTimeout = o.uploadTimeout
  networkFee : c.bun.params.networkFee = o.networkFee
  maxPoints : c.bun.params.maxPoints = o.maxPoints
  bun : c.bun = { o.rest.bun with params := c.bun.params }

/-- every record is stored under its own key -/
structure Keyed (o : Old) : Prop where
  funding : ∀ i f, o.fundings.get? i = some f → i = (f.funder, f.pool)
  pool : ∀ id p, o.pools.get? id = some p → p.shape.id = id

/-- all amounts are below `2^63` (there are `10^15` ukyve) -/
structure Small (o : Old) : Prop where
  funding : ∀ i f, o.fundings.get? i = some f → f.amount < 2 ^ 63 ∧ f.perBundle < 2 ^ 63 ∧ f.totalFunded < 2 ^ 63
  data : ∀ a f d, o.f1.get? a = some f → f.data = some d → d.rewards < 2 ^ 63
  staker : ∀ a s, o.stakers.get? a = some s → s.rewards < 2 ^ 63

/-- the governance messages the migration stands for -/
def messages (gov : Addr) (k : Literals) (o : Old) : List Chain.Chain.Op :=
  [.fundersParams gov
      { whitelist := some ((fundersParams k o).whitelist.map
          (fun e => ⟨some e.denom, some e.decimals, some e.minAmount, some e.minPerBundle, some e.weight⟩)) },
   .bundlesParams gov { storageCosts := some ((bundlesParams o).storageCosts.map (fun e => (some e.1, e.2))) },
   .poolParams gov { maxVotingPowerPerPool := some 500000000000000000 }] ++
  o.pools.keys.map (fun id => .updatePool gov id { inflationShareWeight := some Dec.one }) ++
  k.upgrades.map (fun u => .scheduleUpgrade ⟨gov, u.1, k.version, u.2, o.rest.now, 600⟩)

/-! ## C78 -/

section loops
variable {K W V : Type} [DecidableEq K] [KeyOrd K]

theorem foldlM_none {α β : Type} (g : β → α → Option β) (l : List α) (h : ∃ e ∈ l, ∀ m, g m e = none) :
    ∀ m, l.foldlM g m = none := by
  induction l with
  | nil => obtain ⟨e, he, -⟩ := h; cases he
  | cons a t ih =>
    intro m
    rw [List.foldlM_cons]
    obtain ⟨e, he, h0⟩ := h
    cases List.mem_cons.mp he with
    | inl h1 => rw [h1] at h0; rw [h0]; rfl
    | inr h1 =>
      cases g m a with
      | none => rfl
      | some x => exact ih ⟨e, h1, h0⟩ x

theorem rewrite_none {K' : Type} [DecidableEq K'] [KeyOrd K'] (m : Map K W) (f : K × W → Option (K' × V))
    (h : ∃ k v, m.get? k = some v ∧ f (k, v) = none) : rewrite m.toList f = none := by
  obtain ⟨k, v, h1, h2⟩ := h
  unfold rewrite
  exact foldlM_none _ _ ⟨(k, v), (Map.mem_iff _ _ _).mpr h1, fun m => by rw [h2]; rfl⟩ _

theorem rewrite_some (m : Map K W) (f : K × W → Option (K × V)) (g : K × W → V)
    (h : ∀ k v, m.get? k = some v → f (k, v) = some (k, g (k, v))) :
    ∃ r : Map K V, rewrite m.toList f = some r ∧ ∀ k, r.get? k = (m.get? k).map (fun v => g (k, v)) := by
  have key : ∀ (l : List (K × W)) (r : Map K V), (∀ e ∈ l, f e = some (e.1, g e)) →
      l.foldlM (fun m e => (f e).map (fun r => m.set r.1 r.2)) r = some (l.foldl (fun m p => m.set p.1 (g p)) r) := by
    intro l
    induction l with
    | nil => intro r _; rfl
    | cons a t ih =>
      intro r hl
      rw [List.foldlM_cons, hl a List.mem_cons_self]
      exact ih _ (fun e he => hl e (List.mem_cons_of_mem _ he))
  refine ⟨_, key m.toList ∅ (fun e he => h e.1 e.2 ((Map.mem_iff _ _ _).mp he)), ?_⟩
  intro k
  rw [get?_foldl_set g m.toList m.keys_nodup]
  show (match m.get? k with | some v => some (g (k, v)) | none => none) = _
  cases m.get? k <;> rfl

end loops

theorem coin_small {x : Nat} (h : x < 2 ^ 63) : coin? x = some (Coins.single kyve x) := if_pos h
theorem coin_big {x : Nat} (h : ¬ x < 2 ^ 63) : coin? x = none := if_neg h

theorem migrateEntries_get (m : Map Nat Dec) (i : Nat) :
    (migrateEntries m).get? i = (m.get? i).map (Coins.single kyve) := by
  unfold migrateEntries
  rw [get?_foldl_set (fun e => Coins.single kyve e.2) m.toList m.keys_nodup]
  have e : getL i m.toList = m.get? i := rfl
  rw [e]
  cases m.get? i <;> rfl

theorem migrateFunding_some {f : OldFunding} (h : f.amount < 2 ^ 63 ∧ f.perBundle < 2 ^ 63 ∧ f.totalFunded < 2 ^ 63) :
    migrateFunding f = some f.native := by
  unfold migrateFunding
  rw [coin_small h.1, coin_small h.2.1, coin_small h.2.2]
  rfl

theorem migrateFunding_none {f : OldFunding} (h : ¬ (f.amount < 2 ^ 63 ∧ f.perBundle < 2 ^ 63 ∧ f.totalFunded < 2 ^ 63)) :
    migrateFunding f = none := by
  unfold migrateFunding
  by_cases h1 : f.amount < 2 ^ 63
  · rw [coin_small h1]
    by_cases h2 : f.perBundle < 2 ^ 63
    · rw [coin_small h2]
      rw [coin_big (fun h3 => h ⟨h1, h2, h3⟩)]
      rfl
    · rw [coin_big h2]; rfl
  · rw [coin_big h1]; rfl

/-- the F1 store the migration writes -/
def nativeF1 (f : OldF1) : Delegation.F1 :=
  ⟨f.data.map (fun d => ⟨Coins.single kyve d.rewards, d.total, d.latest, d.count, d.undel⟩), f.dels,
    migrateEntries f.entries, f.slashes, f.halted, f.wrapped⟩

theorem nativeF1_ok (f : OldF1) : F1Native f (nativeF1 f) := ⟨rfl, rfl, migrateEntries_get _, rfl, rfl, rfl⟩

theorem F1Native.eq {f : OldF1} {g g' : Delegation.F1} (h : F1Native f g) (h' : F1Native f g') : g = g' := by
  obtain ⟨a1, a2, a3, a4, a5, a6⟩ := g
  obtain ⟨b1, b2, b3, b4, b5, b6⟩ := g'
  have e3 : a3 = b3 := Map.ext (fun i => (h.entries i).trans (h'.entries i).symm)
  have e1 := h.data.trans h'.data.symm
  have e2 := h.dels.trans h'.dels.symm
  have e4 := h.slashes.trans h'.slashes.symm
  have e5 := h.halted.trans h'.halted.symm
  have e6 := h.wrapped.trans h'.wrapped.symm
  simp only at e1 e2 e4 e5 e6
  subst e1 e2 e3 e4 e5 e6
  rfl

theorem migrateF1_some {f : OldF1} (h : ∀ d, f.data = some d → d.rewards < 2 ^ 63) : migrateF1 f = some (nativeF1 f) := by
  obtain ⟨data, dels, entries, slashes, halted, wrapped⟩ := f
  cases data with
  | none => rfl
  | some d =>
    show (migrateData d).map _ = _
    unfold migrateData
    rw [coin_small (h d rfl)]
    rfl

theorem migrateF1_none {f : OldF1} {d : OldData} (h : f.data = some d) (hd : ¬ d.rewards < 2 ^ 63) : migrateF1 f = none := by
  obtain ⟨data, dels, entries, slashes, halted, wrapped⟩ := f
  simp only at h
  subst h
  show (migrateData d).map _ = _
  unfold migrateData
  rw [coin_big hd]
  rfl

theorem migrateStaker_some {s : OldStaker} (h : s.rewards < 2 ^ 63) : migrateStaker s = some s.native := by
  unfold migrateStaker
  rw [coin_small h]; rfl

theorem migrateStaker_none {s : OldStaker} (h : ¬ s.rewards < 2 ^ 63) : migrateStaker s = none := by
  unfold migrateStaker
  rw [coin_big h]; rfl

/-- C78: the handler panics exactly if some amount is `2^63` or more -/
theorem C78_panics (k : Literals) {o : Old} (hk : Keyed o) : (migrate k o).isSome = true ↔ Small o := by
  constructor
  · intro h
    refine ⟨?_, ?_, ?_⟩
    · intro i f hf
      by_contra hx
      have e := rewrite_none (V := Funders.Funding) o.fundings
        (fun e => (migrateFunding e.2).map (fun f => ((f.funder, f.pool), f)))
        ⟨i, f, hf, by show (migrateFunding f).map _ = none; rw [migrateFunding_none hx]; rfl⟩
      unfold migrate at h
      rw [e] at h
      cases h
    · intro a f d hf hd
      by_contra hx
      have e := rewrite_none (V := Delegation.F1) o.f1 (fun e => (migrateF1 e.2).map (fun f => (e.1, f)))
        ⟨a, f, hf, by show (migrateF1 f).map _ = none; rw [migrateF1_none hd hx]; rfl⟩
      unfold migrate at h
      rw [e] at h
      cases hq : rewrite o.fundings.toList (fun e => (migrateFunding e.2).map (fun f => ((f.funder, f.pool), f))) with
      | none => rw [hq] at h; cases h
      | some x => rw [hq] at h; cases h
    · intro a s hs
      by_contra hx
      have e := rewrite_none (V := Stakers.Staker) o.stakers (fun e => (migrateStaker e.2).map (fun s => (e.1, s)))
        ⟨a, s, hs, by show (migrateStaker s).map _ = none; rw [migrateStaker_none hx]; rfl⟩
      unfold migrate at h
      rw [e] at h
      cases hq : rewrite o.fundings.toList (fun e => (migrateFunding e.2).map (fun f => ((f.funder, f.pool), f))) with
      | none => rw [hq] at h; cases h
      | some x =>
        rw [hq] at h
        cases hq' : rewrite o.f1.toList (fun e => (migrateF1 e.2).map (fun f => (e.1, f))) with
        | none => rw [hq'] at h; cases h
        | some y => rw [hq'] at h; cases h
  · intro h
    obtain ⟨r1, e1, -⟩ := rewrite_some o.fundings (fun e => (migrateFunding e.2).map (fun f => ((f.funder, f.pool), f)))
      (fun e => e.2.native) (fun i f hf => by
        show (migrateFunding f).map _ = _
        rw [migrateFunding_some (h.funding i f hf)]
        have := hk.funding i f hf
        subst this; rfl)
    obtain ⟨r2, e2, -⟩ := rewrite_some o.f1 (fun e => (migrateF1 e.2).map (fun f => (e.1, f)))
      (fun e => nativeF1 e.2) (fun a f hf => by
        show (migrateF1 f).map _ = _
        rw [migrateF1_some (fun d hd => h.data a f d hf hd)]; rfl)
    obtain ⟨r3, e3, -⟩ := rewrite_some o.stakers (fun e => (migrateStaker e.2).map (fun s => (e.1, s)))
      (fun e => e.2.native) (fun a s hs => by
        show (migrateStaker s).map _ = _
        rw [migrateStaker_some (h.staker a s hs)]; rfl)
    obtain ⟨r4, e4, -⟩ := rewrite_some o.pools (fun e => some ((migratePool e.2).id, migratePool e.2))
      (fun e => migratePool e.2) (fun id p hp => by
        have e : (migratePool p).id = id := hk.pool id p hp
        show some ((migratePool p).id, migratePool p) = _
        rw [e])
    unfold migrate
    rw [e1, e2, e3, e4]
    rfl

/-- what the migration writes -/
theorem migrate_eq (k : Literals) {o : Old} (hk : Keyed o) (h : Small o) :
    ∃ (r1 : Map (Addr × Nat) Funders.Funding) (r2 : Map Addr Delegation.F1) (r3 : Map Addr Stakers.Staker)
      (r4 : Map Nat Pool.Pool),
      (∀ i, r1.get? i = (o.fundings.get? i).map OldFunding.native) ∧ (∀ a, r2.get? a = (o.f1.get? a).map nativeF1) ∧
      (∀ a, r3.get? a = (o.stakers.get? a).map OldStaker.native) ∧ (∀ id, r4.get? id = (o.pools.get? id).map migratePool) ∧
      migrate k o = some { o.rest with
        fund := { o.rest.fund with fundings := r1, params := fundersParams k o }
        del := { o.rest.del with f1 := r2 }
        st := { o.rest.st with stakers := r3 }
        bun := { o.rest.bun with params := bundlesParams o }
        pool := k.upgrades.foldl (fun s u => upgradeRuntime k o.rest.now u s) ⟨r4, o.rest.pool.count, poolParams o⟩ } := by
  obtain ⟨r1, e1, q1⟩ := rewrite_some o.fundings (fun e => (migrateFunding e.2).map (fun f => ((f.funder, f.pool), f)))
    (fun e => e.2.native) (fun i f hf => by
      show (migrateFunding f).map _ = _
      rw [migrateFunding_some (h.funding i f hf)]
      have := hk.funding i f hf
      subst this; rfl)
  obtain ⟨r2, e2, q2⟩ := rewrite_some o.f1 (fun e => (migrateF1 e.2).map (fun f => (e.1, f)))
    (fun e => nativeF1 e.2) (fun a f hf => by
      show (migrateF1 f).map _ = _
      rw [migrateF1_some (fun d hd => h.data a f d hf hd)]; rfl)
  obtain ⟨r3, e3, q3⟩ := rewrite_some o.stakers (fun e => (migrateStaker e.2).map (fun s => (e.1, s)))
    (fun e => e.2.native) (fun a s hs => by
      show (migrateStaker s).map _ = _
      rw [migrateStaker_some (h.staker a s hs)]; rfl)
  obtain ⟨r4, e4, q4⟩ := rewrite_some o.pools (fun e => some ((migratePool e.2).id, migratePool e.2))
    (fun e => migratePool e.2) (fun id p hp => by
      have e : (migratePool p).id = id := hk.pool id p hp
      show some ((migratePool p).id, migratePool p) = _
      rw [e])
  refine ⟨r1, r2, r3, r4, q1, q2, q3, q4, ?_⟩
  unfold migrate
  rw [e1, e2, e3, e4]
  rfl

open Verif.Chain (Chain Reachable Sane)

theorem step_ok {gov : Addr} {c c' : Chain} {op : Chain.Op} (h : c.crashed = false) (e : c.exec gov op = .ok c') :
    c.step gov op = c' := by
  unfold Chain.step
  rw [h, e]; rfl

theorem mergeList_full : ∀ (l es : List Funders.Entry),
    Funders.mergeList es (l.map (fun e => ⟨some e.denom, some e.decimals, some e.minAmount, some e.minPerBundle, some e.weight⟩)) = l
  | [], es => by cases es <;> rfl
  | e :: l, [] => by
    show Funders.EntryPatch.fresh _ :: Funders.mergeList [] _ = _
    rw [mergeList_full l []]; rfl
  | e :: l, x :: es => by
    show Funders.Entry.merge x _ :: Funders.mergeList es _ = _
    rw [mergeList_full l es]; rfl

theorem mergeCosts_full : ∀ (l es : List (Nat × Dec)), Bundles.mergeCosts es (l.map (fun e => (some e.1, e.2))) = l
  | [], es => by cases es <;> rfl
  | e :: l, [] => by
    show (e.1, e.2) :: Bundles.mergeCosts [] _ = _
    rw [mergeCosts_full l []]
  | e :: l, x :: es => by
    show (e.1, e.2) :: Bundles.mergeCosts es _ = _
    rw [mergeCosts_full l es]

/-- the weight of a pool set to one -/
def weighOne (p : Pool.Pool) : Pool.Pool := { p with inflationShareWeight := Dec.one }

theorem updates_run {gov : Addr} (ids : List Nat) : ∀ (c : Chain), c.crashed = false →
    (∀ id p, c.pool.pools.get? id = some p → p.id = id) → (∀ id ∈ ids, (c.pool.pools.get? id).isSome = true) →
    ∃ P : Map Nat Pool.Pool,
      (ids.map (fun id => Chain.Op.updatePool gov id { inflationShareWeight := some Dec.one })).foldl (Chain.step gov) c
        = { c with pool := { c.pool with pools := P } } ∧
      ∀ id, P.get? id = if id ∈ ids then (c.pool.pools.get? id).map weighOne else c.pool.pools.get? id := by
  induction ids with
  | nil => intro c _ _ _; exact ⟨c.pool.pools, rfl, fun id => by simp⟩
  | cons a t ih =>
    intro c hc hk hin
    obtain ⟨p, hp⟩ := Option.isSome_iff_exists.mp (hin a List.mem_cons_self)
    have hid := hk a p hp
    have e : c.step gov (.updatePool gov a { inflationShareWeight := some Dec.one }) =
        { c with pool := { c.pool with pools := c.pool.pools.set a (weighOne p) } } := by
      apply step_ok hc
      show (Pool.update gov c.pool gov a _).map _ = _
      unfold Pool.update
      rw [if_neg (by decide), if_neg (by simp), hp]
      subst hid
      rfl
    rw [List.map_cons, List.foldl_cons, e]
    obtain ⟨P, h1, h2⟩ := ih { c with pool := { c.pool with pools := c.pool.pools.set a (weighOne p) } } hc
      (by
        intro id q hq
        show q.id = id
        have hq' : (c.pool.pools.set a (weighOne p)).get? id = some q := hq
        rw [Map.get?_set] at hq'
        split at hq'
        · injection hq' with hq'
          subst hq'
          rename_i h; rw [h]; exact hid
        · exact hk id q hq')
      (by
        intro id hm
        show ((c.pool.pools.set a (weighOne p)).get? id).isSome = true
        rw [Map.get?_set]
        split
        · rfl
        · exact hin id (List.mem_cons_of_mem _ hm))
    refine ⟨P, h1, ?_⟩
    intro id
    rw [h2 id]
    show (if id ∈ t then ((c.pool.pools.set a (weighOne p)).get? id).map weighOne else (c.pool.pools.set a (weighOne p)).get? id) = _
    rw [Map.get?_set]
    by_cases h3 : id = a
    · subst h3
      rw [if_pos rfl, if_pos List.mem_cons_self, hp]
      split <;> rfl
    · rw [if_neg h3]
      by_cases h4 : id ∈ t
      · rw [if_pos h4, if_pos (List.mem_cons_of_mem _ h4)]
      · rw [if_neg h4, if_neg (by simp [h3, h4])]

theorem schedules_run {gov : Addr} (k : Literals) (hv : k.version ≠ 0) (us : List (Str × Str)) (hb : ∀ u ∈ us, u.2 ≠ 0) :
    ∀ (c : Chain) (now : Nat), c.crashed = false → c.now = now →
      (us.map (fun u => Chain.Op.scheduleUpgrade ⟨gov, u.1, k.version, u.2, now, 600⟩)).foldl (Chain.step gov) c
        = { c with pool := us.foldl (fun s u => upgradeRuntime k now u s) c.pool } := by
  induction us with
  | nil => intro c now _ _; rfl
  | cons u t ih =>
    intro c now hc hn
    have e : c.step gov (.scheduleUpgrade ⟨gov, u.1, k.version, u.2, now, 600⟩) =
        { c with pool := upgradeRuntime k now u c.pool } := by
      apply step_ok hc
      show (Pool.schedule gov c.pool c.now _).map _ = _
      unfold Pool.schedule
      rw [if_neg (by simp), if_neg (by
        intro h
        cases h with
        | inl h => exact hv h
        | inr h => exact hb u List.mem_cons_self h)]
      rw [hn]
      have e1 : Pool.schedulePool now ⟨gov, u.1, k.version, u.2, now, 600⟩ = (fun p =>
          if p.runtime ≠ u.1 then p
          else if p.plan.scheduledAt ≠ 0 then p
          else { p with plan := ⟨k.version, u.2, now, 600⟩ }) := by
        funext p
        unfold Pool.schedulePool
        simp
      rw [e1]
      rfl
    rw [List.map_cons, List.foldl_cons, e]
    exact ih (fun x hx => hb x (List.mem_cons_of_mem _ hx)) { c with pool := upgradeRuntime k now u c.pool } now hc hn

/-- C78: the state after the upgrade is the state before it, read with all amounts in the native coin, after the
governance messages that set the whitelist, the storage costs and the maximal voting power, give every pool the weight
one and schedule the runtime upgrades. -/
theorem C78_migrate (gov : Addr) (k : Literals) (hv : k.version ≠ 0) (hb : ∀ u ∈ k.upgrades, u.2 ≠ 0) {o : Old}
    (hk : Keyed o) (hs : Small o) {c : Chain} (hn : Native o c) (hc : c.crashed = false) :
    migrate k o = some ((messages gov k o).foldl (Chain.step gov) c) := by
  obtain ⟨r1, r2, r3, r4, q1, q2, q3, q4, e⟩ := migrate_eq k hk hs
  rw [e]
  unfold messages
  rw [List.foldl_append, List.foldl_append]
  have s1 : c.step gov (.fundersParams gov
      { whitelist := some ((fundersParams k o).whitelist.map
          (fun e => ⟨some e.denom, some e.decimals, some e.minAmount, some e.minPerBundle, some e.weight⟩)) }) =
      { c with fund := { c.fund with params := fundersParams k o } } := by
    apply step_ok hc
    show (Funders.updateParams gov c.fund gov _).map _ = _
    unfold Funders.updateParams
    rw [if_neg (by
      have : Funders.ParamsPayload.valid
        { whitelist := some ((fundersParams k o).whitelist.map
          (fun e => ⟨some e.denom, some e.decimals, some e.minAmount, some e.minPerBundle, some e.weight⟩)) } = true := by
        unfold Funders.ParamsPayload.valid
        have e1 : (Funders.Params.default.merge { whitelist := some ((fundersParams k o).whitelist.map
          (fun e => ⟨some e.denom, some e.decimals, some e.minAmount, some e.minPerBundle, some e.weight⟩)) }).whitelist
          = (fundersParams k o).whitelist := mergeList_full _ _
        rw [e1]
        simp [fundersParams]
      rw [this]; simp), if_neg (by simp)]
    have e2 : c.fund.params.merge { whitelist := some ((fundersParams k o).whitelist.map
          (fun e => ⟨some e.denom, some e.decimals, some e.minAmount, some e.minPerBundle, some e.weight⟩)) } = fundersParams k o := by
      show Funders.Params.mk (Funders.mergeList _ _) _ = _
      rw [mergeList_full]
      show Funders.Params.mk _ c.fund.params.minMultiple = _
      rw [hn.minMultiple]
      rfl
    rw [e2]; rfl
  have s2 : Chain.step gov { c with fund := { c.fund with params := fundersParams k o } }
      (.bundlesParams gov { storageCosts := some ((bundlesParams o).storageCosts.map (fun e => (some e.1, e.2))) }) =
      { c with fund := { c.fund with params := fundersParams k o }, bun := { c.bun with params := bundlesParams o } } := by
    refine step_ok (by exact hc) ?_
    show (Bundles.updateParams gov c.bun gov _).map _ = _
    unfold Bundles.updateParams
    have e3 : Bundles.ParamsPayload.apply { storageCosts := some ((bundlesParams o).storageCosts.map (fun e => (some e.1, e.2))) }
        .default = ⟨600, [(1, 4194000000), (2, 6288000000), (3, 0)], 10000000000000000, 24⟩ := rfl
    rw [e3, if_neg (by decide +kernel), if_neg (by simp)]
    have e2 : Bundles.ParamsPayload.apply { storageCosts := some ((bundlesParams o).storageCosts.map (fun e => (some e.1, e.2))) }
        c.bun.params = bundlesParams o := by
      show Bundles.Params.mk c.bun.params.uploadTimeout (Bundles.mergeCosts _ _) c.bun.params.networkFee c.bun.params.maxPoints = _
      rw [mergeCosts_full, hn.uploadTimeout, hn.networkFee, hn.maxPoints]
      rfl
    rw [e2]; rfl
  have s3 : Chain.step gov { c with fund := { c.fund with params := fundersParams k o }, bun := { c.bun with params := bundlesParams o } }
      (.poolParams gov { maxVotingPowerPerPool := some 500000000000000000 }) =
      { c with fund := { c.fund with params := fundersParams k o }, bun := { c.bun with params := bundlesParams o }, pool := { c.pool with params := poolParams o } } := by
    refine step_ok (by exact hc) ?_
    show (Pool.updateParams gov c.pool gov _).map _ = _
    unfold Pool.updateParams
    rw [if_neg (by decide +kernel), if_neg (by simp)]
    have e2 : Pool.ParamsPayload.apply { maxVotingPowerPerPool := some 500000000000000000 } c.pool.params = poolParams o := by
      show Pool.Params.mk c.pool.params.protocolInflationShare c.pool.params.poolInflationPayoutRate _ = _
      rw [hn.inflationShare, hn.payoutRate]
      rfl
    rw [e2]; rfl
  rw [List.foldl_cons, List.foldl_cons, List.foldl_cons, List.foldl_nil, s1, s2, s3]
  have hkey : ∀ id p, c.pool.pools.get? id = some p → p.id = id := by
    intro id p hp
    rw [hn.pools] at hp
    obtain ⟨q, hq, rfl⟩ := Option.map_eq_some_iff.mp hp
    exact hk.pool id q hq
  obtain ⟨P, h1, h2⟩ := updates_run (gov := gov) o.pools.keys
    { c with fund := { c.fund with params := fundersParams k o }, bun := { c.bun with params := bundlesParams o }, pool := { c.pool with params := poolParams o } } hc hkey (by
      intro id hid
      show (c.pool.pools.get? id).isSome = true
      obtain ⟨p, hp⟩ := (Map.mem_keys_iff _ _).mp hid
      rw [hn.pools, hp]; rfl)
  rw [h1]
  generalize hd : ({ c with fund := { c.fund with params := fundersParams k o }, bun := { c.bun with params := bundlesParams o }, pool := { c.pool with params := poolParams o, pools := P } } : Chain) = d
  have hd1 : d.crashed = false := by rw [← hd]; exact hc
  have hd2 : d.now = o.rest.now := by rw [← hd]; exact hn.now
  have s4 := schedules_run (gov := gov) k hv k.upgrades hb d o.rest.now hd1 hd2
  refine Eq.trans ?_ (congrArg some s4).symm
  clear s4 hd1 hd2
  subst hd
  have e4 : P = r4 := by
    apply Map.ext
    intro id
    rw [h2 id, q4 id]
    show (if id ∈ o.pools.keys then (c.pool.pools.get? id).map weighOne else c.pool.pools.get? id) = _
    rw [hn.pools]
    cases hp : o.pools.get? id with
    | none => split <;> rfl
    | some p =>
      rw [if_pos ((Map.mem_keys_iff _ _).mpr ⟨p, hp⟩)]
      rfl
  have e1 : c.fund.fundings = r1 := Map.ext (fun i => (hn.fundings i).trans (q1 i).symm)
  have e3 : c.st.stakers = r3 := Map.ext (fun i => (hn.stakers i).trans (q3 i).symm)
  have e2 : c.del.f1 = r2 := by
    apply Map.ext
    intro a
    rw [q2 a]
    have hr := hn.f1 a
    cases ho : o.f1.get? a with
    | none =>
      rw [ho] at hr
      cases hx : c.del.f1.get? a with
      | none => rfl
      | some g => rw [hx] at hr; cases hr
    | some f =>
      rw [ho] at hr
      cases hx : c.del.f1.get? a with
      | none => rw [hx] at hr; cases hr
      | some g =>
        rw [hx] at hr
        cases hr with
        | some hr => rw [hr.eq (nativeF1_ok f)]; rfl
  have d1 := hn.st
  have d2 := hn.del
  have d3 := hn.fund
  have d4 := hn.bun
  have d5 := hn.bank
  have d6 := hn.now
  have d7 := hn.halted
  have d8 := hn.crashed
  have d9 := hn.count
  rw [e3] at d1
  rw [e2] at d2
  rw [e1] at d3
  clear hn h1 s1 s2 s3 hkey h2
  obtain ⟨cb, cnow, cpool, cst, cdel, cfund, cbun, chalted, ccrashed⟩ := c
  simp only at d1 d2 d3 d4 d5 d6 d7 d8 d9 hc ⊢
  rw [e4, d9, d5, d6, d7, d8, d1, d2, d3, d4]

end Verif.Upgrade
