import Verif.Chain.Whitelist
import Verif.Delegation.Genesis
import Verif.Stakers.Genesis
import Verif.Pool.Genesis
import Verif.Funders.Genesis
import Verif.Bundles.Genesis

/-!
# Export and restart of the whole chain (C55, C68)

The genesis of the five modules that depend on each other, exported by /repo/app/export.go from the module manager
(x/team: `Verif/Team/Genesis.lean`; x/global only stores its parameters).  Balances belong to x/bank (a dependency).
-/

set_option linter.dupNamespace false
namespace Verif.Chain
open Verif
open Chain

/-- the genesis of the modules -/
structure Genesis where
  pool : Pool.Genesis
  st : Stakers.Genesis
  del : Delegation.Genesis
  fund : Funders.Genesis
  bun : Bundles.Genesis

/-- every module accepts its part -/
def Genesis.validate (g : Genesis) : Bool :=
  g.pool.validate && g.st.validate && g.del.validate && g.fund.validate && g.bun.validate

namespace Chain

/-- `ExportGenesis` of every module -/
def exportGenesis (c : Chain) : Genesis :=
  ⟨Pool.exportGenesis c.pool, Stakers.exportGenesis c.st, Delegation.exportGenesis c.del, Funders.exportGenesis c.fund,
    Bundles.exportGenesis c.bun⟩

/-- `InitGenesis` of every module, with the balances and the time of the new chain -/
def initGenesis (g : Genesis) (b : Bank) (now : Nat) : Chain where
  b := b
  now := now
  pool := Pool.initGenesis g.pool
  st := Stakers.initGenesis g.st
  del := Delegation.initGenesis g.del
  fund := Funders.initGenesis g.fund
  bun := Bundles.initGenesis g.bun
  halted := false
  crashed := false

/-- the stores of two chains hold the same: all of x/pool, x/bundles and x/funders, all of x/stakers (a member count of
zero may be stored or not), all of x/delegation (a staker without any entry may have a part of the store or not; the
ranking is correct) -/
structure SameStores (c c' : Chain) : Prop where
  pool : c'.pool = c.pool
  bun : c'.bun = c.bun
  funders : c'.fund.funders = c.fund.funders
  fundings : c'.fund.fundings = c.fund.fundings
  active : c'.fund.active = c.fund.active
  fundParams : c'.fund.params = c.fund.params
  stakers : c'.st.stakers = c.st.stakers
  vals : c'.st.vals = c.st.vals
  valIdx : c'.st.valIdx = c.st.valIdx
  counts : ∀ p, c'.st.count p = c.st.count p
  activeStakers : c'.st.active = c.st.active
  changes : c'.st.changes = c.st.changes
  changeIdx : c'.st.changeIdx = c.st.changeIdx
  leaves : c'.st.leaves = c.st.leaves
  leaveIdx : c'.st.leaveIdx = c.st.leaveIdx
  queues : c'.st.cLow = c.st.cLow ∧ c'.st.cHigh = c.st.cHigh ∧ c'.st.lLow = c.st.lLow ∧ c'.st.lHigh = c.st.lHigh
  stParams : c'.st.params = c.st.params
  delegations : ∀ st, c'.del.at st = c.del.at st
  unbonding : c'.del.queue = c.del.queue ∧ c'.del.low = c.del.low ∧ c'.del.high = c.del.high
  spells : c'.del.spells = c.del.spells
  delParams : c'.del.params = c.del.params
  ranking : Delegation.IdxInv c'.del

theorem chained_all {c : Chain} (h : BunInv c) (id : Nat) : ∃ n last, Bundles.Chained c.bun id n last := by
  cases hp : c.pool.pools.get? id with
  | some p => exact ⟨_, _, h.chained id p hp⟩
  | none =>
    have ho := fun i => h.orphan id i hp
    refine ⟨0, 0, ?_, ?_, ?_, ?_, fun _ => rfl⟩
    · intro i
      exact ⟨fun ⟨f, hf⟩ => by rw [ho i] at hf; (cases hf), fun hi => absurd hi (Nat.not_lt_zero i)⟩
    · intro f hf; rw [ho 0] at hf; cases hf
    · intro i f g hf _; rw [ho i] at hf; cases hf
    · intro i f hf _; rw [ho i] at hf; cases hf

/-- C55: a chain started from the genesis exported from any reachable state holds what the old one held, whatever the
time of the restart (unless a pool's data index overflowed 64 bits, see `C55_overflow`). -/
theorem C55_chain (gov : Addr) (c : Chain) (h : Reachable gov c) (ho : ∀ id, Bundles.NoOverflow c.bun id) (b : Bank)
    (now : Nat) : SameStores c (initGenesis c.exportGenesis b now) := by
  have hg := Reachable.good h
  have hM := hg.mods
  obtain ⟨s1, s2, s3, s4, s5, s6, s7, s8, s9, s10, s11, s12, s13, s14⟩ := Stakers.C55_stakers_roundtrip gov _ hM.st
  obtain ⟨d1, d2, d3, d4, d5, d6, d7⟩ := Delegation.C55_delegation hM.del
  have hf := Funders.C55_funders gov c.fw hM.fund.reach
  exact
    { pool := Pool.C55_pool gov c.pool hM.pool
      bun := Bundles.C55_bundles c.bun (chained_all hg.bun) ho (fun id => hg.bun.indexed id (ho id))
      funders := by
        have e := congrArg Funders.State.funders hf
        exact e
      fundings := by
        have e := congrArg Funders.State.fundings hf
        exact e
      active := by
        have e := congrArg Funders.State.active hf
        exact e
      fundParams := by
        have e := congrArg Funders.State.params hf
        exact e
      stakers := s1, vals := s2, valIdx := s3, counts := s4, activeStakers := s5, changes := s6, changeIdx := s7
      leaves := s8, leaveIdx := s9, queues := ⟨s10, s11, s12, s13⟩, stParams := s14
      delegations := d1, unbonding := ⟨d2, d3, d4⟩, spells := d5, delParams := d6, ranking := d7 }

/-- C55 without the condition: whatever overflowed, everything but the in-memory index of x/bundles is the same, and
the index is the one a node has after a restart. -/
theorem C55_overflow (c : Chain) (b : Bank) (now : Nat) :
    (initGenesis c.exportGenesis b now).bun = c.bun.initMemStore := Bundles.C55_bundles_restart c.bun

/-- C68, exact: the genesis exported from a reachable state is accepted exactly if no announcement to leave a pool is
stale (C62) and the native coin is on the funding whitelist (C66).  Missing: that the conditions always hold; they do
not (`C68_false`). -/
theorem C68_partial (gov : Addr) (c : Chain) (h : Reachable gov c) :
    c.exportGenesis.validate = true ↔ Stakers.NoStale c.st ∧ Funders.Spec.whitelisted c.fw kyve := by
  have hg := Reachable.good h
  have hM := hg.mods
  have h1 : (Pool.exportGenesis c.pool).validate = true := Pool.C68_pool gov c.pool hM.pool
  have h2 : (Stakers.exportGenesis c.st).validate = true ↔ Stakers.NoStale c.st :=
    by
      have e := Stakers.C68_stakers_partial gov _ hM.st
      exact e
  have h3 : (Delegation.exportGenesis c.del).validate = true := by
    have e := Delegation.C68_delegation hM.del
    exact e
  have h4 : (Funders.exportGenesis c.fund).validate = true ↔ Funders.Spec.whitelisted c.fw kyve := Funders.C68_funders c.fw
  have h5 : (Bundles.exportGenesis c.bun).validate = true := Bundles.C68_bundles c.bun (chained_all hg.bun) hg.bun.params
  unfold Genesis.validate exportGenesis
  simp only [Bool.and_eq_true]
  rw [h1, h3, h5, h2, h4]
  simp

/-- C68 is false: a staker that announced to leave and is removed for inactivity leaves its announcement behind, and the
chain cannot be restarted from its export before the entry is due; after `C66_false` it cannot either. -/
theorem C68_false : Reachable Sample.gov unlisted ∧ unlisted.exportGenesis.validate = false := by
  refine ⟨C66_false.1, ?_⟩
  cases hb : unlisted.exportGenesis.validate with
  | false => rfl
  | true => exact absurd ((C68_partial Sample.gov _ C66_false.1).1 hb).2 C66_false.2.1

/-- witness of the hypotheses: the sample chain after a finalized bundle; its export is accepted -/
example : Reachable Sample.gov Sample.second ∧ (∀ id, Bundles.NoOverflow Sample.second.bun id) ∧
    Sample.second.exportGenesis.validate = true ∧ Sample.second.exportGenesis.bun.finalized.length = 1 := by
  refine ⟨Sample.reach_second, ?_, by decide +kernel, by decide +kernel⟩
  intro id i f hf
  have hm := (Map.mem_iff _ _ _).2 hf
  have hall : ∀ e ∈ Sample.second.bun.finalized.toList, e.2.fromIndex < e.2.toIndex ∧ e.2.toIndex < twoPow64 := by
    decide +kernel
  exact hall _ hm

end Chain
end Verif.Chain
