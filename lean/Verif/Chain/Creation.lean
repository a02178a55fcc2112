import Verif.Chain.Pools
import Verif.Chain.SampleReach

/-!
# C40: which pools can be created, and what they look like
-/

set_option linter.dupNamespace false
namespace Verif.Chain
open Verif
namespace Chain

/-- C40: a pool is created exactly if governance asks for it, with positive upload interval and bundle size and with
binaries that are valid JSON. -/
theorem C40_create_accepted (gov : Addr) (c : Chain) (m : Pool.CreateMsg) :
    (∃ c', exec gov c (.createPool m) = .ok c') ↔
      m.authority = gov ∧ 0 < m.uploadInterval ∧ 0 < m.maxBundleSize ∧ m.binariesJson = true := by
  have hx : exec gov c (.createPool m) = createPool gov c m := rfl
  rw [hx]
  unfold createPool Pool.create
  constructor
  · rintro ⟨c', h⟩
    split at h
    · cases h
    · rename_i s hs
      split at hs
      · cases hs
      · rename_i h1
        split at hs
        · cases hs
        · rename_i h2
          split at hs
          · cases hs
          · rename_i h3
            exact ⟨(not_not.1 h2).symm, by omega, by omega, by simpa using h3⟩
  · rintro ⟨h1, h2, h3, h4⟩
    rw [if_neg (by omega), if_neg (by rw [h1]; simp), h4]
    exact ⟨_, rfl⟩

/-- C40: the new pool is the one asked for: enabled, without bundles, without a scheduled upgrade, running the version asked
for since now. -/
theorem C40_created (gov : Addr) (c c' : Chain) (h : Reachable gov c) (m : Pool.CreateMsg)
    (hx : exec gov c (.createPool m) = .ok c') :
    ∃ p, c'.pool.pools.get? c.pool.count = some p ∧ p.id = c.pool.count ∧
      p.name = m.name ∧ p.runtime = m.runtime ∧ p.startKey = m.startKey ∧ p.endKey = m.endKey ∧
      p.uploadInterval = m.uploadInterval ∧ p.inflationShareWeight = m.inflationShareWeight ∧
      p.minDelegation = m.minDelegation ∧ p.maxBundleSize = m.maxBundleSize ∧
      p.storageProviderId = m.storageProviderId ∧ p.compressionId = m.compressionId ∧
      p.disabled = false ∧ p.totalBundles = 0 ∧ p.currentIndex = 0 ∧ p.currentKey = 0 ∧ p.currentSummary = 0 ∧
      p.protocol.version = m.version ∧ p.protocol.binaries = m.binaries ∧ p.protocol.lastUpgrade = c.now ∧
      p.plan = ⟨0, 0, 0, 0⟩ := by
  obtain ⟨-, -, -, h4, -⟩ := C40_create_chain gov c c' h m hx
  exact ⟨_, h4, rfl, rfl, rfl, rfl, rfl, rfl, rfl, rfl, rfl, rfl, rfl, rfl, rfl, rfl, rfl, rfl, rfl, rfl, rfl, rfl⟩

example : Sample.pool.authority = Sample.gov ∧ 0 < Sample.pool.uploadInterval ∧ 0 < Sample.pool.maxBundleSize ∧
    Sample.pool.binariesJson = true := by decide
example : ∃ c', exec Sample.gov Sample.ready (.createPool Sample.pool) = .ok c' :=
  (C40_create_accepted _ _ _).2 (by decide)

end Chain
end Verif.Chain
