import Verif.Chain.Voting

/-!
# C23, C30: the finalized bundles of a pool
-/

set_option linter.dupNamespace false
namespace Verif.Chain
open Verif
open Verif.Bundles (Proposal VoteDist FBundle)

namespace Chain

/-- the finalized bundle number `i` of pool `id` -/
def bundle (c : Chain) (id i : Nat) : Option FBundle := c.bun.finalized.get? (id, i)

/-! ## C23 -/

/-- C23: in every reachable state the bundles of a pool are numbered from 0 without gaps up to the counter of the pool,
the first starts at index 0, every other starts where the one before ended, and the last ends at the pool's current
index. -/
theorem C23_chain (gov : Addr) (c : Chain) (h : Reachable gov c) (id : Nat) (p : Pool.Pool)
    (hp : c.pool.pools.get? id = some p) :
    (∀ i, (∃ f, c.bundle id i = some f) ↔ i < p.totalBundles) ∧
    (∀ f, c.bundle id 0 = some f → f.fromIndex = 0) ∧
    (∀ i f g, c.bundle id i = some f → c.bundle id (i + 1) = some g → g.fromIndex = f.toIndex) ∧
    (∀ i f, c.bundle id i = some f → i + 1 = p.totalBundles → f.toIndex = p.currentIndex) ∧
    (p.totalBundles = 0 → p.currentIndex = 0) := by
  have hc := h.good.bun.chained id p hp
  exact ⟨hc.dense, hc.first, hc.next, hc.final, hc.empty⟩

/-- a pool is never removed -/
theorem pool_stays {gov : Addr} {c : Chain} (h : Reachable gov c) (op : Op) {id : Nat} {p : Pool.Pool}
    (hp : c.pool.pools.get? id = some p) : ∃ p', (c.step gov op).pool.pools.get? id = some p' := by
  cases round_step h op id with
  | kept n t e s => obtain ⟨p', h', -⟩ := s.info p hp; exact ⟨p', h'⟩
  | voted m e1 e2 hr h0 hs hv hi hc s => obtain ⟨p', h', -⟩ := s.info p hp; exact ⟨p', h'⟩
  | dropped n e s => obtain ⟨p', h', -⟩ := s.info p hp; exact ⟨p', h'⟩
  | proposed pl _ _ _ s => obtain ⟨p', h', -⟩ := s.info p hp; exact ⟨p', h'⟩
  | finalized pl v h1 h2 _ => obtain ⟨p', h', -⟩ := h2.pool; exact ⟨p', h'⟩

/-- the bundles of a pool stay the same, or the proposal becomes the next one -/
theorem bundles_step {gov : Addr} {c : Chain} (h : Reachable gov c) (op : Op) (id : Nat) :
    SameBundles id c (c.step gov op) ∨
    ∃ pl v, c.pool.pools.get? id = some pl ∧ Finalizes id pl v c (c.step gov op) := by
  cases round_step h op id with
  | kept n t e s => exact Or.inl s
  | voted m e1 e2 hr h0 hs hv hi hc s => exact Or.inl s
  | dropped n e s => exact Or.inl s
  | proposed pl _ _ _ s => exact Or.inl s
  | finalized pl v h1 h2 _ => exact Or.inr ⟨pl, v, h1, h2⟩

/-- C23: what a new bundle is.  If an operation adds a bundle to a pool, it is the current proposal of the pool, with the
next number and the index range that follows; more than half of the voting power was for it. -/
theorem C23_new (gov : Addr) (c : Chain) (h : Reachable gov c) (op : Op) (id i : Nat) (f : FBundle)
    (h0 : c.bundle id i = none) (h1 : (c.step gov op).bundle id i = some f) :
    ∃ p, c.pool.pools.get? id = some p ∧ i = p.totalBundles ∧
      (c.proposal id).storageId ≠ 0 ∧ f.storageId = (c.proposal id).storageId ∧
      f.uploader = (c.proposal id).uploader ∧
      f.fromIndex = p.currentIndex ∧ f.toIndex = (p.currentIndex + (c.proposal id).bundleSize) % 2 ^ 64 ∧
      f.fromKey = (c.proposal id).fromKey ∧ f.toKey = (c.proposal id).toKey ∧
      f.summary = (c.proposal id).summary ∧ f.dataHash = (c.proposal id).dataHash ∧
      f.storageProviderId = (c.proposal id).storageProviderId ∧ f.compressionId = (c.proposal id).compressionId ∧
      f.finalizedAt = c.now ∧ f.totalPower < 2 * f.validPower := by
  rcases bundles_step h op id with s | ⟨pl, v, hpl, hf⟩
  · have := s.fin i
    unfold bundle at h0 h1
    rw [h1, h0] at this; cases this
  · have e := hf.fin i
    unfold bundle at h0 h1
    rw [h1] at e
    split at e
    · rename_i hi
      injection e with e
      subst e
      exact ⟨pl, hpl, hi, hf.bundle, rfl, rfl, rfl, rfl, rfl, rfl, rfl, rfl, rfl, rfl, rfl, hf.majority⟩
    · rw [h0] at e; cases e

/-- C23: an operation adds at most one bundle to a pool. -/
theorem C23_one (gov : Addr) (c : Chain) (h : Reachable gov c) (op : Op) (id i j : Nat)
    (hi : c.bundle id i = none) (hj : c.bundle id j = none) (hi' : (c.step gov op).bundle id i ≠ none)
    (hj' : (c.step gov op).bundle id j ≠ none) : i = j := by
  obtain ⟨f, hf⟩ := Option.ne_none_iff_exists'.1 hi'
  obtain ⟨g, hg⟩ := Option.ne_none_iff_exists'.1 hj'
  obtain ⟨p, hp, e, -⟩ := C23_new gov c h op id i f hi hf
  obtain ⟨q, hq, e', -⟩ := C23_new gov c h op id j g hj hg
  rw [hp] at hq; cases hq
  omega

theorem bundle_kept {gov : Addr} {c : Chain} (h : Reachable gov c) (op : Op) {id i : Nat} {f : FBundle}
    (hf : c.bundle id i = some f) : (c.step gov op).bundle id i = some f := by
  unfold bundle at hf ⊢
  rcases bundles_step h op id with s | ⟨pl, v, hpl, hz⟩
  · rw [s.fin]; exact hf
  · rw [hz.fin, if_neg, hf]
    intro e
    have := ((h.good.bun.chained id pl hpl).dense i).1 ⟨f, hf⟩
    omega

/-- C23: a finalized bundle is never changed or removed. -/
theorem C23_immutable (gov : Addr) (c c' : Chain) (h : Reachable gov c) (hl : Later gov c c') (id i : Nat) (f : FBundle)
    (hf : c.bundle id i = some f) : c'.bundle id i = some f := by
  induction hl with
  | refl => exact hf
  | step op hl _ ih => exact bundle_kept (hl.reachable h) op ih

/-- C23: the data of every finalized bundle: there is some, more than half of the voting power was for it, and the
uploader is a staker. -/
theorem C23_sound (gov : Addr) (c : Chain) (h : Reachable gov c) (id i : Nat) (f : FBundle)
    (hf : c.bundle id i = some f) :
    f.storageId ≠ 0 ∧ f.totalPower < 2 * f.validPower ∧ f.finalizedAt ≤ c.now ∧
      ∃ u, f.uploader = some u ∧ c.st.stakers.has u = true := by
  have := h.good.bun.fin id i f hf
  exact ⟨this.stored, this.majority, this.time, this.uploader⟩

/-- C23: the key and the summary of a pool are those of its last bundle. -/
theorem C23_last (gov : Addr) (c : Chain) (h : Reachable gov c) (id : Nat) (p : Pool.Pool)
    (hp : c.pool.pools.get? id = some p) (i : Nat) (f : FBundle) (hi : i + 1 = p.totalBundles)
    (hf : c.bundle id i = some f) : p.currentKey = f.toKey ∧ p.currentSummary = f.summary := by
  induction h generalizing p i f with
  | init dp sp bp b now _ _ => cases hp
  | step op hr hs ih =>
    rename_i c
    rcases bundles_step hr op id with s | ⟨pl, v, hpl, hz⟩
    · cases hq : c.pool.pools.get? id with
      | none =>
        have h0 := hr.good.bun.orphan id i hq
        have := s.fin i
        unfold bundle at hf
        rw [hf, h0] at this; cases this
      | some q =>
        obtain ⟨p', hp', e1, e2, e3, e4⟩ := s.info q hq
        rw [hp] at hp'; injection hp' with hp'; subst hp'
        have hf' : c.bundle id i = some f := by
          unfold bundle at hf ⊢; rw [← s.fin i]; exact hf
        obtain ⟨k1, k2⟩ := ih q hq i f (by omega) hf'
        exact ⟨e3.trans k1, e4.trans k2⟩
    · obtain ⟨p', hp', e1, e2, e3, e4⟩ := hz.pool
      rw [hp] at hp'; injection hp' with hp'; subst hp'
      have e := hz.fin i
      unfold bundle at hf
      rw [hf, if_pos (by omega)] at e
      injection e with e
      subst e
      exact ⟨e3, e4⟩

/-! ## C30 -/

/-- the pool never reached data index `2^64` -/
def Small (c : Chain) (id : Nat) : Prop :=
  ∀ i f, c.bundle id i = some f → f.fromIndex < f.toIndex ∧ f.toIndex < 2 ^ 64

/-- C30: in every reachable state, looking up a data index of a pool answers bundle `i` iff it is the finalized bundle
whose range contains the index.  (Index `2^64 - 1` is not queried.) -/
theorem C30_exact (gov : Addr) (c : Chain) (h : Reachable gov c) (id : Nat) (hs : c.Small id) (x : Nat)
    (hx : x < 2 ^ 64 - 1) (i : Nat) (f : FBundle) :
    c.bun.lookup id x = some (i, f) ↔ c.bundle id i = some f ∧ f.fromIndex ≤ x ∧ x < f.toIndex := by
  cases hq : c.pool.pools.get? id with
  | some p => exact Bundles.C30_lookup (h.good.bun.chained id p hq) hs (h.good.bun.indexed id hs) x hx i f
  | none =>
    have h0 := fun j => h.good.bun.orphan id j hq
    have e : c.bundle id i = none := h0 i
    rw [e]
    refine ⟨fun hl => ?_, fun hl => by cases hl.1⟩
    unfold Bundles.State.lookup at hl
    split at hl
    · cases hl
    · rw [h0] at hl; cases hl

/-- C30: every data index below the pool's current index is found, in exactly one bundle; no other is. -/
theorem C30_all (gov : Addr) (c : Chain) (h : Reachable gov c) (id : Nat) (hs : c.Small id) (p : Pool.Pool)
    (hp : c.pool.pools.get? id = some p) (x : Nat) (hx : x < 2 ^ 64 - 1) :
    (x < p.currentIndex → ∃ i f, c.bun.lookup id x = some (i, f) ∧ c.bundle id i = some f ∧ f.fromIndex ≤ x ∧
      x < f.toIndex ∧ ∀ j g, c.bundle id j = some g → g.fromIndex ≤ x → x < g.toIndex → j = i) ∧
    (p.currentIndex ≤ x → c.bun.lookup id x = none) := by
  have hc := h.good.bun.chained id p hp
  have hI := h.good.bun.indexed id hs
  have hf := Bundles.C30_found hc hs hI x hx
  refine ⟨fun hlt => ?_, fun hle => ?_⟩
  · obtain ⟨⟨i, f⟩, hr⟩ := hf.2 hlt
    obtain ⟨h1, h2, h3⟩ := (C30_exact gov c h id hs x hx i f).1 hr
    exact ⟨i, f, hr, h1, h2, h3, fun j g hg k1 k2 => (Bundles.C30_unique hc hs hg h1 ⟨k1, k2⟩ ⟨h2, h3⟩).1⟩
  · cases hl : c.bun.lookup id x with
    | none => rfl
    | some r => have := hf.1 ⟨r, hl⟩; omega

/-- the condition of C30 stays true as long as the data index of the pool stays below `2^64` -/
theorem C30_small (gov : Addr) (c : Chain) (h : Reachable gov c) (op : Op) (id : Nat) (hs : c.Small id)
    (hp : ∀ p, c.pool.pools.get? id = some p → p.currentIndex + (c.proposal id).bundleSize < 2 ^ 64) :
    (c.step gov op).Small id := by
  intro i f hf
  unfold bundle at hf
  rcases bundles_step h op id with s | ⟨pl, v, hpl, hz⟩
  · rw [s.fin] at hf; exact hs i f hf
  · rw [hz.fin] at hf
    split at hf
    · injection hf with hf
      subst hf
      have h1 := hp pl hpl
      have h2 := ((h.good.bun.prop id).full hz.bundle).1
      show pl.currentIndex < (pl.currentIndex + (c.proposal id).bundleSize) % 2 ^ 64 ∧
        (pl.currentIndex + (c.proposal id).bundleSize) % 2 ^ 64 < 2 ^ 64
      rw [Nat.mod_eq_of_lt h1]
      omega
    · exact hs i f hf

/-! ## concrete cases -/

-- C23: the submission of the second bundle finalizes the first
example : Sample.later.bundle 0 0 = none ∧ (Sample.second.bundle 0 0).isSome = true ∧
    (Sample.second.pool.pools.get? 0).map (fun p => (p.totalBundles, p.currentIndex, p.currentKey, p.currentSummary)) =
      some (1, 10, 6, 7) := by decide +kernel
example : Later Sample.gov Sample.later Sample.second := by
  have : Later Sample.gov Sample.later (Sample.later.step Sample.gov (.submit (Sample.bundle 1 8 10))) :=
    .step _ .refl ⟨Delegation.calm_of_dustOk (by decide +kernel), by decide +kernel⟩
  exact this

-- C30: indices 0 to 9 are in bundle 0, index 10 is not finalized yet
example : (Sample.second.bun.lookup 0 0).map (·.1) = some 0 ∧ (Sample.second.bun.lookup 0 9).map (·.1) = some 0 ∧
    Sample.second.bun.lookup 0 10 = none := by decide +kernel

theorem _root_.Verif.Chain.Sample.small_second : Sample.second.Small 0 := by
  suffices h : (Sample.later.step Sample.gov (.submit (Sample.bundle 1 8 10))).Small 0 from h
  refine C30_small Sample.gov Sample.later Sample.reach_later (.submit (Sample.bundle 1 8 10)) 0 (fun i f hf => ?_)
    (fun p hp => ?_)
  · have hp : ∃ p, Sample.later.pool.pools.get? 0 = some p ∧ p.totalBundles = 0 := by
      have e : (Sample.later.pool.pools.get? 0).map (·.totalBundles) = some 0 := by decide +kernel
      cases hq : Sample.later.pool.pools.get? 0 with
      | none => rw [hq] at e; cases e
      | some p => rw [hq] at e; exact ⟨p, rfl, by simpa using e⟩
    obtain ⟨p, hp, h0⟩ := hp
    have := ((C23_chain Sample.gov Sample.later Sample.reach_later 0 p hp).1 i).1 ⟨f, hf⟩
    omega
  · have e : (Sample.later.pool.pools.get? 0).map (fun p => decide (p.currentIndex + (Sample.later.proposal 0).bundleSize < 2 ^ 64))
        = some true := by decide +kernel
    rw [hp] at e
    simpa using e

end Chain
end Verif.Chain
