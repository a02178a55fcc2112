import Verif.Bundles.Lookup
import Verif.Lib.Genesis
import Mathlib.Data.List.Sort

/-!
# x/bundles genesis: validation (C51) and export/import (C55, C68)

Models /repo/x/bundles/genesis.go and /repo/x/bundles/types/genesis.go.  Not modelled: the bundle version map, which is
exported and imported as it is.
-/

namespace Verif.Bundles
open Verif

/-- `GenesisState`; every entry with its store key -/
structure Genesis where
  params : Params
  /-- `BundleProposalList`, by pool -/
  proposals : List (Nat × Proposal)
  /-- `FinalizedBundleList`, by pool and id -/
  finalized : List ((Nat × Nat) × FBundle)
  /-- `RoundRobinProgressList`, by pool -/
  progress : List (Nat × List (Addr × Int))

/-- types/genesis.go:39-51, the loop over the finalized bundles: `seen` are the keys met so far, `next` the id expected
next for each pool (`previousIndexPerPool`) -/
def checkFinalized (next : Nat → Nat) (seen : List (Nat × Nat)) : List (Nat × Nat) → Bool
  | [] => true
  | k :: l =>
    if k ∈ seen then false
    else if next k.1 = k.2 then checkFinalized (fun p => if p = k.1 then k.2 + 1 else next p) (k :: seen) l
    else false

/-- types/genesis.go:35-37: the finalized bundles sorted by id.  `sort.Slice` does not fix the order of bundles with
the same id; `checkFinalized_iff` shows that it does not matter. -/
def Genesis.sorted (g : Genesis) : List (Nat × Nat) :=
  (g.finalized.map (·.1)).mergeSort (fun a b => decide (a.2 ≤ b.2))

/-- types/genesis.go:17-54 `Validate` -/
def Genesis.validate (g : Genesis) : Bool :=
  dupFree [] (g.proposals.map (·.1)) && checkFinalized (fun _ => 0) [] g.sorted && g.params.validate

/-- genesis.go:31-46 `ExportGenesis` -/
def exportGenesis (s : State) : Genesis := ⟨s.params, s.proposals.toList, s.finalized.toList, s.progress.toList⟩

/-- genesis.go:11-28 `InitGenesis` into an empty store -/
def initGenesis (g : Genesis) : State where
  params := g.params
  proposals := g.proposals.foldl (fun m e => m.set e.1 e.2) ∅
  finalized := g.finalized.foldl (fun m e => m.set e.1 e.2) ∅
  index := g.finalized.foldl (fun m e => m.set (e.1.1, e.2.fromIndex) e.1.2) ∅
  progress := g.progress.foldl (fun m e => m.set e.1 e.2) ∅

/-! ## C51 -/

/-- the ids a list has for a pool, in order -/
def idsOf (l : List (Nat × Nat)) (p : Nat) : List Nat := (l.filter (fun k => decide (k.1 = p))).map (·.2)

theorem checkFinalized_iff (next : Nat → Nat) (seen l : List (Nat × Nat)) :
    checkFinalized next seen l = true ↔
      (∀ p, idsOf l p = List.range' (next p) (idsOf l p).length) ∧ ∀ k ∈ l, k ∉ seen := by
  induction l generalizing next seen with
  | nil => simp [checkFinalized, idsOf]
  | cons k l ih =>
    have e1 : idsOf (k :: l) k.1 = k.2 :: idsOf l k.1 := by simp [idsOf]
    have e2 : ∀ p, p ≠ k.1 → idsOf (k :: l) p = idsOf l p := by
      intro p hp
      unfold idsOf
      rw [List.filter_cons_of_neg (by simpa using fun e => hp e.symm)]
    unfold checkFinalized
    by_cases hs : k ∈ seen
    · rw [if_pos hs]
      exact ⟨(fun h => by cases h), fun h => absurd hs (h.2 k (List.mem_cons_self ..))⟩
    rw [if_neg hs]
    by_cases hn : next k.1 = k.2
    · rw [if_pos hn, ih]
      constructor
      · rintro ⟨h1, h2⟩
        refine ⟨fun p => ?_, ?_⟩
        · by_cases hp : p = k.1
          · subst hp
            rw [e1, List.length_cons, List.range'_succ, hn]
            have := h1 k.1
            simp only [if_true] at this
            rw [← this]
          · rw [e2 p hp]
            have := h1 p
            simp only [if_neg hp] at this
            exact this
        · intro x hx
          rcases List.mem_cons.1 hx with rfl | hx
          · exact hs
          · exact fun hc => h2 x hx (List.mem_cons_of_mem _ hc)
      · rintro ⟨h1, h2⟩
        have h3 : idsOf l k.1 = List.range' (k.2 + 1) (idsOf l k.1).length := by
          have := h1 k.1
          rw [e1, List.length_cons, List.range'_succ, hn] at this
          exact (List.cons.inj this).2
        refine ⟨fun p => ?_, ?_⟩
        · by_cases hp : p = k.1
          · subst hp
            simp only [if_true]
            exact h3
          · simp only [if_neg hp]
            have := h1 p
            rw [e2 p hp] at this
            exact this
        · intro x hx hc
          rcases List.mem_cons.1 hc with rfl | hc
          · have hm : x.2 ∈ idsOf l x.1 := by
              unfold idsOf
              exact List.mem_map.2 ⟨x, List.mem_filter.2 ⟨hx, by simp⟩, rfl⟩
            rw [h3, List.mem_range'_1] at hm
            omega
          · exact h2 x (List.mem_cons_of_mem _ hx) hc
    · rw [if_neg hn]
      refine ⟨(fun h => by cases h), fun h => ?_⟩
      have := h.1 k.1
      rw [e1, List.length_cons, List.range'_succ] at this
      exact absurd (List.cons.inj this).1.symm hn

theorem sorted_perm (g : Genesis) : g.sorted.Perm (g.finalized.map (·.1)) := List.mergeSort_perm _ _

/-- C51 (bundles): two proposals for one pool, two finalized bundles with the same id in a pool, and a pool with a gap
in its bundle ids are refused. -/
theorem C51_bundles (g : Genesis) (h : g.validate = true) :
    (g.proposals.map (·.1)).Nodup ∧ (g.finalized.map (·.1)).Nodup ∧
    (∀ pool id i, (pool, id) ∈ g.finalized.map (·.1) → i < id → (pool, i) ∈ g.finalized.map (·.1)) ∧
    g.params.validate = true := by
  simp only [Genesis.validate, Bool.and_eq_true, dupFree_nil, checkFinalized_iff] at h
  obtain ⟨⟨h1, h2, -⟩, h3⟩ := h
  refine ⟨h1, ?_, ?_, h3⟩
  · rw [← (sorted_perm g).nodup_iff, List.nodup_iff_sublist]
    intro k hk
    have h4 : [k.2, k.2].Sublist (idsOf g.sorted k.1) := by
      have := (hk.filter (fun x => decide (x.1 = k.1))).map Prod.snd
      simpa [idsOf] using this
    rw [h2 k.1] at h4
    have := List.nodup_range' (s := 0) (n := (idsOf g.sorted k.1).length) (step := 1)
    exact List.nodup_iff_sublist.1 this k.2 h4
  · intro pool id i hm hi
    rw [← (sorted_perm g).mem_iff] at hm ⊢
    have h4 : id ∈ idsOf g.sorted pool := List.mem_map.2 ⟨(pool, id), List.mem_filter.2 ⟨hm, by simp⟩, rfl⟩
    have h5 : i ∈ idsOf g.sorted pool := by
      rw [h2 pool, List.mem_range'_1] at h4 ⊢
      omega
    obtain ⟨⟨p', i'⟩, h6, h7⟩ := List.mem_map.1 h5
    have h8 := List.mem_filter.1 h6
    have h9 : p' = pool := by simpa using h8.2
    have h10 : i' = i := h7
    rw [h9, h10] at h8
    exact h8.1

/-- C67 is false of x/bundles: two round-robin states for one pool are accepted. -/
theorem C67_false_bundles : ∃ g : Genesis, g.validate = true ∧ ¬ (g.progress.map (·.1)).Nodup :=
  ⟨⟨.default, [], [], [(0, []), (0, [(1, 5)])]⟩, by decide +kernel⟩

/-! ## C55, C68 -/

/-- C55 (bundles): a chain started from the export of any state has the same state as a node restarted on it. -/
theorem C55_bundles_restart (s : State) : initGenesis (exportGenesis s) = s.initMemStore := by
  unfold initGenesis exportGenesis State.initMemStore
  have h1 := Map.ofList_toList s.proposals
  have h2 := Map.ofList_toList s.finalized
  have h3 := Map.ofList_toList s.progress
  unfold Map.ofList at h1 h2 h3
  simp only [h1, h2, h3]

/-- C55 (bundles): and, unless the data indices overflowed, the state it had. -/
theorem C55_bundles (s : State) (hc : ∀ pool, ∃ n last, Chained s pool n last) (ho : ∀ pool, NoOverflow s pool)
    (hi : ∀ pool, Indexed s pool) : initGenesis (exportGenesis s) = s := by
  rw [C55_bundles_restart]
  have e : s.initMemStore.index = s.index := by
    apply Map.ext
    rintro ⟨pool, x⟩
    obtain ⟨n, last, h⟩ := hc pool
    have h1 := indexed_initMemStore h (ho pool)
    have h2 := hi pool
    cases hg : s.index.get? (pool, x) with
    | some id => exact (h1 x id).2 ((h2 x id).1 hg)
    | none =>
      cases hg' : s.initMemStore.index.get? (pool, x) with
      | none => rfl
      | some id => rw [(h2 x id).2 ((h1 x id).1 hg')] at hg; cases hg
  show { s with index := s.initMemStore.index } = s
  rw [e]

/-- C68 (bundles): the export passes validation. -/
theorem C68_bundles (s : State) (hc : ∀ pool, ∃ n last, Chained s pool n last) (hp : s.params.validate = true) :
    (exportGenesis s).validate = true := by
  simp only [Genesis.validate, Bool.and_eq_true, dupFree_nil, checkFinalized_iff]
  refine ⟨⟨s.proposals.keys_nodup, ?_, fun _ _ => List.not_mem_nil⟩, hp⟩
  intro pool
  obtain ⟨n, last, h⟩ := hc pool
  generalize hl : (exportGenesis s).sorted = l
  have hperm : l.Perm s.finalized.keys := by rw [← hl]; exact sorted_perm _
  have hnd : l.Nodup := hperm.nodup_iff.2 s.finalized.keys_nodup
  have hsort : l.Pairwise (fun a b => a.2 ≤ b.2) := by
    rw [← hl]
    have := List.pairwise_mergeSort (le := fun a b : Nat × Nat => decide (a.2 ≤ b.2))
      (fun a b c h1 h2 => by simp at h1 h2 ⊢; omega) (fun a b => by simp; omega) ((exportGenesis s).finalized.map (·.1))
    exact this.imp (fun h => by simpa using h)
  have hmem : ∀ i, i ∈ idsOf l pool ↔ i < n := by
    intro i
    rw [← h.dense i, ← Map.mem_keys_iff, ← hperm.mem_iff]
    unfold idsOf
    rw [List.mem_map]
    constructor
    · rintro ⟨⟨p', i'⟩, h1, h2⟩
      have h3 := List.mem_filter.1 h1
      have h4 : p' = pool := by simpa using h3.2
      have h5 : i' = i := h2
      rw [h4, h5] at h3
      exact h3.1
    · intro h1
      exact ⟨(pool, i), List.mem_filter.2 ⟨h1, by simp⟩, rfl⟩
  have hlt : (idsOf l pool).Pairwise (· < ·) := by
    unfold idsOf
    rw [List.pairwise_map]
    have h1 : (l.filter (fun k => decide (k.1 = pool))).Pairwise (fun a b => a ≠ b ∧ a.2 ≤ b.2) :=
      (List.Pairwise.and hnd hsort).filter _
    refine List.Pairwise.imp_of_mem ?_ h1
    rintro ⟨a1, a2⟩ ⟨b1, b2⟩ ha hb ⟨h2, h3⟩
    have h4 : a1 = pool := by simpa using (List.mem_filter.1 ha).2
    have h5 : b1 = pool := by simpa using (List.mem_filter.1 hb).2
    have h6 : a2 ≤ b2 := h3
    have h7 : a2 ≠ b2 := fun e => h2 (by rw [h4, h5, e])
    show a2 < b2
    omega
  have e : idsOf l pool = List.range n := by
    refine List.Pairwise.eq_of_mem_iff hlt List.pairwise_lt_range (fun i => ?_)
    rw [hmem, List.mem_range]
  rw [e, List.length_range, List.range_eq_range']

end Verif.Bundles
