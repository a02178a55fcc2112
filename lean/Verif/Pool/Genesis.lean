import Verif.Pool.Properties
import Verif.Lib.Genesis

/-!
# x/pool genesis: validation (C51) and export/import (C55, C68)

Models /repo/x/pool/genesis.go and /repo/x/pool/types/genesis.go.
-/

namespace Verif.Pool
open Verif

/-- `GenesisState` -/
structure Genesis where
  params : Params
  pools : List Pool
  count : Nat

/-- types/genesis.go:16-33 `Validate` -/
def Genesis.validate (g : Genesis) : Bool :=
  dupFree [] (g.pools.map (·.id)) && g.pools.all (fun p => decide (p.id < g.count)) && g.params.validate

/-- genesis.go:21-29 `ExportGenesis` -/
def exportGenesis (s : State) : Genesis := ⟨s.params, s.pools.vals, s.count⟩

/-- genesis.go:10-18 `InitGenesis` into an empty store -/
def initGenesis (g : Genesis) : State := ⟨g.pools.foldl (fun m p => m.set p.id p) ∅, g.count, g.params⟩

/-- C51 (pool): two pools with the same id, an id that will be given away again and percentages above one are refused. -/
theorem C51_pool (g : Genesis) (h : g.validate = true) :
    (g.pools.map (·.id)).Nodup ∧ (∀ p ∈ g.pools, p.id < g.count) ∧ g.params.validate = true := by
  simpa only [Genesis.validate, Bool.and_eq_true, dupFree_nil, List.all_eq_true, decide_eq_true_eq, and_assoc] using h

theorem params_validate_iff (p : Params) : p.validate = true ↔ (p.protocolInflationShare ≤ Dec.one ∧
    p.poolInflationPayoutRate ≤ Dec.one) ∧ p.maxVotingPowerPerPool ≤ Dec.one := by
  simp only [Params.validate, Bool.and_eq_true, decide_eq_true_eq]

theorem getD_le {o : Option Dec} {a b m : Dec} (h1 : o.getD a ≤ m) (h2 : b ≤ m) : o.getD b ≤ m := by
  cases o with
  | none => exact h2
  | some x => exact h1

/-- the parameters are percentages -/
def ParamsOk (s : State) : Prop := s.params.validate = true

theorem ParamsOk.step {gov : Addr} {s : State} (h : ParamsOk s) (now : Nat) (op : Op) : ParamsOk (step gov s now op) := by
  have keep : ∀ x : Except String State, (∀ s', x = .ok s' → s'.params = s.params) → ParamsOk (orElse s x) := by
    intro x hx
    cases x with
    | error e => exact h
    | ok s' => show s'.params.validate = true; rw [hx s' rfl]; exact h
  cases op with
  | create m =>
    refine keep _ ?_
    intro s' e
    unfold create at e
    repeat' split at e
    all_goals first | (cases e; done) | (cases e; rfl)
  | update a id u =>
    refine keep _ ?_
    intro s' e
    unfold update at e
    repeat' split at e
    all_goals first | (cases e; done) | (cases e; rfl)
  | enable a id =>
    refine keep _ ?_
    intro s' e
    unfold enable at e
    repeat' split at e
    all_goals first | (cases e; done) | (cases e; rfl)
  | disable a id =>
    refine keep _ ?_
    intro s' e
    unfold disable at e
    repeat' split at e
    all_goals first | (cases e; done) | (cases e; rfl)
  | schedule m =>
    refine keep _ ?_
    intro s' e
    unfold schedule at e
    repeat' split at e
    all_goals first | (cases e; done) | (cases e; rfl)
  | cancel a r =>
    refine keep _ ?_
    intro s' e
    unfold cancel at e
    repeat' split at e
    all_goals first | (cases e; done) | (cases e; rfl)
  | updateParams a y =>
    simp only [Pool.step, Pool.updateParams]
    split
    · exact h
    · rename_i hv
      split
      · exact h
      · show (y.apply s.params).validate = true
        unfold ParamsOk at h
        simp only [Bool.not_eq_true', Bool.not_eq_false] at hv
        rw [params_validate_iff] at hv h ⊢
        exact ⟨⟨getD_le hv.1.1 h.1.1, getD_le hv.1.2 h.1.2⟩, getD_le hv.2 h.2⟩
  | bundleFinalized id i k sm =>
    simp only [Pool.step, incrementBundleInformation]
    split <;> exact h
  | endBlock => exact h

theorem Spec.Reachable.paramsOk {gov : Addr} {s : State} (h : Spec.Reachable gov s) : ParamsOk s := by
  obtain ⟨ops, rfl⟩ := h
  induction ops using List.reverseRecOn with
  | nil => show Params.default.validate = true; decide +kernel
  | append_singleton ops o ih =>
    unfold run
    rw [List.foldl_append]
    exact ih.step o.1 o.2

theorem vals_foldl {s : State} (h : Inv s) : s.pools.vals.foldl (fun m p => m.set p.id p) ∅ = s.pools := by
  have e : ∀ (l : List (Nat × Pool)) (m : Map Nat Pool), (∀ p ∈ l, p.2.id = p.1) →
      (l.map (·.2)).foldl (fun m a => m.set a.id a) m = l.foldl (fun m p => m.set p.1 p.2) m := by
    intro l
    induction l with
    | nil => intro m _; rfl
    | cons p l ih =>
      intro m hl
      rw [List.map_cons, List.foldl_cons, List.foldl_cons, hl p (by simp)]
      exact ih _ (fun q hq => hl q (by simp [hq]))
  have h1 := e s.pools.toList ∅ (fun p hp => h.key p.1 p.2 ((Map.mem_iff _ _ _).1 hp))
  exact h1.trans (Map.ofList_toList _)

/-- C55 (pool): the exported state imports to the same state. -/
theorem C55_pool (gov : Addr) (s : State) (h : Spec.Reachable gov s) : initGenesis (exportGenesis s) = s := by
  unfold initGenesis exportGenesis
  rw [vals_foldl (Spec.Reachable.inv h)]

/-- C68 (pool): the exported genesis passes validation. -/
theorem C68_pool (gov : Addr) (s : State) (h : Spec.Reachable gov s) : (exportGenesis s).validate = true := by
  have hI := Spec.Reachable.inv h
  have hp := Spec.Reachable.paramsOk h
  have e : s.pools.vals.map (·.id) = s.pools.keys := by
    show (s.pools.toList.map (·.2)).map (·.id) = s.pools.toList.map (·.1)
    rw [List.map_map]
    exact List.map_congr_left (fun p hp => hI.key p.1 p.2 ((Map.mem_iff _ _ _).1 hp))
  simp only [Genesis.validate, exportGenesis, Bool.and_eq_true, dupFree_nil, List.all_eq_true]
  refine ⟨⟨?_, ?_⟩, hp⟩
  · rw [e]; exact s.pools.keys_nodup
  · intro a ha
    have ha : a ∈ s.pools.toList.map (·.2) := ha
    obtain ⟨⟨k, a'⟩, hq, rfl⟩ := List.mem_map.1 ha
    have hg := (Map.mem_iff _ _ _).1 hq
    refine decide_eq_true ?_
    show a'.id < s.count
    rw [hI.key k a' hg]
    exact (hI.dense k).1 ⟨a', hg⟩

/-- a non-trivial case: two pools; and two pools with one id are refused -/
example : ((exportGenesis (run 5 State.init exOps)).pools.map (·.id)) = [0, 1] ∧
    (⟨.default, [{ exCreate.pool 1 with id := 0 }, { exCreate.pool 2 with id := 0 }], 2⟩ : Genesis).validate = false := by
  decide +kernel

end Verif.Pool
