import Verif.Funders.Properties
import Verif.Lib.Genesis

/-!
# x/funders genesis: validation (C67) and export/import (C55, C68)

Models /repo/x/funders/genesis.go and /repo/x/funders/types/genesis.go.
-/

namespace Verif.Funders
open Verif
open Spec

/-- `GenesisState` -/
structure Genesis where
  params : Params
  funders : List Addr
  fundings : List Funding
  /-- `FundingStateList`, by pool -/
  states : List (Nat × List Addr)

/-- types/genesis.go:15-46 duplicate checks: `for x in l { if seen[x] return error }`; the loop body
never adds to `seen`. -/
def dupCheck {K : Type} [DecidableEq K] (seen l : List K) : Bool := l.all (fun x => decide (x ∉ seen))

/-- types/params.go:44-77 `Validate`; numbers of the model are never negative, denoms never empty -/
def Params.validate (p : Params) : Bool := p.whitelist.any (fun e => e.denom == kyve)

/-- types/genesis.go:15-46 `Validate` -/
def Genesis.validate (g : Genesis) : Bool :=
  dupCheck [] g.funders &&
  (dupCheck [] (g.fundings.map (fun f => (f.funder, f.pool))) && dupCheck [] (g.fundings.map (fun f => (f.pool, f.funder)))) &&
  dupCheck [] (g.states.map (·.1)) && g.params.validate

/-- genesis.go:25-34 `ExportGenesis` -/
def exportGenesis (s : State) : Genesis := ⟨s.params, s.funders.keys, s.fundings.vals, s.active.toList⟩

/-- genesis.go:10-22 `InitGenesis` into an empty store -/
def initGenesis (g : Genesis) : State where
  params := g.params
  funders := g.funders.foldl (fun m a => m.set a ()) ∅
  fundings := g.fundings.foldl (fun m f => m.set (f.funder, f.pool) f) ∅
  active := g.states.foldl (fun m e => m.set e.1 e.2) ∅
  gifts := Coins.zero

/-! ## C67 -/

/-- C67 is false of x/funders: validation looks at nothing but the parameters. -/
theorem C67_funders (g : Genesis) : g.validate = true ↔ ∃ e ∈ g.params.whitelist, e.denom = kyve := by
  simp [Genesis.validate, dupCheck, Params.validate]

/-- C67 is false of x/funders: a genesis with every entry twice is accepted. -/
theorem C67_false_funders : ∃ g : Genesis, g.validate = true ∧ ¬ g.funders.Nodup ∧
    ¬ (g.fundings.map (fun f => (f.funder, f.pool))).Nodup ∧ ¬ (g.states.map (·.1)).Nodup :=
  ⟨⟨.default, [1, 1], [⟨1, 0, Coins.zero, Coins.zero, Coins.zero⟩, ⟨1, 0, Coins.single kyve 5, Coins.zero, Coins.zero⟩],
    [(0, []), (0, [1])]⟩, by decide +kernel⟩

/-! ## C55, C68 -/

/-- C55 (funders): the exported state imports to the same state (`gifts` is a history variable of the model). -/
theorem C55_funders (gov : Addr) (w : World) (h : Reachable gov w) :
    initGenesis (exportGenesis w.s) = { w.s with gifts := Coins.zero } := by
  have hI := Spec.Reachable.inv h
  unfold initGenesis exportGenesis
  have h1 : w.s.funders.keys.foldl (fun m a => m.set a ()) ∅ = w.s.funders := by
    have e : ∀ (l : List (Addr × Unit)) (m : Map Addr Unit),
        (l.map (·.1)).foldl (fun m a => m.set a ()) m = l.foldl (fun m p => m.set p.1 p.2) m := by
      intro l
      induction l with
      | nil => intro m; rfl
      | cons p l ih => intro m; exact ih _
    exact (e w.s.funders.toList ∅).trans (Map.ofList_toList _)
  have h2 : w.s.fundings.vals.foldl (fun m f => m.set (f.funder, f.pool) f) ∅ = w.s.fundings := by
    have e : ∀ (l : List ((Addr × Nat) × Funding)) (m : Map (Addr × Nat) Funding),
        (∀ p ∈ l, (p.2.funder, p.2.pool) = p.1) →
        (l.map (·.2)).foldl (fun m f => m.set (f.funder, f.pool) f) m = l.foldl (fun m p => m.set p.1 p.2) m := by
      intro l
      induction l with
      | nil => intro m _; rfl
      | cons p l ih =>
        intro m hl
        rw [List.map_cons, List.foldl_cons, List.foldl_cons, hl p (by simp)]
        exact ih _ (fun q hq => hl q (by simp [hq]))
    exact (e w.s.fundings.toList ∅ (fun p hp => hI.key p.1 p.2 ((Map.mem_iff _ _ _).1 hp))).trans (Map.ofList_toList _)
  have h3 : w.s.active.toList.foldl (fun m e => m.set e.1 e.2) ∅ = w.s.active := Map.ofList_toList _
  rw [h1, h2, h3]

/-- C68 (funders): the exported genesis passes validation exactly if the native coin is whitelisted (see C66). -/
theorem C68_funders (w : World) : (exportGenesis w.s).validate = true ↔ whitelisted w kyve := by
  rw [C67_funders]; rfl

example : (exportGenesis exWorld.s).fundings.length = 2 ∧ (exportGenesis exWorld.s).validate = true := by decide +kernel

end Verif.Funders
