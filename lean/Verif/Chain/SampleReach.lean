import Verif.Chain.Sample
import Verif.Chain.Invariant
import Verif.Delegation.Examples

/-!
# The sample histories are reachable
-/

set_option linter.dupNamespace false
namespace Verif.Chain
open Verif
open Chain

namespace Sample

/-- the side conditions of `Reachable` along a run, as a test -/
def okRun (c : Chain) : List Op → Bool
  | [] => true
  | op :: l => Delegation.dustOk (c.step gov op).del.trace && decide (Delegation.totalAll (c.step gov op).del < 2 ^ 63)
      && okRun (c.step gov op) l

theorem run_reachable {c : Chain} (h : Reachable gov c) (l : List Op) (ho : okRun c l = true) :
    Reachable gov (run c l) := by
  induction l generalizing c with
  | nil => exact h
  | cons op l ih =>
    simp only [okRun, Bool.and_eq_true, decide_eq_true_eq] at ho
    exact ih (.step op h ⟨Delegation.calm_of_dustOk ho.1.1, ho.1.2⟩) ho.2

theorem reach_start : Reachable gov start := .init _ _ _ _ _ (by decide) (by decide)
theorem reach_ready : Reachable gov ready := run_reachable reach_start _ (by decide +kernel)
theorem reach_proposed : Reachable gov proposed := run_reachable reach_ready _ (by decide +kernel)
theorem reach_voted : Reachable gov voted := run_reachable reach_proposed _ (by decide +kernel)
theorem reach_later : Reachable gov later := run_reachable reach_voted _ (by decide +kernel)
theorem reach_second : Reachable gov second := run_reachable reach_later _ (by decide +kernel)

end Sample
end Verif.Chain
