import Verif.App.Properties
import Verif.App.Sample

/-!
# C95, C96: the height, and transfers
-/

set_option linter.dupNamespace false

namespace Verif.App
open Verif
namespace App

/-- Specification: is it the begin of a block? -/
def Op.isBegin : Op → Bool
  | .beginBlock _ _ _ => true
  | _ => false

theorem proposal_height (gov : Addr) (a : App) (ms : List Msg) : (a.proposal gov ms).height = a.height := by
  unfold App.proposal
  split
  · rfl
  · split
    · rfl
    · rename_i a' h
      exact (execAll_params h).1

theorem endBlock_height (a : App) : a.endBlock.height = a.height := by
  unfold App.endBlock; split <;> rfl

/-- C95: the height grows by one with every begin block, and otherwise stays. -/
theorem C95_height (gov : Addr) (a : App) (hc : a.chain.crashed = false) (op : Op) :
    (a.step gov op).height = a.height + if op.isBegin then 1 else 0 := by
  rw [step_up hc]
  cases op with
  | tx t => exact runTx_params.1
  | proposal ms => exact proposal_height gov a ms
  | beginBlock dt p r => rfl
  | endBlock => exact endBlock_height a
  | outside b s g gd gs gf gt => rfl

/-- C96: a user's transfer succeeds exactly if it moves something, the user has it, and the receiver is no module account.
(Nobody can send coins to the modules' accounts; the modules rely on that.) -/
theorem C96_transfer (gov : Addr) (a : App) (src : Addr) (dst : Acct) (c : Coins) :
    (∃ a', a.exec gov (.send src dst c) = .ok a') ↔
      ((∀ m, dst ≠ .mod m) ∧ (∃ d, c.amt d ≠ 0) ∧ ∀ d, c.amt d ≤ (a.chain.b (.user src)).amt d) := by
  have hz : c.isZero = true ↔ ∀ d, c.amt d = 0 := Coins.isZero_iff
  have hle : c.le (a.chain.b (.user src)) = true ↔ ∀ d, c.amt d ≤ (a.chain.b (.user src)).amt d := Coins.le_iff
  have hb : blocked dst = true ↔ ∃ m, dst = .mod m := by cases dst <;> simp [blocked]
  show (∃ a', (if blocked dst || c.isZero then Except.error "not allowed"
    else (a.chain.b.send (.user src) dst c).map (fun b => ({ a with chain := setBank a.chain b } : App))) = .ok a') ↔ _
  by_cases h1 : blocked dst = true
  · rw [h1, Bool.true_or, if_pos rfl]
    obtain ⟨m, hm⟩ := hb.1 h1
    exact ⟨fun ⟨_, h⟩ => (by cases h), fun h => absurd hm (h.1 m)⟩
  · by_cases h2 : c.isZero = true
    · rw [h2, Bool.or_true, if_pos rfl]
      exact ⟨fun ⟨_, h⟩ => (by cases h), fun ⟨_, ⟨d, hd⟩, _⟩ => absurd (hz.1 h2 d) hd⟩
    · rw [if_neg (by simp [h1, h2])]
      have h1' : ∀ m, dst ≠ .mod m := fun m hm => h1 (hb.2 ⟨m, hm⟩)
      have h2' : ∃ d, c.amt d ≠ 0 := by
        by_contra hn; push Not at hn; exact h2 (hz.2 hn)
      unfold Bank.send
      by_cases h3 : c.le (a.chain.b (.user src)) = true
      · rw [if_pos h3]
        exact ⟨fun _ => ⟨h1', h2', hle.1 h3⟩, fun _ => ⟨_, rfl⟩⟩
      · rw [if_neg h3]
        exact ⟨fun ⟨_, h⟩ => (by cases h), fun h => absurd (hle.2 h.2.2) h3⟩

end App

namespace Sample
open App

/-- a transfer to a user succeeds, one to x/team's account does not -/
example : (∃ a', start.exec 99 (.send 1 (.user 2) (Coins.single kyve 1)) = .ok a') ∧
    ¬ ∃ a', start.exec 99 (.send 1 (.mod .team) (Coins.single kyve 1)) = .ok a' :=
  ⟨(C96_transfer 99 start 1 (.user 2) _).2 ⟨fun _ h => (by cases h), ⟨kyve, by decide⟩, Coins.le_iff.1 (by decide +kernel)⟩,
   fun h => ((C96_transfer 99 start 1 (.mod .team) _).1 h).1 .team rfl⟩

example : (start.step 99 (.beginBlock 5 0 false)).height = start.height + 1 :=
  C95_height 99 start (by decide +kernel) (.beginBlock 5 0 false)

end Sample
end Verif.App
