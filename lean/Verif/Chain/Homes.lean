import Verif.Chain.Invariant
import Verif.Delegation.Homes

/-!
# Only registered stakers have delegators

A small step never removes a staker, and creates delegation data of registered stakers only.
-/

set_option linter.dupNamespace false
namespace Verif.Chain
open Verif
namespace Chain

/-- A staker stays registered. -/
theorem micro_has {gov : Addr} {c : Chain} (μ : Micro) (hM : Modules gov c) (ho : μ.Ok gov c) {a : Addr}
    (ha : c.st.stakers.has a = true) : (μ.run gov c).st.stakers.has a = true := by
  have hSt := hM.st.inv
  cases μ with
  | del act => exact ha
  | st op => exact Stakers.step_has (op := op) hSt (by cases op <;> trivial) ha
  | join m =>
    obtain ⟨hx, c', h'⟩ := ho
    have e : (Micro.join m).run gov c = c' := by
      show c.orElse (c.join m) = _
      rw [h']; rfl
    rw [e]
    obtain ⟨w, hw, rfl⟩ := join_eq h'
    show (Stakers.noteGift m c.sw w).s.stakers.has a = true
    rw [(Stakers.noteGift_same m c.sw w).1, (Stakers.join_same hSt.mem hx hw).1.stakers]
    exact ha
  | fund op => exact ha
  | pool op => exact ha
  | createPool m =>
    obtain ⟨c', h'⟩ := ho
    have e : (Micro.createPool m).run gov c = c' := by
      show c.orElse (Chain.createPool gov c m) = _
      rw [h']; rfl
    rw [e]
    obtain ⟨s, hs, rfl⟩ := createPool_eq h'
    exact ha
  | pay b hl => exact ha
  | blank id n => exact ha
  | next id n t => exact ha
  | cast id x v => exact ha
  | register m n =>
    obtain ⟨s, e⟩ := register_eq c m n
    show (c.register m n).st.stakers.has a = true
    rw [e]; exact ha
  | progress id l => exact ha
  | finalize id v =>
    obtain ⟨s, s', e⟩ := finalize_eq c id v
    show (c.finalize id v).st.stakers.has a = true
    rw [e]; exact ha
  | bundlesParams x y => obtain ⟨s, e⟩ := bundlesParams_eq gov c x y; rw [e]; exact ha
  | block dt r => exact Stakers.step_has (gov := gov) (op := .beginBlock dt) hSt trivial ha
  | external b gd gs gf => exact ha
  | crash => exact ha

/-- only registered stakers have delegation data -/
def Housed (c : Chain) : Prop := Delegation.Homed (fun a => c.st.stakers.has a = true) c.del

theorem Housed.of {c c' : Chain} (h : Housed c) (hd : c'.del.f1 = c.del.f1)
    (hs : ∀ a, c.st.stakers.has a = true → c'.st.stakers.has a = true) : Housed c' :=
  fun st hx => hs st (h st (by
    have : c'.del.at st = c.del.at st := by unfold Delegation.State.at; rw [hd]
    rw [← this]; exact hx))

theorem Housed.micro {gov : Addr} {c : Chain} (μ : Micro) (h : Housed c) (hM : Modules gov c) (ho : μ.Ok gov c) :
    Housed (μ.run gov c) := by
  have hs : ∀ a, c.st.stakers.has a = true → (μ.run gov c).st.stakers.has a = true := fun a => micro_has μ hM ho
  cases μ with
  | del act =>
    refine Delegation.Homed.step (y := ⟨c.dw, c.now⟩) (gov := gov) h hM.del ?_
    cases act with
    | delegate ex a st n => intro he; rw [← (show ex = c.st.stakers.has st from ho)]; exact he
    | redelegate ex ac m => intro he; rw [← (show ex = c.st.stakers.has m.dst from ho.1)]; exact he
    | _ => trivial
  | st op => exact h.of rfl hs
  | join m =>
    obtain ⟨-, c', h'⟩ := ho
    have e : (Micro.join m).run gov c = c' := by
      show c.orElse (c.join m) = _
      rw [h']; rfl
    rw [e] at hs ⊢
    obtain ⟨w, hw, rfl⟩ := join_eq h'
    exact h.of rfl hs
  | fund op => exact h.of rfl hs
  | pool op => exact h.of rfl hs
  | createPool m =>
    obtain ⟨c', h'⟩ := ho
    have e : (Micro.createPool m).run gov c = c' := by
      show c.orElse (Chain.createPool gov c m) = _
      rw [h']; rfl
    rw [e] at hs ⊢
    obtain ⟨s, hs', rfl⟩ := createPool_eq h'
    exact h.of rfl hs
  | pay b hl => exact h.of rfl hs
  | blank id n => exact h.of rfl hs
  | next id n t => exact h.of rfl hs
  | cast id x v => exact h.of rfl hs
  | register m n =>
    obtain ⟨s, e⟩ := register_eq c m n
    have e' : (Micro.register m n).run gov c = { c with bun := s } := e
    rw [e'] at hs ⊢
    exact h.of rfl hs
  | progress id l => exact h.of rfl hs
  | finalize id v =>
    obtain ⟨s, s', e⟩ := finalize_eq c id v
    have e' : (Micro.finalize id v).run gov c = _ := e
    rw [e'] at hs ⊢
    exact h.of rfl hs
  | bundlesParams x y =>
    obtain ⟨s, e⟩ := bundlesParams_eq gov c x y
    rw [e] at hs ⊢
    exact h.of rfl hs
  | block dt r =>
    have h1 : Delegation.Homed (fun a => c.st.stakers.has a = true)
        ((⟨c.dw, c.now⟩ : Delegation.Sys).step gov (.beginBlock dt r)).w.s :=
      Delegation.Homed.step (y := ⟨c.dw, c.now⟩) (gov := gov) h hM.del trivial
    exact fun st hx => hs st (h1 st hx)
  | external b gd gs gf => exact h.of rfl hs
  | crash => exact h.of rfl hs

theorem Reachable.housed {gov : Addr} {c : Chain} (h : Reachable gov c) : Housed c := by
  induction h with
  | init dp sp bp b now hd hb => intro st hx; cases hx
  | @step c0 op hr hs ih =>
    have hg := Reachable.good hr
    have := Steps.invariant (P := fun c => Modules gov c ∧ Housed c)
      (fun c μ hP ho hc => ⟨hP.1.micro μ ho hc, hP.2.micro μ hP.1 ho⟩) (step_steps hg.sound op) hs.calm ⟨hg.mods, ih⟩
    exact this.2

end Chain
end Verif.Chain
