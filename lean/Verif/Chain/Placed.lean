import Verif.Chain.Pools

/-!
# Members are in pools that exist
-/

set_option linter.dupNamespace false
namespace Verif.Chain
open Verif
namespace Chain

/-- every member of a pool is a member of an existing pool -/
def Placed (c : Chain) : Prop := ∀ id a, c.member id a = true → c.pool.pools.has id = true

theorem Placed.frame {c c' : Chain} (h : Placed c) (hp : ∀ id, c.pool.pools.has id = true → c'.pool.pools.has id = true)
    (hm : ∀ id a, c'.member id a = true → c.member id a = true) : Placed c' :=
  fun id a hx => hp id (h id a (hm id a hx))

theorem Placed.micro {gov : Addr} {c : Chain} (μ : Micro) (h : Placed c) (hM : Modules gov c) (ho : μ.Ok gov c) :
    Placed (μ.run gov c) := by
  have hSt := hM.st.inv
  cases μ with
  | del act => exact h.frame (fun _ x => x) (fun _ _ x => x)
  | st op =>
    refine h.frame (fun _ x => x) (fun id a hx => ?_)
    exact Stakers.step_member (gov := gov) (op := op) hSt (by rintro ans amt m rfl; exact ho.elim) hx
  | join m =>
    obtain ⟨ha, c', h'⟩ := ho
    have e : (Micro.join m).run gov c = c' := by
      show c.orElse (c.join m) = _
      rw [h']; rfl
    rw [e]
    obtain ⟨w, hw, rfl⟩ := join_eq h'
    obtain ⟨hans, -⟩ := Stakers.joinPool_ok hSt.mem ha hw
    obtain ⟨s1, he, hv⟩ := Stakers.join_vals hSt.mem ha hw
    intro id a hx
    show c.pool.pools.has id = true
    by_cases hne : id = m.pool
    · subst hne
      unfold poolAnswer at hans
      rw [Stakers.has_iff]
      cases hg : c.pool.pools.get? m.pool with
      | none => rw [hg] at hans; cases hans
      | some p => exact ⟨p, rfl⟩
    · refine h id a ?_
      have hx : (Stakers.noteGift m c.sw w).s.vals.has (id, a) = true := hx
      have e2 : (Stakers.noteGift m c.sw w).s.vals = w.s.vals := by unfold Stakers.noteGift; split <;> rfl
      rw [e2, hv, Stakers.has_set] at hx
      have h2 : s1.vals.has (id, a) = true := by
        rcases Bool.or_eq_true _ _ ▸ hx with h3 | h3
        · simp only [decide_eq_true_eq, Prod.mk.injEq] at h3
          exact absurd h3.1 hne
        · exact h3
      rcases Stakers.ensureFreeSlot_ok hSt.mem ha he with ⟨-, rfl⟩ | ⟨-, low, -, -, -, rfl⟩
      · exact h2
      · rw [Stakers.kick_vals, Stakers.has_del] at h2
        simp only [Bool.and_eq_true] at h2
        first | exact h2.1 | exact h2.2
  | fund op => exact h.frame (fun _ x => x) (fun _ _ x => x)
  | pool op => exact h.frame (fun id => (pool_op hM.pool c.now ho id).2) (fun _ _ x => x)
  | createPool m =>
    obtain ⟨c', h'⟩ := ho
    have e : (Micro.createPool m).run gov c = c' := by
      show c.orElse (Chain.createPool gov c m) = _
      rw [h']; rfl
    rw [e]
    obtain ⟨s, hs, rfl⟩ := createPool_eq h'
    obtain ⟨-, c0, -, c1, c2⟩ := Pool.C40_create_effect gov c.pool s hM.pool c.now m hs
    refine h.frame (fun id hx => ?_) (fun _ _ x => x)
    show s.pools.has id = true
    by_cases e : id = c.pool.count
    · subst e
      rw [Stakers.has_iff]
      exact ⟨_, c1⟩
    · rw [Stakers.has_iff] at hx ⊢
      obtain ⟨v, hv⟩ := hx
      exact ⟨v, (c2 id e).trans hv⟩
  | pay b hl => exact h.frame (fun _ x => x) (fun _ _ x => x)
  | blank id n => exact h.frame (fun _ x => x) (fun _ _ x => x)
  | next id n t => exact h.frame (fun _ x => x) (fun _ _ x => x)
  | cast id a v => exact h.frame (fun _ x => x) (fun _ _ x => x)
  | register m n =>
    obtain ⟨s, e⟩ := register_eq c m n
    show Placed (c.register m n)
    rw [e]; exact h.frame (fun _ x => x) (fun _ _ x => x)
  | progress id l => exact h.frame (fun _ x => x) (fun _ _ x => x)
  | finalize id v =>
    refine h.frame (fun j => finalize_has c id v j) (fun j a hx => ?_)
    have hst : (c.finalize id v).st = c.st := by obtain ⟨s, s', e⟩ := finalize_eq c id v; rw [e]
    have hx : (c.finalize id v).st.vals.has (j, a) = true := hx
    rw [hst] at hx; exact hx
  | bundlesParams a y =>
    obtain ⟨s, e⟩ := bundlesParams_eq gov c a y; rw [e]; exact h.frame (fun _ x => x) (fun _ _ x => x)
  | block dt r =>
    refine h.frame (fun _ x => x) (fun id a hx => ?_)
    exact Stakers.step_member (gov := gov) (op := .beginBlock dt) hSt (by rintro ans amt m ⟨⟩) hx
  | external b gd gs gf => exact h.frame (fun _ x => x) (fun _ _ x => x)
  | crash => exact h.frame (fun _ x => x) (fun _ _ x => x)

theorem Reachable.placed {gov : Addr} {c : Chain} (h : Reachable gov c) : Placed c := by
  induction h with
  | init dp sp bp b now hd hb => intro id a hx; cases hx
  | @step c0 op hr hs ih =>
    have hg := Reachable.good hr
    have := Steps.invariant (P := fun c => Modules gov c ∧ Placed c)
      (fun c μ hP ho hc => ⟨hP.1.micro μ ho hc, hP.2.micro μ hP.1 ho⟩) (step_steps hg.sound op) hs.calm ⟨hg.mods, ih⟩
    exact this.2

end Chain
end Verif.Chain
