import Verif.Chain.Money
import Verif.Chain.Voting

/-!
# The end block, pool by pool

The end block of x/bundles handles the pools one after the other.  Every state in between is as good as a state between
two operations.
-/

set_option linter.dupNamespace false
namespace Verif.Chain
open Verif
open Chain
open Verif.Bundles (Proposal VoteDist)

/-- what holds in every state of the end block -/
structure Well (gov : Addr) (c : Chain) : Prop where
  mods : Modules gov c
  bun : BunInv c

/-- the pools of the list are handled one after the other -/
inductive Handled (gov : Addr) : List (Nat × Pool.Pool) → Chain → Chain → Prop
  | nil {c : Chain} : Well gov c → Handled gov [] c c
  | cons {e : Nat × Pool.Pool} {l : List (Nat × Pool.Pool)} {c d c' : Chain} :
      Well gov c → c.pool.pools.has e.1 = true → c.visit e.1 e.2.uploadInterval = some d → Handled gov l d c' →
      Handled gov (e :: l) c c'

namespace Chain

theorem Well.mem {gov : Addr} {c : Chain} (h : Well gov c) : Mem c := fun id a hm => by
  obtain ⟨v, hv⟩ := (Stakers.has_iff _ _).1 hm
  exact h.mods.st.inv.mem.mem _ _ v hv

theorem Well.keyed {gov : Addr} {c : Chain} (h : Well gov c) : Keyed c := keyed_of h.mods.pool rfl

theorem Well.fit {gov : Addr} {c : Chain} (h : Well gov c) : Fit gov c :=
  ⟨h.mods.st, h.mods.pool, h.mods.fund, BunInv.fee h.bun⟩

theorem Well.steps {gov : Addr} {c c' : Chain} (h : Well gov c) (hs : Steps gov c c')
    (hc : Delegation.Calm c'.del) : Well gov c' := by
  have := Steps.invariant (P := fun c => Modules gov c ∧ BunInv c)
    (fun c μ hP ho hc => ⟨hP.1.micro μ ho hc, hP.2.micro μ hP.1.st hP.1.pool ho⟩) hs hc ⟨h.mods, h.bun⟩
  exact ⟨this.1, this.2⟩

theorem handled_visits {gov : Addr} (l : List (Nat × Pool.Pool)) {c c' : Chain} (hw : Well gov c)
    (hp : ∀ e ∈ l, c.pool.pools.has e.1 = true) (hv : visits l c = some c') (hc : Delegation.Calm c'.del) :
    Handled gov l c c' := by
  induction l generalizing c with
  | nil => cases hv; exact .nil hw
  | cons e l ih =>
    unfold visits at hv
    split at hv
    · cases hv
    · rename_i d hd
      obtain ⟨h1, t1⟩ := visit_steps (gov := gov) (Well.mem hw) (hp e (by simp)) hd
      have hp' : ∀ e' ∈ l, d.pool.pools.has e'.1 = true := fun e' he' => t1.pool _ (hp e' (by simp [he']))
      obtain ⟨h2, -⟩ := visits_steps (gov := gov) l (t1.mem (Well.mem hw)) hp' hv
      have hd' : Delegation.Calm d.del := (steps_later h2.steps).calm hc
      exact .cons hw (hp e (by simp)) hd (ih (Well.steps hw h1.steps hd') hp' hv)

/-- the end block stops the chain or handles all pools -/
theorem endBlock_handled {gov : Addr} {c : Chain} (h : Reachable gov c) (hc : Sane c.endBlock) :
    c.endBlock = { c with crashed := true } ∨
    Handled gov (c.upgradePools.pool.pools.toList) c.upgradePools c.endBlock := by
  have hg := Reachable.good h
  unfold endBlock at hc ⊢
  cases hv : visits (c.upgradePools.pool.pools.toList) c.upgradePools with
  | none => exact Or.inl rfl
  | some c' =>
    right
    rw [hv] at hc
    have hst : Steps gov c c.upgradePools := Steps.one (c := c) (.pool .endBlock) trivial
    have hw : Well gov c.upgradePools := Well.steps ⟨hg.mods, hg.bun⟩ hst hg.sane.calm
    refine handled_visits _ hw (fun e he => ?_) hv hc.calm
    exact (Stakers.has_iff _ _).2 ⟨e.2, (Map.mem_iff _ _ _).1 he⟩

theorem Handled.well {gov : Addr} {l : List (Nat × Pool.Pool)} {c c' : Chain} (h : Handled gov l c c') : Well gov c := by
  cases h with
  | nil h => exact h
  | cons h _ _ _ => exact h

/-! ## what a visit of a pool leaves alone for all pools -/

/-- time, parameters, and who has delegators are the same; slashes are only added -/
structure Stable (c c' : Chain) : Prop where
  now : c'.now = c.now
  bparams : c'.bun.params = c.bun.params
  dparams : c'.del.params = c.del.params
  pparams : c'.pool.params = c.pool.params
  del : ∀ a, c'.delegated a = c.delegated a
  slashes : ∃ l, c'.slashes = c.slashes ++ l

theorem Stable.refl (c : Chain) : Stable c c := ⟨rfl, rfl, rfl, rfl, fun _ => rfl, [], by simp⟩
theorem Stable.trans {c c' c'' : Chain} (h : Stable c c') (h' : Stable c' c'') : Stable c c'' := by
  obtain ⟨l, hl⟩ := h.slashes
  obtain ⟨l', hl'⟩ := h'.slashes
  exact ⟨h'.now.trans h.now, h'.bparams.trans h.bparams, h'.dparams.trans h.dparams, h'.pparams.trans h.pparams,
    fun a => (h'.del a).trans (h.del a), l ++ l', by rw [hl', hl, List.append_assoc]⟩

theorem slashesOf_append (l t : List Delegation.Event) : ∃ x, slashesOf (l ++ t) = slashesOf t ++ x := by
  induction l with
  | nil => exact ⟨[], by simp⟩
  | cons e l ih =>
    obtain ⟨x, hx⟩ := ih
    rw [List.cons_append]
    have h : ∀ u, ∃ y, slashesOf (e :: u) = slashesOf u ++ y := by
      intro u
      rw [slashesOf.eq_def]
      split
      · rename_i heq; cases heq
      · rename_i a q t' heq
        injection heq with _ h2
        rw [← h2]; exact ⟨[(a, q)], rfl⟩
      · rename_i e' t' h heq
        injection heq with _ h2
        rw [← h2]; exact ⟨[], by simp⟩
    obtain ⟨y, hy⟩ := h (l ++ t)
    exact ⟨x ++ y, by rw [hy, hx, List.append_assoc]⟩

theorem Fixed.stable {gov : Addr} {c c' : Chain} (h : Fixed c c') (hs : Steps gov c c') : Stable c c' := by
  obtain ⟨l, hl⟩ := steps_later hs
  refine ⟨h.still.now, by rw [h.still.bun], h.params, by rw [h.still.pool], h.del, ?_⟩
  unfold slashes
  rw [hl]
  exact slashesOf_append _ _

/-- same state of x/delegation -/
theorem stable_of {c c' : Chain} (h1 : c'.now = c.now) (h2 : c'.bun.params = c.bun.params) (h3 : c'.del = c.del)
    (h4 : c'.pool.params = c.pool.params) : Stable c c' :=
  ⟨h1, h2, by rw [h3], h4, fun _ => by unfold delegated; rw [h3], [], by unfold slashes; rw [h3]; simp⟩

theorem stable_finalize (c : Chain) (id : Nat) (v : VoteDist) : Stable c (c.finalize id v) := by
  unfold finalize
  split
  · exact .refl _
  · refine stable_of rfl rfl rfl ?_
    show (Pool.incrementBundleInformation _ _ _ _ _).params = _
    unfold Pool.incrementBundleInformation
    split <;> rfl

theorem stable_nonVoters (c : Chain) (id : Nat) : Stable c (c.nonVoters id) :=
  Fixed.stable (nonVoters_spec c id).1 (nonVoters_q 0 c id).steps

theorem stable_addPoint (c : Chain) (id : Nat) (a : Addr) : Stable c (c.addPoint id a) :=
  Fixed.stable (addPoint_fixed c id a) (addPoint_q 0 c id a).steps

theorem stable_pointLate (c : Chain) (id : Nat) (o : Option Addr) : Stable c (c.pointLate id o) := by
  unfold pointLate
  split
  · exact .refl _
  · split
    · exact stable_addPoint c id _
    · exact .refl _

theorem stable_tally {c c' : Chain} {id : Nat} {p : Proposal} {v : VoteDist} (h : c.tally id p = .done c' v) : Stable c c' := by
  have hq := tally_q 0 c id p
  rw [h] at hq
  exact Fixed.stable (tally_spec h).1 (QSteps.steps hq)

theorem visit_stable {gov : Addr} {c c' : Chain} (hw : Well gov c) {id interval : Nat} (hp : c.pool.pools.has id = true)
    (h : c.visit id interval = some c') : Stable c c' := by
  rcases visit_cases h with ⟨e, -, rfl⟩ | ⟨-, -, rfl⟩ | ⟨-, -, -, -, rfl⟩ | ⟨-, -, -, rfl⟩ | ⟨-, -, h0, rfl⟩ |
    ⟨-, -, -, ht⟩ | ⟨y, v, -, -, h0, -, ht, rfl⟩
  · unfold visitStopped
    split
    · exact stable_of rfl rfl rfl rfl
    · split
      · exact stable_of rfl rfl rfl rfl
      · exact .refl _
  · exact .refl _
  · exact (stable_nonVoters c id).trans (stable_of rfl rfl rfl rfl)
  · exact .refl _
  · unfold visitEmpty
    exact Stable.trans (c' := (c.setProgress id (c.choice id []).2).setProposal id _) (stable_of rfl rfl rfl rfl)
      (stable_pointLate _ id _)
  · obtain ⟨pl, hpl⟩ := (Stakers.has_iff _ _).1 hp
    exact absurd ht (tally_not_failed (Well.fit hw) hpl (hw.bun.prop id) _)
  · refine (stable_tally ht).trans (Stable.trans ?_ (stable_pointLate _ id _))
    split
    · unfold visitValid
      exact Stable.trans (c' := y.setProgress id (y.choiceFrom id (c.proposal id).valid).2) (stable_of rfl rfl rfl rfl)
        ((stable_finalize _ id v).trans (stable_of rfl rfl rfl rfl))
    · exact stable_of rfl rfl rfl rfl

/-- The end block as seen from one pool: others, the pool itself, others. -/
theorem Handled.split {gov : Addr} {l : List (Nat × Pool.Pool)} {c c' : Chain} (h : Handled gov l c c')
    (hn : (l.map (·.1)).Nodup) {id : Nat} {p : Pool.Pool} (hm : (id, p) ∈ l) :
    ∃ d d', Apart id c d ∧ Stable c d ∧ Well gov d ∧ d.visit id p.uploadInterval = some d' ∧ Apart id d' c' ∧
      Stable d' c' := by
  have after : ∀ {l : List (Nat × Pool.Pool)} {c c' : Chain}, Handled gov l c c' → id ∉ l.map (·.1) →
      Apart id c c' ∧ Stable c c' := by
    intro l c c' h
    induction h with
    | nil _ => intro _; exact ⟨Apart.refl _ _, Stable.refl _⟩
    | cons hw hp hv _ ih =>
      intro hn
      rw [List.map_cons, List.mem_cons, not_or] at hn
      obtain ⟨i1, i2⟩ := ih hn.2
      exact ⟨(apart_visit hn.1 (Well.keyed hw) hv).trans i1, (visit_stable hw hp hv).trans i2⟩
  induction h with
  | nil _ => cases hm
  | @cons e l c d c' hw hp hv hh ih =>
    rw [List.map_cons, List.nodup_cons] at hn
    rcases List.mem_cons.1 hm with rfl | hm
    · obtain ⟨a1, a2⟩ := after hh hn.1
      exact ⟨c, d, Apart.refl _ _, Stable.refl _, hw, hv, a1, a2⟩
    · have hne : id ≠ e.1 := fun e' => hn.1 (e' ▸ List.mem_map.2 ⟨_, hm, rfl⟩)
      obtain ⟨x, x', h1, h2, h3⟩ := ih hn.2 hm
      exact ⟨x, x', (apart_visit hne (Well.keyed hw) hv).trans h1, (visit_stable hw hp hv).trans h2, h3⟩

end Chain
end Verif.Chain
