import Verif.Chain.Points

/-!
# The end block treats pools separately

Handling one pool at the end of a block changes nothing of another pool: not its record, its proposal, its finalized
bundles or its members.  (It can slash a staker that is also in the other pool, and so change delegations.)
-/

set_option linter.dupNamespace false
namespace Verif.Chain
open Verif
open Chain
open Verif.Bundles (Proposal VoteDist)

/-- the pool `id`, its proposal, bundles and members are the same -/
structure Apart (id : Nat) (c c' : Chain) : Prop where
  now : c'.now = c.now
  crashed : c'.crashed = c.crashed
  stored : c'.bun.proposals.get? id = c.bun.proposals.get? id
  fin : ∀ i, c'.bun.finalized.get? (id, i) = c.bun.finalized.get? (id, i)
  progress : c'.bun.progressOf id = c.bun.progressOf id
  params : c'.bun.params = c.bun.params
  pool : c'.pool.pools.get? id = c.pool.pools.get? id
  poolParams : c'.pool.params = c.pool.params
  vals : ∀ a, c'.st.vals.get? (id, a) = c.st.vals.get? (id, a)

/-- pools are stored under their id -/
def Keyed (c : Chain) : Prop := ∀ k p, c.pool.pools.get? k = some p → p.id = k

namespace Apart
variable {id : Nat} {c c' c'' : Chain}

theorem refl (id : Nat) (c : Chain) : Apart id c c := ⟨rfl, rfl, rfl, fun _ => rfl, rfl, rfl, rfl, rfl, fun _ => rfl⟩

theorem trans (h : Apart id c c') (h' : Apart id c' c'') : Apart id c c'' :=
  ⟨h'.now.trans h.now, h'.crashed.trans h.crashed, h'.stored.trans h.stored, fun i => (h'.fin i).trans (h.fin i),
   h'.progress.trans h.progress, h'.params.trans h.params, h'.pool.trans h.pool, h'.poolParams.trans h.poolParams,
   fun a => (h'.vals a).trans (h.vals a)⟩

theorem proposal (h : Apart id c c') : c'.proposal id = c.proposal id := by
  unfold Chain.proposal Bundles.State.proposal; rw [h.stored]

theorem member (h : Apart id c c') (a : Addr) : c'.member id a = c.member id a := by
  unfold Chain.member Map.has; rw [h.vals]

theorem of_fixed (h : Fixed c c') (hv : ∀ a, c'.st.vals.get? (id, a) = c.st.vals.get? (id, a)) : Apart id c c' :=
  ⟨h.still.now, h.still.crashed, by rw [h.still.bun], fun i => by rw [h.still.bun], by rw [h.still.bun],
   by rw [h.still.bun], by rw [h.still.pool], by rw [h.still.pool], hv⟩

end Apart

namespace Chain

variable {id j : Nat} {c c' : Chain}

theorem apart_setProposal (hj : id ≠ j) (p : Proposal) : Apart id c (c.setProposal j p) :=
  ⟨rfl, rfl, Map.get?_set_ne _ _ hj, fun _ => rfl, rfl, rfl, rfl, rfl, fun _ => rfl⟩

theorem apart_setProgress (hj : id ≠ j) (l : List (Addr × Int)) : Apart id c (c.setProgress j l) := by
  refine ⟨rfl, rfl, rfl, fun _ => rfl, ?_, rfl, rfl, rfl, fun _ => rfl⟩
  show ((c.bun.progress.set j l).get? id).getD [] = _
  rw [Map.get?_set_ne _ _ hj]; rfl

theorem apart_finalize (hj : id ≠ j) (hk : Keyed c) (v : VoteDist) : Apart id c (c.finalize j v) := by
  unfold finalize
  split
  · exact Apart.refl _ _
  · rename_i pl hpl
    refine ⟨rfl, rfl, rfl, fun i => ?_, rfl, rfl, ?_, ?_, fun _ => rfl⟩
    · exact Map.get?_set_ne _ _ (by simp [hj])
    · show (Pool.incrementBundleInformation c.pool j _ _ _).pools.get? id = _
      unfold Pool.incrementBundleInformation
      rw [hpl]
      show (c.pool.pools.set pl.id _).get? id = _
      rw [hk j pl hpl]
      exact Map.get?_set_ne _ _ hj
    · show (Pool.incrementBundleInformation c.pool j _ _ _).params = _
      unfold Pool.incrementBundleInformation
      rw [hpl]; rfl

theorem apart_nonVoters (hj : id ≠ j) : Apart id c (c.nonVoters j) := by
  obtain ⟨h1, h2, -⟩ := nonVoters_spec c j
  exact Apart.of_fixed h1 (fun a => by rw [h2, if_neg (fun h => hj h.1)])

theorem apart_addPoint (hj : id ≠ j) {a : Addr} (hm : c.member j a = true) : Apart id c (c.addPoint j a) := by
  obtain ⟨v, hv⟩ := (Stakers.has_iff _ _).1 hm
  refine Apart.of_fixed (addPoint_fixed c j a) (fun b => ?_)
  rw [addPoint_get hv, if_neg (by simp [hj])]

theorem apart_pointLate (hj : id ≠ j) (o : Option Addr) : Apart id c (c.pointLate j o) := by
  unfold pointLate
  split
  · exact Apart.refl _ _
  · split
    · rename_i h; exact apart_addPoint hj h
    · exact Apart.refl _ _

theorem apart_tally (hj : id ≠ j) (p : Proposal) : (c.tally j p).All (Apart id c) := by
  cases h : c.tally j p with
  | panicked => trivial
  | failed d =>
    have : NoSlash (c.nonVoters j) d := tallyOutcome_failed h
    exact (apart_nonVoters hj).trans (Apart.of_fixed this.fixed (fun a => by rw [this.vals]))
  | done d v =>
    obtain ⟨h1, h2, -⟩ := tally_spec h
    exact Apart.of_fixed h1 (fun a => by rw [h2, if_neg (fun h => hj h.1), if_neg (fun h => hj h.1)])

theorem keyed_still (hk : Keyed c) (h : Still c c') : Keyed c' := by
  unfold Keyed; rw [h.pool]; exact hk

theorem keyed_finalize (hk : Keyed c) (j : Nat) (v : VoteDist) : Keyed (c.finalize j v) := by
  unfold finalize
  split
  · exact hk
  · rename_i pl hpl
    intro k p hp
    have hp' : (Pool.incrementBundleInformation c.pool j _ _ _).pools.get? k = some p := hp
    unfold Pool.incrementBundleInformation at hp'
    rw [hpl] at hp'
    have hp2 : (c.pool.pools.set pl.id _).get? k = some p := hp'
    rw [Map.get?_set] at hp2
    split at hp2
    · rename_i e; cases hp2; exact e.symm
    · exact hk k p hp2

theorem keyed_visit (hk : Keyed c) {interval : Nat} (h : c.visit j interval = some c') : Keyed c' := by
  unfold visit at h
  split at h
  · cases h
    unfold visitStopped
    repeat' split
    all_goals exact hk
  · unfold visitRunning at h
    split at h
    · cases h; exact hk
    · split at h
      · cases h
        have s := (nonVoters_q 0 c j).still
        have : Keyed (c.nonVoters j) := keyed_still hk s
        exact this
      · unfold visitTimeout at h
        split at h
        · cases h; exact hk
        · split at h
          · cases ht : c.tally j (c.proposal j) with
            | panicked => rw [ht] at h; cases h
            | failed d =>
              rw [ht] at h; cases h
              have := tally_q 0 c j (c.proposal j)
              rw [ht] at this
              exact keyed_still hk (QSteps.still this)
            | done d v =>
              rw [ht] at h; cases h
              have := tally_q 0 c j (c.proposal j)
              rw [ht] at this
              have hd : Keyed d := keyed_still hk (QSteps.still this)
              refine keyed_still ?_ (pointLate_q 0 _ j _).still
              split
              · exact keyed_finalize (c := d.setProgress j _) hd j v
              · exact hd
          · cases h
            exact keyed_still (c := (c.setProgress j (c.choice j []).2).setProposal j _) hk (pointLate_q 0 _ j _).still

theorem apart_visit (hj : id ≠ j) (hk : Keyed c) {interval : Nat} (h : c.visit j interval = some c') :
    Apart id c c' := by
  unfold visit at h
  split at h
  · cases h
    unfold visitStopped
    split
    · exact apart_setProposal hj _
    · split
      · exact apart_setProposal hj _
      · exact Apart.refl _ _
  · unfold visitRunning at h
    split at h
    · cases h; exact Apart.refl _ _
    · split at h
      · cases h
        exact (apart_nonVoters hj).trans ((apart_setProgress hj _).trans (apart_setProposal hj _))
      · unfold visitTimeout at h
        split at h
        · cases h; exact Apart.refl _ _
        · split at h
          · have ha := apart_tally (c := c) hj (c.proposal j)
            have hq := tally_q 0 c j (c.proposal j)
            cases ht : c.tally j (c.proposal j) with
            | panicked => rw [ht] at h; cases h
            | failed d => rw [ht] at h ha; cases h; exact ha
            | done d v =>
              rw [ht] at h ha hq; cases h
              have hd : Keyed d := keyed_still hk (QSteps.still hq)
              refine Apart.trans (c' := d) ha (Apart.trans ?_ (apart_pointLate hj _))
              split
              · refine (apart_setProgress (c := d) hj (d.choiceFrom j (c.proposal j).valid).2).trans
                  (Apart.trans ?_ (apart_setProposal hj _))
                exact apart_finalize (c := d.setProgress j _) hj hd v
              · exact (apart_setProgress hj _).trans (apart_setProposal hj _)
          · cases h
            exact (apart_setProgress hj _).trans ((apart_setProposal hj _).trans (apart_pointLate hj _))

theorem visits_append (l l' : List (Nat × Pool.Pool)) (c : Chain) :
    visits (l ++ l') c = (visits l c).bind (visits l') := by
  induction l generalizing c with
  | nil => rfl
  | cons e l ih =>
    rw [List.cons_append, visits, visits]
    cases c.visit e.1 e.2.uploadInterval with
    | none => rfl
    | some d => exact ih d

theorem apart_visits (l : List (Nat × Pool.Pool)) (hl : ∀ e ∈ l, id ≠ e.1) {c c' : Chain} (hk : Keyed c)
    (h : visits l c = some c') : Apart id c c' ∧ Keyed c' := by
  induction l generalizing c with
  | nil => cases h; exact ⟨Apart.refl _ _, hk⟩
  | cons e l ih =>
    unfold visits at h
    split at h
    · cases h
    · rename_i d hd
      have h1 := apart_visit (hl e (by simp)) hk hd
      obtain ⟨h2, h3⟩ := ih (fun x hx => hl x (by simp [hx])) (keyed_visit hk hd) h
      exact ⟨h1.trans h2, h3⟩

/-- The end block, as seen from one pool: the pool's runtime upgrade; then others; then the pool itself; then others.
`pre` are the pools with smaller ids. -/
theorem endBlock_split {c : Chain} (hk : Keyed c.upgradePools) {id : Nat} {p : Pool.Pool}
    (hp : c.upgradePools.pool.pools.get? id = some p) :
    c.endBlock = { c with crashed := true } ∨
    ∃ d d', Apart id c.upgradePools d ∧ Keyed d ∧ d.visit id p.uploadInterval = some d' ∧ Apart id d' c.endBlock := by
  unfold endBlock
  cases h : visits (c.upgradePools.pool.pools.toList) c.upgradePools with
  | none => exact Or.inl rfl
  | some c' =>
    right
    show ∃ d d', _ ∧ _ ∧ _ ∧ Apart id d' c'
    have hm : (id, p) ∈ c.upgradePools.pool.pools.toList := (Map.mem_iff _ _ _).2 hp
    obtain ⟨l1, l2, e⟩ := List.append_of_mem hm
    have hn : (c.upgradePools.pool.pools.toList.map (·.1)).Nodup := Map.keys_nodup _
    rw [e] at h hn
    rw [List.map_append, List.map_cons, List.nodup_append, List.nodup_cons] at hn
    obtain ⟨-, ⟨hn2, -⟩, hn3⟩ := hn
    rw [visits_append] at h
    cases h1 : visits l1 c.upgradePools with
    | none => rw [h1] at h; cases h
    | some d =>
      rw [h1] at h
      have h2 : visits ((id, p) :: l2) d = some c' := h
      unfold visits at h2
      split at h2
      · cases h2
      · rename_i d' hd'
        obtain ⟨a1, k1⟩ := apart_visits (id := id) l1 (fun x hx => by
          intro e'; exact hn3 x.1 (List.mem_map.2 ⟨x, hx, rfl⟩) id (by simp) e'.symm) hk h1
        obtain ⟨a2, -⟩ := apart_visits (id := id) l2 (fun x hx => by
          intro e'; exact hn2 (List.mem_map.2 ⟨x, hx, e'.symm⟩)) (keyed_visit k1 hd') h2
        exact ⟨d, d', a1, k1, hd', a2⟩

end Chain
end Verif.Chain
