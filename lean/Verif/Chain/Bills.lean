import Verif.Chain.Plain

/-!
# C22 on the chain: a bundle is finalized if and only if it is paid
-/

set_option linter.dupNamespace false
namespace Verif.Chain
open Verif
open Chain
open Verif.Bundles (Proposal VoteDist FBundle)

/-! ## specification -/

/-- a bundle of the pool is finalized between the two states -/
def NewBundle (id : Nat) (c c' : Chain) : Prop := ∃ i, c.bundle id i = none ∧ c'.bundle id i ≠ none

/-- the bill of pool `id`: if its proposal is finalized, it is paid in full (`PaidFor`); otherwise only slashed coins
move (`Moved`) -/
def Settles (id : Nat) (c c' : Chain) : Prop :=
  (NewBundle id c c' ∧ PaidFor c c' id) ∨ (¬ NewBundle id c c' ∧ Moved c c')

/-- the bills of several pools, one after the other; each leaves the bundles of the other pools alone -/
inductive Settled : List Nat → Chain → Chain → Prop
  | nil {c : Chain} : Settled [] c c
  | cons {id : Nat} {l : List Nat} {c d c' : Chain} : Settles id c d →
      (∀ j, j ≠ id → ∀ i, d.bundle j i = c.bundle j i) → Settled l d c' → Settled (id :: l) c c'

namespace Chain

/-! ## proofs -/

theorem no_bundle {id : Nat} {c c' : Chain} (h : ∀ i, c'.bun.finalized.get? (id, i) = c.bun.finalized.get? (id, i)) :
    ¬ NewBundle id c c' := by
  rintro ⟨i, h1, h2⟩
  unfold bundle at h1 h2
  rw [h i] at h2; exact h2 h1

theorem new_bundle {id : Nat} {c c' : Chain} {pl : Pool.Pool} (hb : BunInv c) (hp : c.pool.pools.get? id = some pl)
    (h : (c'.bun.finalized.get? (id, pl.totalBundles)).isSome = true) : NewBundle id c c' := by
  refine ⟨pl.totalBundles, ?_, ?_⟩
  · unfold bundle
    cases hx : c.bun.finalized.get? (id, pl.totalBundles) with
    | none => rfl
    | some f => exact absurd (((hb.chained id pl hp).dense _).1 ⟨f, hx⟩) (Nat.lt_irrefl _)
  · unfold bundle
    intro e; rw [e] at h; cases h

theorem settles_submit {gov : Addr} {c c' : Chain} (h : Good gov c) {m : SubmitMsg} (hx : c.submit m = .ok c') :
    Settles m.pool c c' := by
  rcases money_submit h hx with ⟨h1, h2⟩ | ⟨h1, pl, h2, h3⟩
  · exact Or.inr ⟨no_bundle (fun i => by rw [h1]), h2⟩
  · exact Or.inl ⟨new_bundle h.bun h2 h3, h1⟩

/-- a tally with the finalization that follows it -/
theorem finalize_new {c y : Chain} (hs : Still c y) {id : Nat} {pl : Pool.Pool}
    (hpl : c.pool.pools.get? id = some pl) (l : List (Addr × Int)) (v : VoteDist) :
    (((y.setProgress id l).finalize id v).bun.finalized.get? (id, pl.totalBundles)).isSome = true := by
  have hpy : (y.setProgress id l).pool.pools.get? id = some pl := by
    show y.pool.pools.get? id = _
    rw [hs.pool]; exact hpl
  unfold finalize
  rw [hpy]
  show ((Map.set _ _ _).get? _).isSome = true
  rw [Map.get?_set_self]; rfl

theorem settles_skip {gov : Addr} {c c' : Chain} (h : Good gov c) {m : SkipMsg} (hx : c.skip m = .ok c') :
    Settles m.pool c c' := by
  obtain ⟨h1, -⟩ := skip_ok hx
  obtain ⟨pl, hpl, -⟩ := canPropose_none h1
  have hpl := hpl.found
  obtain ⟨y, v, ht, rfl⟩ := skip_cases hx
  have m0 := moved_resetPoints c m.pool m.staker
  have s0 := (resetPoints_fixed c m.pool m.staker).still
  have hfit : Fit gov (c.resetPoints m.pool m.staker) := (Good.fit h).q (.one (.reset m.pool m.staker) trivial)
  have hpo : PropOk (c.resetPoints m.pool m.staker) m.pool ((c.resetPoints m.pool m.staker).proposal m.pool) :=
    (h.bun.prop m.pool).mono (fun a ha => by rw [m0.stakers]; exact ha) (le_refl _)
  have ht' : (c.resetPoints m.pool m.staker).tally m.pool ((c.resetPoints m.pool m.staker).proposal m.pool) = .done y v := ht
  obtain ⟨f1, -, -⟩ := tally_spec ht
  have s1 := Still.trans s0 f1.still
  rcases tally_cases hfit hpl hpo with ⟨hc, -⟩ | ⟨y', v', hc, hp1, hp2⟩
  · rw [ht'] at hc; cases hc
  · rw [ht'] at hc; injection hc with e1 e2; subst e1; subst e2
    unfold skipOutcome
    split
    · rename_i hval
      left
      obtain ⟨f1, f2, f3⟩ := finalize_bank (y.setProgress m.pool (y.choice m.pool [m.staker]).2) m.pool v
      refine ⟨new_bundle h.bun hpl ?_, ((hp1 hval).left m0 s0 rfl).right (moved_of_eq f1 f2 f3)⟩
      exact finalize_new s1 hpl _ v
    · rename_i hi
      right
      refine ⟨no_bundle (fun i => by rw [← s1.bun]; rfl), (m0.trans (hp2 (by rw [hi]; simp))).trans (moved_of_eq rfl rfl rfl)⟩
    · rename_i hv _
      right
      exact ⟨no_bundle (fun i => by rw [← s1.bun]; rfl), (m0.trans (hp2 hv)).trans (moved_of_eq rfl rfl rfl)⟩

theorem moved_pointLate (c : Chain) (id : Nat) (o : Option Addr) : Moved c (c.pointLate id o) := by
  unfold pointLate
  split
  · exact Moved.refl _
  · split
    · exact moved_addPoint c id _
    · exact Moved.refl _

theorem settles_visit' {gov : Addr} {c c' : Chain} (hf : Fit gov c) (hb : BunInv c) {id interval : Nat}
    (hp : c.pool.pools.has id = true) (h : c.visit id interval = some c') : Settles id c c' := by
  obtain ⟨pl, hpl⟩ := (Stakers.has_iff _ _).1 hp
  have same : ∀ {x : Chain}, (∀ i, x.bun.finalized.get? (id, i) = c.bun.finalized.get? (id, i)) → Moved c x →
      Settles id c x := fun h1 h2 => Or.inr ⟨no_bundle h1, h2⟩
  rcases visit_cases h with ⟨e, -, rfl⟩ | ⟨-, -, rfl⟩ | ⟨-, -, -, -, rfl⟩ | ⟨-, -, -, rfl⟩ | ⟨-, -, h0, rfl⟩ |
    ⟨-, -, -, ht⟩ | ⟨y, v, -, -, h0, -, ht, rfl⟩
  · unfold visitStopped
    split
    · exact same (fun _ => rfl) (moved_of_eq rfl rfl rfl)
    · split
      · exact same (fun _ => rfl) (moved_of_eq rfl rfl rfl)
      · exact same (fun _ => rfl) (Moved.refl _)
  · exact same (fun _ => rfl) (Moved.refl _)
  · refine same (fun i => ?_) ((moved_nonVoters c id).trans (moved_of_eq rfl rfl rfl))
    show (c.nonVoters id).bun.finalized.get? _ = _
    rw [(nonVoters_q 0 c id).still.bun]
  · exact same (fun _ => rfl) (Moved.refl _)
  · unfold visitEmpty
    refine same (fun i => ?_) ?_
    · rw [(pointLate_q 0 _ id (c.proposal id).nextUploader).still.bun]; rfl
    · exact Moved.trans (c' := (c.setProgress id (c.choice id []).2).setProposal id _) (moved_of_eq rfl rfl rfl)
        (moved_pointLate _ id _)
  · exact absurd ht (tally_not_failed hf hpl (hb.prop id) _)
  · obtain ⟨f1, -, -⟩ := tally_spec ht
    have hl := moved_pointLate (if v.status = .valid then y.visitValid id (c.proposal id) v else y.visitOther id) id
      (c.proposal id).nextUploader
    have hs2 := (pointLate_q 0 (if v.status = .valid then y.visitValid id (c.proposal id) v else y.visitOther id) id
      (c.proposal id).nextUploader).still
    rcases tally_cases hf hpl (hb.prop id) with ⟨hc, -⟩ | ⟨y', v', hc, hp1, hp2⟩
    · rw [ht] at hc; cases hc
    · rw [ht] at hc; injection hc with e1 e2; subst e1; subst e2
      by_cases hval : v.status = .valid
      · simp only [hval, if_true] at hl hs2 ⊢
        left
        obtain ⟨g1, g2, g3⟩ := finalize_bank (y.setProgress id (y.choiceFrom id (c.proposal id).valid).2) id v
        refine ⟨new_bundle hb hpl ?_, ((hp1 hval).right
          (d := y) (c' := y.visitValid id (c.proposal id) v) (moved_of_eq g1 g2 g3)).right hl⟩
        rw [hs2.bun]
        exact finalize_new f1.still hpl _ v
      · simp only [hval, if_false] at hl hs2 ⊢
        refine same (fun i => ?_) (((hp2 hval).trans (c'' := y.visitOther id) (moved_of_eq rfl rfl rfl)).trans hl)
        rw [hs2.bun, ← f1.still.bun]; rfl

theorem settles_visit {gov : Addr} {c c' : Chain} (hw : Well gov c) {id interval : Nat} (hp : c.pool.pools.has id = true)
    (h : c.visit id interval = some c') : Settles id c c' := settles_visit' (Well.fit hw) hw.bun hp h

theorem settled_handled {gov : Addr} {l : List (Nat × Pool.Pool)} {c c' : Chain} (h : Handled gov l c c') :
    Settled (l.map (·.1)) c c' := by
  induction h with
  | nil _ => exact .nil
  | cons hw hp hv _ ih =>
    exact .cons (settles_visit hw hp hv) (fun j hj i => (apart_visit hj (Well.keyed hw) hv).fin i) ih

/-- C22: whenever a message makes a bundle of a pool final, the bundle is paid: what the funders and the pool's inflation
account are charged goes to the treasury, to the uploader (storage cost and commission) and to the uploader's delegators,
without a coin left over (`PaidFor`). -/
theorem C22_finalized (gov : Addr) (c : Chain) (h : Reachable gov c) (op : Op) (ho : op ≠ .endBlock) (id : Nat)
    (hn : NewBundle id c (c.step gov op)) : PaidFor c (c.step gov op) id := by
  have hj : op.judges = true := by
    by_contra hj
    have hj : op.judges = false := by simpa using hj
    exact no_bundle (fun i => by rw [(plain_step h hj).fin]) hn
  unfold step at hn ⊢
  split
  · rename_i hc; rw [if_pos hc] at hn; exact absurd hn (no_bundle fun _ => rfl)
  · rename_i hc
    rw [if_neg hc] at hn
    cases he : exec gov c op with
    | error e => rw [he] at hn; exact absurd hn (no_bundle fun _ => rfl)
    | ok c' =>
      rw [he] at hn
      have hn : NewBundle id c c' := hn
      show PaidFor c c' id
      have hk : Keyed c := keyed_of h.good.mods.pool rfl
      cases op with
      | submit m =>
        by_cases e : id = m.pool
        · subst e
          rcases settles_submit h.good he with ⟨-, h2⟩ | ⟨h1, -⟩
          · exact h2
          · exact absurd hn h1
        · exact absurd hn (no_bundle (apart_submit hk e he).fin)
      | skip m =>
        by_cases e : id = m.pool
        · subst e
          rcases settles_skip h.good he with ⟨-, h2⟩ | ⟨h1, -⟩
          · exact h2
          · exact absurd hn h1
        · exact absurd hn (no_bundle (apart_skip hk e he).fin)
      | endBlock => exact absurd rfl ho
      | _ => cases hj

/-- C22: a node message that finalizes nothing moves no coins except slashed ones. -/
theorem C22_unpaid (gov : Addr) (c : Chain) (h : Reachable gov c) (op : Op)
    (ho : (∃ m, op = .submit m) ∨ (∃ m, op = .vote m) ∨ (∃ m, op = .skip m) ∨ ∃ a s i, op = .claim a s i)
    (hn : ∀ id, ¬ NewBundle id c (c.step gov op)) : Moved c (c.step gov op) := by
  unfold step at hn ⊢
  split
  · exact Moved.refl _
  · rename_i hc
    rw [if_neg hc] at hn
    cases he : exec gov c op with
    | error e => exact Moved.refl _
    | ok c' =>
      rw [he] at hn
      have hn : ∀ id, ¬ NewBundle id c c' := hn
      show Moved c c'
      rcases ho with ⟨m, rfl⟩ | ⟨m, rfl⟩ | ⟨m, rfl⟩ | ⟨a, s, i, rfl⟩
      · rcases settles_submit h.good he with ⟨h1, -⟩ | ⟨-, h2⟩
        · exact absurd h1 (hn _)
        · exact h2
      · have h' : c.vote m = .ok c' := he
        unfold vote at h'
        split at h'
        · cases h'
        · split at h'
          · cases h'
          · rename_i p _
            cases h'
            exact Moved.trans (c' := c.setProposal m.pool p) (moved_of_eq rfl rfl rfl) (moved_resetPoints _ _ _)
      · rcases settles_skip h.good he with ⟨h1, -⟩ | ⟨-, h2⟩
        · exact absurd h1 (hn _)
        · exact h2
      · have h' : c.claim a s i = .ok c' := he
        unfold claim at h'
        repeat (split at h'; cases h')
        cases h'
        exact moved_of_eq rfl rfl rfl

/-- C22: at the end of a block, after the runtime upgrades (which change pool records only), every pool is settled in the
same way, one after the other; nothing else moves. -/
theorem C22_endBlock (gov : Addr) (c : Chain) (h : Reachable gov c) (hs : Sane (c.step gov .endBlock))
    (hc : (c.step gov .endBlock).crashed = false) :
    ∃ s l, l.Nodup ∧ (∀ id, id ∈ l ↔ ∃ p, c.pool.pools.get? id = some p) ∧
      Settled l { c with pool := s } (c.step gov .endBlock) := by
  have hc0 : c.crashed = false := by
    cases e : c.crashed with
    | false => rfl
    | true => unfold step at hc; rw [if_pos e, e] at hc; cases hc
  have e0 : c.step gov .endBlock = c.endBlock := by unfold step; rw [hc0]; rfl
  rw [e0] at hs hc ⊢
  rcases endBlock_handled h hs with e | hh
  · rw [e] at hc; cases hc
  · refine ⟨_, _, ?_, fun id => ?_, settled_handled hh⟩
    · exact Map.keys_nodup _
    · have hI := h.good.mods.pool.inv
      have hP' : Pool.Spec.Reachable gov c.upgradePools.pool := pool_step h.good.mods.pool c.now .endBlock
      have hcnt : c.upgradePools.pool.count = c.pool.count :=
        pool_count (gov := gov) hI c.now (op := .endBlock) (fun m e => by cases e)
      rw [hI.dense id, ← hcnt, ← hP'.inv.dense id]
      exact Map.mem_keys_iff _ _

/-! ## concrete cases -/

example : NewBundle 0 Sample.later Sample.second := ⟨0, by decide +kernel, by decide +kernel⟩
example : PaidFor Sample.later Sample.second 0 :=
  C22_finalized Sample.gov Sample.later Sample.reach_later (.submit (Sample.bundle 1 8 10)) (by rintro ⟨⟩) 0
    ⟨0, by decide +kernel, by decide +kernel⟩

end Chain
end Verif.Chain
