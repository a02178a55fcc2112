import Verif.Chain.Slashing
import Verif.Bundles.RRProps

/-!
# C31: the upload timeout unblocks a pool
-/

set_option linter.dupNamespace false
namespace Verif.Chain
open Verif
open Chain
open Verif.Bundles (Proposal VoteDist Status)
open Verif.Delegation (totalAll)

/-! ## specification -/

/-- pool `id` has a new turn: it starts now, and the next uploader is a member with delegation; there is none only if no
member with delegation is left -/
structure NewTurn (id : Nat) (c c' : Chain) : Prop where
  start : (c'.proposal id).updatedAt = c.now
  member : ∀ a, (c'.proposal id).nextUploader = some a → c.member id a = true ∧ 0 < c.del.amount a
  nobody : (c'.proposal id).nextUploader = none → ∀ a, c'.member id a = true → c'.del.amount a = 0

/-- what the end block does to the turn of pool `id` -/
inductive Shift (id : Nat) (c c' : Chain) : Prop
  /-- a pool that can not run has no next uploader; a disabled one has no proposal -/
  | stopped (e : RunErr) : c.runError id = some e → (c'.proposal id).nextUploader = none →
      (e = .disabled → (c'.proposal id).storageId = 0) →
      (e ≠ .disabled → c'.proposal id = { c.proposal id with nextUploader := none }) → Shift id c c'
  /-- nobody is late -/
  | kept : c.runError id = none → ¬ Overdue c id ∨ ¬ Due c id → c'.proposal id = c.proposal id → Shift id c c'
  /-- no quorum in time, or overdue: somebody else uploads -/
  | moved : c.runError id = none → Overdue c id ∨ (Due c id ∧ (c.proposal id).storageId ≠ 0 ∧ Majority id .noQuorum c) →
      NewTurn id c c' → Shift id c c'

/-- the pools of the list are handled one after the other, each without touching the others -/
inductive OneByOne (R : Nat → Chain → Chain → Prop) : List Nat → Chain → Chain → Prop
  | nil {c : Chain} : OneByOne R [] c c
  | cons {id : Nat} {ids : List Nat} {c d c' : Chain} : R id c d → (∀ j, j ≠ id → Apart j c d) → OneByOne R ids d c' →
      OneByOne R (id :: ids) c c'

namespace Chain

/-! ## proofs -/

theorem amount_slash_le (w : Delegation.World) (a : Addr) (t : Delegation.SlashType) (b : Addr) :
    (Delegation.slashDelegators w a t).s.amount b ≤ w.s.amount b := by
  unfold Delegation.slashDelegators
  split
  · exact le_refl _
  · show (w.s.applyIndexed a _).amount b ≤ _
    unfold Delegation.State.amount
    rw [Delegation.at_applyIndexed]
    split
    · rename_i e
      subst e
      show (Delegation.slash (w.s.at b) _).1.d.total ≤ _
      rw [Delegation.total_slash]
      exact Nat.sub_le _ _
    · exact le_refl _

theorem amount_q {gov : Addr} {c c' : Chain} (h : QSteps gov c c') (b : Addr) : c'.del.amount b ≤ c.del.amount b := by
  induction h with
  | refl => exact le_refl _
  | @tail d q _ _ _ ih =>
    refine le_trans ?_ ih
    cases q with
    | slash a t => exact amount_slash_le _ a t b
    | payout a x =>
      show (Delegation.orElse d.dw (Delegation.payoutRewards d.dw .pool a x)).s.amount b ≤ _
      cases h : Delegation.payoutRewards d.dw .pool a x with
      | error e => exact le_refl _
      | ok w' =>
        show w'.s.amount b ≤ _
        rcases Delegation.payoutRewards_s h with rfl | h
        · exact le_refl _
        · rw [h]
          by_cases e : b = a
          · subst e; rw [amount_payout]; exact le_refl _
          · unfold Delegation.State.amount
            rw [Delegation.at_apply, if_neg e]; exact le_refl _
    | kick id a => exact le_refl _
    | inc id a => exact le_refl _
    | reset id a => exact le_refl _
    | reward a x => exact le_refl _
    | charge id => exact le_refl _
    | pay b h => exact le_refl _

/-- a choice in a state `y` between `c` and `c'` -/
theorem newTurn_of {id : Nat} {c y c' : Chain} {n : Option Addr}
    (hn : (n = none ↔ ∀ a ∈ y.members id, y.del.amount a = 0) ∧ ∀ a, n = some a → a ∈ y.members id ∧ 0 < y.del.amount a)
    (h1 : (c'.proposal id).nextUploader = n) (h2 : (c'.proposal id).updatedAt = c.now)
    (hm : ∀ a, y.member id a = true → c.member id a = true) (hm' : ∀ a, c'.member id a = true → y.member id a = true)
    (ha : ∀ a, y.del.amount a ≤ c.del.amount a) (ha' : ∀ a, c'.del.amount a ≤ y.del.amount a) : NewTurn id c c' := by
  refine ⟨h2, fun a e => ?_, fun e a hx => ?_⟩
  · rw [h1] at e
    obtain ⟨h3, h4⟩ := hn.2 a e
    exact ⟨hm a (mem_members.1 h3), lt_of_lt_of_le h4 (ha a)⟩
  · rw [h1] at e
    have := hn.1.1 e a (mem_members.2 (hm' a hx))
    have := ha' a
    omega

theorem shift_visit {gov : Addr} {c c' : Chain} (hw : Well gov c) (hs : totalAll c.del < 2 ^ 63) {id : Nat} {pl : Pool.Pool}
    (hpl : c.pool.pools.get? id = some pl) (h : c.visit id pl.uploadInterval = some c') : Shift id c c' := by
  have hn : (voters (c.proposal id)).Nodup := (hw.bun.prop id).nodup
  rcases visit_cases h with ⟨e, he, rfl⟩ | ⟨h1, h2, rfl⟩ | ⟨h1, h2, h3, h4, rfl⟩ | ⟨h1, h2, h3, rfl⟩ |
    ⟨h1, h2, h0, rfl⟩ | ⟨-, -, -, ht⟩ | ⟨y, v, h1, h2, h0, h3, ht, rfl⟩
  · unfold visitStopped
    split
    · rename_i hd
      refine .stopped e he ?_ (fun _ => ?_) (fun hne => absurd hd.1 hne)
      · unfold drop; rw [proposal_set, if_pos rfl]; rfl
      · unfold drop; rw [proposal_set, if_pos rfl]; rfl
    · rename_i hd
      have h0 : e = .disabled → (c.proposal id).storageId = 0 := fun ed => by
        by_contra hx; exact hd ⟨ed, hx⟩
      split
      · refine .stopped e he ?_ (fun ed => ?_) (fun _ => ?_)
        · rw [proposal_set, if_pos rfl]
        · rw [proposal_set, if_pos rfl]; exact h0 ed
        · rw [proposal_set, if_pos rfl]
      · rename_i hne
        have hnone : (c.proposal id).nextUploader = none := by
          cases hx : (c.proposal id).nextUploader with
          | none => rfl
          | some a => rw [hx] at hne; exact absurd rfl hne
        refine .stopped e he hnone h0 (fun _ => ?_)
        rw [← hnone]
  · refine .kept h1 (Or.inr ?_) rfl
    rintro ⟨q, hq, hle⟩
    rw [hpl] at hq; cases hq; omega
  · have hq := nonVoters_q 0 c id
    have hm := dist_majority hn hs
    rw [h4] at hm
    refine .moved h1 (Or.inr ⟨⟨pl, hpl, by omega⟩, h3, hm⟩)
      (newTurn_of (y := c.nonVoters id) (n := ((c.nonVoters id).choice id []).1)
        (Bundles.C27_member _ _ ((c.nonVoters id).bun.progressOf id) []) ?_ ?_ (fun a => hq.still.member id a) (fun _ hx => hx)
        (amount_q hq) (fun _ => le_refl _))
    · unfold visitNoQuorum drop; rw [proposal_set, if_pos rfl]; rfl
    · unfold visitNoQuorum drop; rw [proposal_set, if_pos rfl]
      show (c.nonVoters id).now = _
      rw [hq.still.now]
  · refine .kept h1 (Or.inl ?_) rfl
    rintro ⟨q, hq, hle⟩
    rw [hpl] at hq; cases hq; omega
  · have hq := pointLate_q 0 ((c.setProgress id (c.choice id []).2).setProposal id
      { c.proposal id with nextUploader := (c.choice id []).1, updatedAt := c.now }) id (c.proposal id).nextUploader
    have ep : (c.visitEmpty id).proposal id = { c.proposal id with nextUploader := (c.choice id []).1, updatedAt := c.now } := by
      unfold visitEmpty
      rw [hq.still.proposal, proposal_set, if_pos rfl]
    refine .moved h1 (Or.inl ⟨pl, hpl, by omega⟩)
      (newTurn_of (y := c) (n := (c.choice id []).1) (Bundles.C27_member _ _ (c.bun.progressOf id) []) ?_ ?_ (fun _ hx => hx) (fun a => hq.still.member id a)
        (fun _ => le_refl _) (fun a => ?_))
    · rw [ep]
    · rw [ep]
    · have := amount_q hq a
      exact this
  · exact absurd ht (tally_not_failed (Well.fit hw) hpl (hw.bun.prop id) _)
  · have hq0 := tally_q 0 c id (c.proposal id)
    rw [ht] at hq0
    have hq0 : QSteps 0 c y := hq0
    have hq := pointLate_q 0 (if v.status = .valid then y.visitValid id (c.proposal id) v else y.visitOther id) id
      (c.proposal id).nextUploader
    have key : ∀ z, z = (if v.status = .valid then y.visitValid id (c.proposal id) v else y.visitOther id) →
        z.del = y.del ∧ z.st = y.st ∧ ∃ ex, (z.proposal id).nextUploader = (y.choice id ex).1 ∧
          (z.proposal id).updatedAt = y.now := by
      rintro z rfl
      split
      · unfold visitValid
        refine ⟨?_, ?_, Bundles.complement (Bundles.load (y.members id) y.del.amount (y.bun.progressOf id)) (c.proposal id).valid, ?_, ?_⟩
        · show (Chain.finalize _ id v).del = _
          rw [finalize_del]; rfl
        · show (Chain.finalize _ id v).st = _
          rw [finalize_vals]; rfl
        · rw [proposal_set, if_pos rfl]; rfl
        · rw [proposal_set, if_pos rfl]; rfl
      · refine ⟨rfl, rfl, [], ?_, ?_⟩
        · unfold visitOther drop; rw [proposal_set, if_pos rfl]; rfl
        · unfold visitOther drop; rw [proposal_set, if_pos rfl]; rfl
    generalize (if v.status = .valid then y.visitValid id (c.proposal id) v else y.visitOther id) = z at key hq ⊢
    obtain ⟨z1, z2, ex, z3, z4⟩ := key z rfl
    refine .moved h1 (Or.inl ⟨pl, hpl, by omega⟩)
      (newTurn_of (y := y) (n := (y.choice id ex).1) (Bundles.C27_member _ _ (y.bun.progressOf id) ex) ?_ ?_ (fun a => hq0.still.member id a) (fun a hx => ?_)
        (amount_q hq0) (fun a => ?_))
    · rw [hq.still.proposal]; exact z3
    · rw [hq.still.proposal, z4, hq0.still.now]
    · have := hq.still.member id a hx
      unfold member at this ⊢
      rw [z2] at this; exact this
    · rw [← z1]; exact amount_q hq a

theorem shifts_handled {gov : Addr} {l : List (Nat × Pool.Pool)} {c c' : Chain} (h : Handled gov l c c')
    (hn : (l.map (·.1)).Nodup) (hp : ∀ e ∈ l, c.pool.pools.get? e.1 = some e.2) (hs : totalAll c.del < 2 ^ 63) :
    OneByOne Shift (l.map (·.1)) c c' := by
  induction h with
  | nil _ => exact .nil
  | @cons e l c d c' hw hq hv hh ih =>
    rw [List.map_cons, List.nodup_cons] at hn
    have ha : ∀ j, j ≠ e.1 → Apart j c d := fun j hj => apart_visit hj (Well.keyed hw) hv
    refine .cons (shift_visit hw hs (hp e (by simp)) hv) ha
      (ih hn.2 (fun e' he' => ?_) (lt_of_le_of_lt (total_visit hw hq hv) hs))
    have hne : e'.1 ≠ e.1 := fun e2 => hn.1 (e2 ▸ List.mem_map.2 ⟨_, he', rfl⟩)
    rw [(ha e'.1 hne).pool]
    exact hp e' (by simp [he'])

theorem endBlock_step {gov : Addr} {c : Chain} (hc : (c.step gov .endBlock).crashed = false) :
    c.step gov .endBlock = c.endBlock := by
  have hc0 : c.crashed = false := by
    cases e : c.crashed with
    | false => rfl
    | true => unfold step at hc; rw [if_pos e, e] at hc; cases hc
  unfold step; rw [hc0]; rfl

theorem upgrade_same_ids {gov : Addr} {c : Chain} (h : Reachable gov c) (id : Nat) :
    id ∈ c.upgradePools.pool.pools.toList.map (·.1) ↔ ∃ p, c.pool.pools.get? id = some p := by
  have hI := h.good.mods.pool.inv
  have hP' : Pool.Spec.Reachable gov c.upgradePools.pool := pool_step h.good.mods.pool c.now .endBlock
  have hcnt : c.upgradePools.pool.count = c.pool.count :=
    pool_count (gov := gov) hI c.now (op := .endBlock) (fun m e => by cases e)
  rw [hI.dense id, ← hcnt, ← hP'.inv.dense id]
  exact Map.mem_keys_iff _ _

/-- C31: at the end of a block, after the runtime upgrades, every pool is handled once: a pool that can not run loses its
next uploader (and its proposal if it is disabled); a pool whose uploader is overdue, or whose bundle found no quorum in
time, gets a new turn; the others stay as they are.  (The points and slashes of the same step: `C24_endBlock`.) -/
theorem C31_endBlock (gov : Addr) (c : Chain) (h : Reachable gov c) (hs : Sane (c.step gov .endBlock))
    (hc : (c.step gov .endBlock).crashed = false) :
    ∃ s l, l.Nodup ∧ (∀ id, id ∈ l ↔ ∃ p, c.pool.pools.get? id = some p) ∧
      OneByOne Shift l { c with pool := s } (c.step gov .endBlock) := by
  have e0 := endBlock_step hc
  rw [e0] at hs hc ⊢
  rcases endBlock_handled h hs with e | hh
  · rw [e] at hc; cases hc
  · have hnd : (c.upgradePools.pool.pools.toList.map (·.1)).Nodup := Map.keys_nodup _
    exact ⟨_, _, hnd, upgrade_same_ids h,
      shifts_handled hh hnd (fun e he => (Map.mem_iff _ _ _).1 he) h.good.sane.small⟩

/-- the pool's own step within the end block -/
theorem shift_of_endBlock {gov : Addr} {c : Chain} (h : Reachable gov c) (hs : Sane (c.step gov .endBlock))
    (hc : (c.step gov .endBlock).crashed = false) {id : Nat} (hp : ∃ p, c.pool.pools.get? id = some p) :
    ∃ d d', d.now = c.now ∧ d.bun.params = c.bun.params ∧ Well gov d ∧ Shift id d d' ∧ Apart id d' (c.step gov .endBlock) ∧
      Stable d' (c.step gov .endBlock) ∧ ∃ pl, d.pool.pools.get? id = some pl ∧ d.visit id pl.uploadInterval = some d' := by
  have e0 := endBlock_step hc
  rw [e0] at hs hc ⊢
  rcases endBlock_handled h hs with e | hh
  · rw [e] at hc; cases hc
  · have hnd : (c.upgradePools.pool.pools.toList.map (·.1)).Nodup := Map.keys_nodup _
    obtain ⟨⟨i, pl⟩, hm, e⟩ := List.mem_map.1 ((upgrade_same_ids h id).2 hp)
    have e : i = id := e
    subst e
    obtain ⟨d, d', a1, a2, a3, a4, a5, a6, a7, a8⟩ := Handled.split' hh hnd hm
    have hpl : d.pool.pools.get? i = some pl := by rw [a1.pool]; exact (Map.mem_iff _ _ _).1 hm
    exact ⟨d, d', a2.now, a2.bparams, a3, shift_visit a3 (lt_of_le_of_lt a5 h.good.sane.small) hpl a6, a7, a8, pl, hpl, a6⟩

/-- a visit changes nothing of the pool but its progress -/
theorem visit_pool {gov : Addr} {c c' : Chain} (hk : Keyed c) {id interval : Nat} {pl : Pool.Pool}
    (hpl : c.pool.pools.get? id = some pl) (h : c.visit id interval = some c') :
    ∃ pl', c'.pool.pools.get? id = some pl' ∧ pl'.uploadInterval = pl.uploadInterval ∧ pl'.disabled = pl.disabled ∧
      pl'.plan = pl.plan := by
  have same : ∀ {x : Chain}, x.pool = c.pool → ∃ pl', x.pool.pools.get? id = some pl' ∧
      pl'.uploadInterval = pl.uploadInterval ∧ pl'.disabled = pl.disabled ∧ pl'.plan = pl.plan :=
    fun e => ⟨pl, by rw [e]; exact hpl, rfl, rfl, rfl⟩
  rcases visit_cases h with ⟨e, -, rfl⟩ | ⟨-, -, rfl⟩ | ⟨-, -, -, -, rfl⟩ | ⟨-, -, -, rfl⟩ | ⟨-, -, h0, rfl⟩ |
    ⟨-, -, -, ht⟩ | ⟨y, v, -, -, h0, -, ht, rfl⟩
  · refine same ?_
    unfold visitStopped
    split
    · rfl
    · split <;> rfl
  · exact same rfl
  · refine same ?_
    show (c.nonVoters id).pool = _
    rw [(nonVoters_q 0 c id).still.pool]
  · exact same rfl
  · refine same ?_
    unfold visitEmpty
    rw [(pointLate_q 0 _ id _).still.pool]; rfl
  · have hq := tally_q gov c id (c.proposal id)
    rw [ht] at hq
    exact same (QSteps.still hq).pool
  · have hq := tally_q gov c id (c.proposal id)
    rw [ht] at hq
    have hy := QSteps.still hq
    rw [(pointLate_q 0 _ id _).still.pool]
    split
    · unfold visitValid
      show ∃ pl', (Chain.finalize _ id v).pool.pools.get? id = some pl' ∧ _
      have hpy : (y.setProgress id (y.choiceFrom id (c.proposal id).valid).2).pool.pools.get? id = some pl := by
        show y.pool.pools.get? id = _
        rw [hy.pool]; exact hpl
      unfold finalize
      rw [hpy]
      refine ⟨{ pl with
        currentIndex := u64add pl.currentIndex (y.proposal id).bundleSize, totalBundles := pl.totalBundles + 1
        currentKey := (y.proposal id).toKey, currentSummary := (y.proposal id).summary }, ?_, rfl, rfl, rfl⟩
      show (Pool.incrementBundleInformation _ id _ _ _).pools.get? id = _
      unfold Pool.incrementBundleInformation
      rw [hpy]
      show (Map.set _ pl.id _).get? id = _
      rw [hk id pl hpl, Map.get?_set_self]
      rfl
    · refine same ?_
      show y.pool = _
      rw [hy.pool]

theorem u64add_eq {a b : Nat} (h : a + b < 2 ^ 64) : u64add a b = a + b := Nat.mod_eq_of_lt h

/-- C31: after every block nobody's upload turn is overdue: either the pool has no next uploader, or its upload interval and
timeout are not over.  (Times below `2^64`.) -/
theorem C31_unblocked (gov : Addr) (c : Chain) (h : Reachable gov c) (hs : Sane (c.step gov .endBlock))
    (hc : (c.step gov .endBlock).crashed = false) (id : Nat) (p₀ p : Pool.Pool) (hp₀ : c.pool.pools.get? id = some p₀)
    (hp : (c.step gov .endBlock).pool.pools.get? id = some p)
    (hb : c.now + p.uploadInterval + c.bun.params.uploadTimeout < 2 ^ 64) :
    ((c.step gov .endBlock).proposal id).nextUploader = none ∨
    (c.step gov .endBlock).now ≤
      ((c.step gov .endBlock).proposal id).updatedAt + p.uploadInterval + c.bun.params.uploadTimeout := by
  obtain ⟨d, d', e1, e2, hw, hsh, ha, hst, pl, hpl, hv⟩ := shift_of_endBlock h hs hc ⟨p₀, hp₀⟩
  obtain ⟨pl', hpl', i1, -⟩ := visit_pool (gov := gov) (Well.keyed hw) hpl hv
  rw [ha.pool, hpl'] at hp
  cases hp
  have hnow : (c.step gov .endBlock).now = c.now := by
    rw [ha.now, (visit_stable hw ((Stakers.has_iff _ _).2 ⟨pl, hpl⟩) hv).now, e1]
  rw [ha.proposal, hnow]
  rcases hsh with ⟨e, -, h1, -⟩ | ⟨-, h1, h2⟩ | ⟨-, -, h1⟩
  · exact Or.inl h1
  · right
    have ht := (hw.bun.prop id).time
    rw [e1] at ht
    rw [h2]
    rw [i1] at hb ⊢
    have hov : ¬ Overdue d id ∨ ¬ Due d id → c.now ≤ (d.proposal id).updatedAt + pl.uploadInterval + c.bun.params.uploadTimeout := by
      rintro (hx | hx)
      · by_contra hlt
        refine hx ⟨pl, hpl, ?_⟩
        have x1 : u64add (d.proposal id).updatedAt pl.uploadInterval = (d.proposal id).updatedAt + pl.uploadInterval :=
          u64add_eq (by omega)
        rw [x1, e1, e2, u64add_eq (by omega)]
        omega
      · by_contra hlt
        refine hx ⟨pl, hpl, ?_⟩
        rw [u64add_eq (by omega), e1]
        omega
    exact hov h1
  · right
    rw [h1.start, e1]
    omega

/-- C31: after every block a pool that is disabled or being upgraded has no next uploader. -/
theorem C31_stopped (gov : Addr) (c : Chain) (h : Reachable gov c) (hs : Sane (c.step gov .endBlock))
    (hc : (c.step gov .endBlock).crashed = false) (id : Nat) (p₀ p : Pool.Pool) (hp₀ : c.pool.pools.get? id = some p₀)
    (hp : (c.step gov .endBlock).pool.pools.get? id = some p)
    (hx : p.disabled = true ∨ (0 < p.plan.scheduledAt ∧ p.plan.scheduledAt ≤ c.now)) :
    ((c.step gov .endBlock).proposal id).nextUploader = none := by
  obtain ⟨d, d', e1, e2, hw, hsh, ha, hst, pl, hpl, hv⟩ := shift_of_endBlock h hs hc ⟨p₀, hp₀⟩
  obtain ⟨pl', hpl', i1, i2, i3⟩ := visit_pool (gov := gov) (Well.keyed hw) hpl hv
  rw [ha.pool, hpl'] at hp
  cases hp
  rw [i2, i3] at hx
  rw [ha.proposal]
  have hne : d.runError id ≠ none := by
    rw [Ne, runError_none_iff]
    rintro ⟨q, hq⟩
    have := hq.found
    rw [hpl] at this; cases this
    rcases hx with h1 | ⟨h1, h2⟩
    · rw [hq.enabled] at h1; cases h1
    · rcases hq.noUpgrade with h3 | h3
      · omega
      · rw [e1] at h3; omega
  rcases hsh with ⟨e, -, h1, -⟩ | ⟨h1, -⟩ | ⟨h1, -⟩
  · exact h1
  · exact absurd h1 hne
  · exact absurd h1 hne

/-- C31, the claim about the end of the block itself fails: a pool that stops being able to run through the decision made
in the same end block (here: too little delegation after a slash) has a next uploader until the next end block. -/
theorem C31_late : ∃ c id, Reachable Sample.gov c ∧ (c.step Sample.gov .endBlock).crashed = false ∧
    (c.step Sample.gov .endBlock).runError id ≠ none ∧
    ((c.step Sample.gov .endBlock).proposal id).nextUploader ≠ none := by
  refine ⟨Sample.run Sample.disputed [.updatePool Sample.gov 0 { minDelegation := some 350 }], 0,
    Sample.run_reachable Sample.reach_disputed _ (by decide +kernel), ?_⟩
  decide +kernel

/-! ## concrete cases -/

example : Sample.disputed.runError 0 = none ∧ (Sample.disputed.proposal 0).nextUploader ≠ none ∧
    (Sample.punished.proposal 0).updatedAt = Sample.disputed.now ∧ (Sample.punished.proposal 0).nextUploader = some 2 ∧
    Sample.disputed.now + 60 + Sample.disputed.bun.params.uploadTimeout < 2 ^ 64 := by decide +kernel
example : ((Sample.run Sample.voted [.disablePool Sample.gov 0]).proposal 0).nextUploader ≠ none ∧
    ((Sample.run Sample.voted [.disablePool Sample.gov 0, .endBlock]).proposal 0).nextUploader = none ∧
    ((Sample.run Sample.voted [.disablePool Sample.gov 0, .endBlock]).proposal 0).storageId = 0 := by decide +kernel

end Chain
end Verif.Chain
