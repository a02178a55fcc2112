import Verif.Chain.Uploaders
import Verif.Chain.SampleReach

/-!
# Pool records on the chain: C37 (runtime upgrades), C38 (disabled pools), C40

How every operation changes the records of x/pool, so that the theorems about the module carry over to the chain; a
disabled pool has no members.
-/

set_option linter.dupNamespace false

/-- the operation of x/pool that is part of an operation of the chain -/
inductive Verif.Chain.Chain.Op.PoolPart : Verif.Chain.Chain.Op → Verif.Pool.Op → Prop
  | submit (m : Verif.Chain.Chain.SubmitMsg) (i : Nat) (k sm : Verif.Pool.Str) : PoolPart (.submit m) (.bundleFinalized m.pool i k sm)
  | skip (m : Verif.Chain.Chain.SkipMsg) (i : Nat) (k sm : Verif.Pool.Str) : PoolPart (.skip m) (.bundleFinalized m.pool i k sm)
  | create (m : Verif.Pool.CreateMsg) : PoolPart (.createPool m) (.create m)
  | update (a : Verif.Addr) (id : Nat) (u : Verif.Pool.Update) : PoolPart (.updatePool a id u) (.update a id u)
  | enable (a : Verif.Addr) (id : Nat) : PoolPart (.enablePool a id) (.enable a id)
  | disable (a : Verif.Addr) (id : Nat) : PoolPart (.disablePool a id) (.disable a id)
  | schedule (m : Verif.Pool.ScheduleMsg) : PoolPart (.scheduleUpgrade m) (.schedule m)
  | cancel (a : Verif.Addr) (r : Verif.Pool.Str) : PoolPart (.cancelUpgrade a r) (.cancel a r)
  | params (a : Verif.Addr) (y : Verif.Pool.ParamsPayload) : PoolPart (.poolParams a y) (.updateParams a y)

namespace Verif.Pool
open Verif

/-- what a message does to the upgrade plan of a pool -/
inductive PlanChange (gov : Addr) (now : Nat) (p p' : Pool) : Op → Prop
  | same (q : Op) : p'.plan = p.plan → PlanChange gov now p p' q
  /-- governance schedules an upgrade of a runtime; pools with a plan keep it -/
  | scheduled (m : ScheduleMsg) : m.authority = gov → m.version ≠ 0 → m.binaries ≠ 0 → p.plan.scheduledAt = 0 →
      p.runtime = m.runtime → p'.plan = ⟨m.version, m.binaries, max m.scheduledAt now, m.duration⟩ →
      PlanChange gov now p p' (.schedule m)
  /-- governance cancels the upgrade of a runtime -/
  | cancelled : p'.plan = Plan.none → PlanChange gov now p p' (.cancel gov p.runtime)

/-- what a message does to the disabled flag of pool `id` -/
inductive Switch (gov : Addr) (id : Nat) (p p' : Pool) : Op → Prop
  | same (q : Op) : p'.disabled = p.disabled → Switch gov id p p' q
  | on : p'.disabled = false → Switch gov id p p' (.enable gov id)
  | off : p'.disabled = true → Switch gov id p p' (.disable gov id)

theorem record_step {gov : Addr} {s : State} (hs : Spec.Reachable gov s) (now : Nat) {q : Op} (hq : q ≠ .endBlock)
    {id : Nat} {p : Pool} (hp : s.pools.get? id = some p) :
    ∃ p', (step gov s now q).pools.get? id = some p' ∧ p'.protocol = p.protocol ∧ PlanChange gov now p p' q ∧
      Switch gov id p p' q := by
  have hI := hs.inv
  have same : ∀ {s' : State}, s'.pools.get? id = some p → ∃ p', s'.pools.get? id = some p' ∧ p'.protocol = p.protocol ∧
      PlanChange gov now p p' q ∧ Switch gov id p p' q := fun h => ⟨p, h, rfl, .same _ rfl, .same _ rfl⟩
  have one : ∀ (j : Nat) (r r' : Pool), s.pools.get? j = some r → r'.id = r.id → r'.protocol = r.protocol →
      PlanChange gov now r r' q → Switch gov j r r' q → ∃ p', (s.setPool r').pools.get? id = some p' ∧
        p'.protocol = p.protocol ∧ PlanChange gov now p p' q ∧ Switch gov id p p' q := by
    intro j r r' hr h1 h2 h3 h4
    have hj : r'.id = j := by rw [h1]; exact hI.key j r hr
    by_cases e : id = j
    · subst e
      rw [hp] at hr; cases hr
      exact ⟨r', by unfold State.setPool; rw [hj]; exact Map.get?_set_self _ _ _, h2, h3, h4⟩
    · refine same ?_
      unfold State.setPool; rw [hj]
      exact (Map.get?_set_ne _ _ e).trans hp
  cases q with
  | create m =>
    show ∃ p', (orElse s (create gov s now m)).pools.get? id = some p' ∧ _
    cases h : create gov s now m with
    | error e => exact same hp
    | ok s' =>
      obtain ⟨-, c0, -, -, c2⟩ := C40_create_effect gov s s' hs now m h
      have hne : id ≠ s.count := fun e => by rw [e] at hp; rw [show s.pools.get? s.count = none from c0] at hp; cases hp
      exact same ((c2 id hne).trans hp)
  | update a j u =>
    show ∃ p', (orElse s (update gov s a j u)).pools.get? id = some p' ∧ _
    unfold update
    split
    · exact same hp
    · split
      · exact same hp
      · split
        · exact same hp
        · rename_i r hr
          exact one j r (u.apply r) hr rfl rfl (.same _ rfl) (.same _ rfl)
  | enable a j =>
    show ∃ p', (orElse s (enable gov s a j)).pools.get? id = some p' ∧ _
    unfold enable
    split
    · exact same hp
    · rename_i ha
      have ha : gov = a := by simpa using ha
      split
      · exact same hp
      · rename_i r hr
        split
        · exact same hp
        · exact one j r { r with disabled := false } hr rfl rfl (.same _ rfl) (ha ▸ .on rfl)
  | disable a j =>
    show ∃ p', (orElse s (disable gov s a j)).pools.get? id = some p' ∧ _
    unfold disable
    split
    · exact same hp
    · rename_i ha
      have ha : gov = a := by simpa using ha
      split
      · exact same hp
      · rename_i r hr
        split
        · exact same hp
        · exact one j r { r with disabled := true } hr rfl rfl (.same _ rfl) (ha ▸ .off rfl)
  | schedule m =>
    show ∃ p', (orElse s (schedule gov s now m)).pools.get? id = some p' ∧ _
    cases h : schedule gov s now m with
    | error e => exact same hp
    | ok s' =>
      have he : s'.pools.get? id = _ := C37_schedule_effect gov s s' hs now m h id
      rw [show Spec.pool? s id = some p from hp] at he
      simp only [Option.map_some] at he
      split at he
      · rename_i hx
        refine ⟨_, he, rfl, .scheduled m ?_ ?_ ?_ hx.2 hx.1 rfl, .same _ rfl⟩
        all_goals
          unfold schedule at h
          split at h
          · cases h
          · split at h
            · cases h
            · rename_i h1 h2
              simp only [ne_eq, not_not] at h1
              first | exact h1.symm | (intro e; exact h2 (Or.inl e)) | (intro e; exact h2 (Or.inr e))
      · exact same he
  | cancel a r =>
    show ∃ p', (orElse s (cancel gov s a r)).pools.get? id = some p' ∧ _
    cases h : cancel gov s a r with
    | error e => exact same hp
    | ok s' =>
      have he : s'.pools.get? id = _ := C37_cancel_effect gov s s' hs a r h id
      rw [show Spec.pool? s id = some p from hp] at he
      simp only [Option.map_some] at he
      have ha : gov = a := by
        unfold cancel at h
        split at h
        · cases h
        · rename_i h1; simpa using h1
      split at he
      · rename_i hx
        subst ha
        obtain ⟨rfl, -⟩ := hx
        exact ⟨_, he, rfl, .cancelled rfl, .same _ rfl⟩
      · exact same he
  | updateParams a y =>
    show ∃ p', (orElse s (updateParams gov s a y)).pools.get? id = some p' ∧ _
    unfold updateParams
    repeat' split
    all_goals exact same hp
  | bundleFinalized j i k sm =>
    show ∃ p', (incrementBundleInformation s j i k sm).pools.get? id = some p' ∧ _
    unfold incrementBundleInformation
    split
    · exact same hp
    · rename_i r hr
      exact one j r { r with
        currentIndex := i, totalBundles := r.totalBundles + 1
        currentKey := k, currentSummary := sm } hr rfl rfl (.same _ rfl) (.same _ rfl)
  | endBlock => exact absurd rfl hq

theorem startKey_step {gov : Addr} {s : State} (hs : Spec.Reachable gov s) (now : Nat) {q : Op} {id : Nat} {p p' : Pool}
    (hp : s.pools.get? id = some p) (hp' : (step gov s now q).pools.get? id = some p') : p'.startKey = p.startKey := by
  have hI := hs.inv
  have one : ∀ (j : Nat) (r r' : Pool), s.pools.get? j = some r → r'.id = r.id → r'.startKey = r.startKey →
      (s.setPool r').pools.get? id = some p' → p'.startKey = p.startKey := by
    intro j r r' hr h1 h2 hx
    have hj : r'.id = j := by rw [h1]; exact hI.key j r hr
    unfold State.setPool at hx
    rw [hj] at hx
    by_cases e : id = j
    · subst e
      rw [hp] at hr; cases hr
      rw [show (s.pools.set id r').get? id = _ from Map.get?_set_self _ _ _] at hx
      cases hx; exact h2
    · rw [show (s.pools.set j r').get? id = _ from Map.get?_set_ne _ _ e, hp] at hx
      cases hx; rfl
  have same : ∀ {s' : State}, s'.pools.get? id = s.pools.get? id → s'.pools.get? id = some p' → p'.startKey = p.startKey := by
    intro s' e hx
    rw [e, hp] at hx; cases hx; rfl
  cases q with
  | create m =>
    have hp' : (orElse s (create gov s now m)).pools.get? id = some p' := hp'
    cases h : create gov s now m with
    | error e => rw [h] at hp'; exact same rfl hp'
    | ok s' =>
      rw [h] at hp'
      obtain ⟨-, c0, -, -, c2⟩ := C40_create_effect gov s s' hs now m h
      have hne : id ≠ s.count := fun e => by rw [e] at hp; rw [show s.pools.get? s.count = none from c0] at hp; cases hp
      exact same (c2 id hne) hp'
  | update a j u =>
    have hp' : (orElse s (update gov s a j u)).pools.get? id = some p' := hp'
    unfold update at hp'
    split at hp'
    · exact same rfl hp'
    · split at hp'
      · exact same rfl hp'
      · split at hp'
        · exact same rfl hp'
        · rename_i r hr
          exact one j r (u.apply r) hr rfl rfl hp'
  | enable a j =>
    have hp' : (orElse s (enable gov s a j)).pools.get? id = some p' := hp'
    unfold enable at hp'
    split at hp'
    · exact same rfl hp'
    · split at hp'
      · exact same rfl hp'
      · rename_i r hr
        split at hp'
        · exact same rfl hp'
        · exact one j r { r with disabled := false } hr rfl rfl hp'
  | disable a j =>
    have hp' : (orElse s (disable gov s a j)).pools.get? id = some p' := hp'
    unfold disable at hp'
    split at hp'
    · exact same rfl hp'
    · split at hp'
      · exact same rfl hp'
      · rename_i r hr
        split at hp'
        · exact same rfl hp'
        · exact one j r { r with disabled := true } hr rfl rfl hp'
  | schedule m =>
    have hp' : (orElse s (schedule gov s now m)).pools.get? id = some p' := hp'
    cases h : schedule gov s now m with
    | error e => rw [h] at hp'; exact same rfl hp'
    | ok s' =>
      rw [h] at hp'
      have he : s'.pools.get? id = _ := C37_schedule_effect gov s s' hs now m h id
      rw [show Spec.pool? s id = some p from hp] at he
      have hp' : s'.pools.get? id = some p' := hp'
      rw [hp'] at he
      simp only [Option.map_some] at he
      split at he <;> (cases he; rfl)
  | cancel a r =>
    have hp' : (orElse s (cancel gov s a r)).pools.get? id = some p' := hp'
    cases h : cancel gov s a r with
    | error e => rw [h] at hp'; exact same rfl hp'
    | ok s' =>
      rw [h] at hp'
      have he : s'.pools.get? id = _ := C37_cancel_effect gov s s' hs a r h id
      rw [show Spec.pool? s id = some p from hp] at he
      have hp' : s'.pools.get? id = some p' := hp'
      rw [hp'] at he
      simp only [Option.map_some] at he
      split at he <;> (cases he; rfl)
  | updateParams a y =>
    have hp' : (orElse s (updateParams gov s a y)).pools.get? id = some p' := hp'
    revert hp'
    unfold updateParams
    repeat' split
    all_goals exact fun hp' => same rfl hp'
  | bundleFinalized j i k sm =>
    have hp' : (incrementBundleInformation s j i k sm).pools.get? id = some p' := hp'
    unfold incrementBundleInformation at hp'
    split at hp'
    · exact same rfl hp'
    · rename_i r hr
      exact one j r { r with
        currentIndex := i, totalBundles := r.totalBundles + 1
        currentKey := k, currentSummary := sm } hr rfl rfl hp'
  | endBlock =>
    have hp' : (s.forEach (upgradePool now)).pools.get? id = some p' := hp'
    rw [get?_forEach hI.key (upgradePool_id now), hp] at hp'
    cases hp'
    unfold upgradePool
    dsimp only
    split
    · split <;> split <;> rfl
    · rfl

end Verif.Pool

namespace Verif.Stakers
open Verif

/-- only a join message makes members -/
theorem step_member {gov : Addr} {y : Sys} (h : Inv y) {op : Op} (hj : ∀ ans amt m, op ≠ .join ans amt m) {p : Nat} {a : Addr}
    (ha : (Sys.step gov y op).w.s.member p a = true) : y.w.s.member p a = true := by
  have eq : ∀ {s : State}, s.vals = y.w.s.vals → s.member p a = true → y.w.s.member p a = true := fun e hx => by
    unfold State.member at hx ⊢; rw [← e]; exact hx
  cases op with
  | createStaker c k d =>
    have ha : (orElseS y.w (createStaker y.w.s c k d)).s.member p a = true := ha
    revert ha
    unfold createStaker
    repeat' split
    all_goals exact fun ha => eq rfl ha
  | join ans amt m => exact absurd rfl (hj ans amt m)
  | leave c q =>
    have ha : (orElseS y.w (leavePool y.w.s y.now q c)).s.member p a = true := ha
    unfold leavePool at ha
    cases hv : y.w.s.vals.get? (q, c) with
    | none => rw [hv] at ha; exact ha
    | some v =>
    rw [hv] at ha
    have ha : (orElseS y.w ((y.w.s.setVal q c { v with leaving := true }).orderLeave y.now q c)).s.member p a = true := ha
    unfold State.orderLeave at ha
    split at ha
    · exact ha
    have ha : (y.w.s.vals.set (q, c) { v with leaving := true }).has (p, a) = true := ha
    rw [has_set] at ha
    show y.w.s.vals.has (p, a) = true
    rcases (by simpa using ha : ((p, a) = (q, c)) ∨ y.w.s.vals.has (p, a) = true) with e | e
    · rw [e, has_iff]; exact ⟨v, hv⟩
    · exact e
  | updateCommission c k =>
    have ha : (orElseS y.w (updateCommission y.w.s y.now c k)).s.member p a = true := ha
    revert ha
    unfold updateCommission
    repeat' split
    all_goals exact fun ha => eq rfl ha
  | updateMetadata c i v =>
    have ha : (orElseS y.w (updateMetadata y.w.s c i v)).s.member p a = true := ha
    revert ha
    unfold updateMetadata
    repeat' split
    all_goals exact fun ha => eq rfl ha
  | claim c x =>
    have ha : (orElse y.w (claimRewards y.w c x)).s.member p a = true := ha
    cases hr : claimRewards y.w c x with
    | error e => rw [hr] at ha; exact ha
    | ok w =>
      rw [hr] at ha
      obtain ⟨-, x, -, -, -, hs⟩ := claim_ok hr
      exact eq (s := w.s) (by rw [hs]) ha
  | updateParams c q =>
    have ha : (orElseS y.w (updateParams gov y.w.s c q)).s.member p a = true := ha
    revert ha
    unfold updateParams
    repeat' split
    all_goals exact fun ha => eq rfl ha
  | kick q st =>
    have ha : (y.w.s.kick y.now q st).vals.has (p, a) = true := ha
    rw [kick_vals, has_del] at ha
    show y.w.s.vals.has (p, a) = true
    simp only [Bool.and_eq_true] at ha
    exact ha.2
  | incrementPoints q st =>
    have ha : (y.w.s.incrementPoints q st).1.vals.has (p, a) = true := ha
    show y.w.s.vals.has (p, a) = true
    unfold State.incrementPoints at ha
    split at ha
    · exact ha
    · rename_i v hv
      rw [← has_setVal hv]; exact ha
  | resetPoints q st =>
    have ha : (y.w.s.resetPoints q st).vals.has (p, a) = true := ha
    show y.w.s.vals.has (p, a) = true
    unfold State.resetPoints at ha
    split at ha
    · exact ha
    · rename_i v hv
      rw [← has_setVal hv]; exact ha
  | increaseRewards st c =>
    have ha : (orElse y.w (increaseRewards y.w .pool st c)).s.member p a = true := ha
    cases hr : increaseRewards y.w .pool st c with
    | error e => rw [hr] at ha; exact ha
    | ok w =>
      rw [hr] at ha
      have ha : w.s.member p a = true := ha
      rcases increase_ok hr with ⟨-, rfl⟩ | ⟨x, -, -, hs⟩
      · exact ha
      · exact eq (s := w.s) (by rw [hs]) ha
  | beginBlock dt =>
    have ha : (beginBlock y.w.s (y.now + dt)).vals.has (p, a) = true := ha
    obtain ⟨h1, h2, -⟩ := beginBlock_inv (Nat.le_add_right y.now dt) h.mem h.ch h.lv h.tr h.rate
    show y.w.s.vals.has (p, a) = true
    rw [has_iff] at ha ⊢
    rcases h2.each a p with ⟨-, e⟩ | ⟨t, -, -, -, e⟩
    · rw [e, h1.vals] at ha; exact ha
    · rw [e] at ha; obtain ⟨v, hv⟩ := ha; cases hv
  | external b g => exact ha

end Verif.Stakers

namespace Verif.Chain
open Verif
open Chain
open Verif.Bundles (Proposal VoteDist Status)

namespace Chain

theorem finalize_pool (c : Chain) (id : Nat) (v : VoteDist) (gov : Addr) :
    (c.finalize id v).pool = c.pool ∨ ∃ i k sm, (c.finalize id v).pool = Pool.step gov c.pool c.now (.bundleFinalized id i k sm) := by
  unfold finalize
  split
  · exact Or.inl rfl
  · exact Or.inr ⟨_, _, _, rfl⟩

theorem register_pool (c : Chain) (m : SubmitMsg) (n : Option Addr) : (c.register m n).pool = c.pool := by
  unfold register; split <;> rfl

/-- a message changes x/pool by at most one operation of the module -/
theorem exec_pool {gov : Addr} {c c' : Chain} {op : Op} (h : exec gov c op = .ok c') (h5 : op ≠ .endBlock) :
    c'.pool = c.pool ∨ ∃ q, op.PoolPart q ∧ c'.pool = Pool.step gov c.pool c.now q := by
  cases op with
  | submit m =>
    have h' : c.submit m = .ok c' := h
    rcases submit_cases h' with ⟨-, rfl⟩ | ⟨-, y, v, ht, ⟨-, rfl⟩ | ⟨-, rfl⟩⟩
    · left
      unfold submitFirst
      rw [register_pool]
      show (c.resetPoints m.pool m.staker).pool = _
      rfl
    · have hq := tally_q gov (c.resetPoints m.pool m.staker) m.pool (c.proposal m.pool)
      rw [ht] at hq
      have hy := QSteps.still hq
      have e : y.pool = c.pool := hy.pool
      have en : y.now = c.now := hy.now
      unfold submitNext
      rw [register_pool]
      rcases finalize_pool (y.setProgress m.pool (y.choiceFrom m.pool (c.proposal m.pool).valid).2) m.pool v gov with h1 | ⟨i, k, sm, h1⟩
      · left; rw [h1]; exact e
      · right
        refine ⟨_, .submit m i k sm, ?_⟩
        rw [h1]
        show Pool.step gov y.pool y.now _ = _
        rw [e, en]
    · have hq := tally_q gov (c.resetPoints m.pool m.staker) m.pool (c.proposal m.pool)
      rw [ht] at hq
      have hy := QSteps.still hq
      left; exact hy.pool
  | vote m => obtain ⟨-, p, -, rfl⟩ := vote_ok h; exact Or.inl rfl
  | skip m =>
    have h' : c.skip m = .ok c' := h
    obtain ⟨y, v, ht, rfl⟩ := skip_cases h'
    have hq := tally_q gov (c.resetPoints m.pool m.staker) m.pool (c.proposal m.pool)
    rw [ht] at hq
    have hy := QSteps.still hq
    have e : y.pool = c.pool := hy.pool
    have en : y.now = c.now := hy.now
    unfold skipOutcome
    split
    · show (Chain.finalize _ m.pool v).pool = _ ∨ ∃ q, _ ∧ (Chain.finalize _ m.pool v).pool = _
      rcases finalize_pool (y.setProgress m.pool (y.choice m.pool [m.staker]).2) m.pool v gov with h1 | ⟨i, k, sm, h1⟩
      · left; rw [h1]; exact e
      · right
        refine ⟨_, .skip m i k sm, ?_⟩
        rw [h1]
        show Pool.step gov y.pool y.now _ = _
        rw [e, en]
    · exact Or.inl e
    · exact Or.inl e
  | claim a b i => obtain ⟨-, -, -, rfl⟩ := claim_ok h; exact Or.inl rfl
  | createStaker a k n =>
    have h' : c.createStaker a k n = .ok c' := h
    unfold createStaker at h'
    split at h'
    · cases h'
    · split at h'
      · cases h'
      · cases h'; exact Or.inl rfl
  | join m => obtain ⟨w, -, rfl⟩ := join_eq h; exact Or.inl rfl
  | leave a i => obtain ⟨s, hr, rfl⟩ := map_ok h; exact Or.inl rfl
  | updateCommission a k => obtain ⟨s, hr, rfl⟩ := map_ok h; exact Or.inl rfl
  | updateMetadata a i v => obtain ⟨s, hr, rfl⟩ := map_ok h; exact Or.inl rfl
  | claimRewards a x => obtain ⟨s, hr, rfl⟩ := map_ok h; exact Or.inl rfl
  | delegate a st n => obtain ⟨s, hr, rfl⟩ := map_ok h; exact Or.inl rfl
  | redelegate m => obtain ⟨s, hr, rfl⟩ := map_ok h; exact Or.inl rfl
  | undelegate a st n => obtain ⟨s, hr, rfl⟩ := map_ok h; exact Or.inl rfl
  | withdraw a st => obtain ⟨s, hr, rfl⟩ := map_ok h; exact Or.inl rfl
  | createFunder a => obtain ⟨s, hr, rfl⟩ := map_ok h; exact Or.inl rfl
  | fund m => obtain ⟨s, hr, rfl⟩ := map_ok h; exact Or.inl rfl
  | defund m => obtain ⟨s, hr, rfl⟩ := map_ok h; exact Or.inl rfl
  | createPool m =>
    obtain ⟨s, hs, rfl⟩ := createPool_eq h
    refine Or.inr ⟨_, .create m, ?_⟩
    show s = Pool.orElse c.pool (Pool.create gov c.pool c.now m)
    rw [hs]; rfl
  | updatePool a i u =>
    obtain ⟨s, hr, rfl⟩ := map_ok h
    refine Or.inr ⟨_, .update a i u, ?_⟩
    show s = Pool.orElse _ (Pool.update gov c.pool a i u)
    rw [hr]; rfl
  | enablePool a i =>
    obtain ⟨s, hr, rfl⟩ := map_ok h
    refine Or.inr ⟨_, .enable a i, ?_⟩
    show s = Pool.orElse _ (Pool.enable gov c.pool a i)
    rw [hr]; rfl
  | disablePool a i =>
    have h' : disablePool gov c a i = .ok c' := h
    unfold disablePool at h'
    split at h'
    · cases h'
    · rename_i s hs
      have q := (kickAll_q gov i (c.members i) { c with pool := s }).still
      have hx : c'.pool = s := by
        generalize hy : kickAll i (c.members i) { c with pool := s } = y at *
        unfold drain at h'
        split at h'
        · cases h'; exact q.pool
        · split at h'
          · cases h'
          · split at h'
            · cases h'
            · cases h'; exact q.pool
      refine Or.inr ⟨_, .disable a i, ?_⟩
      rw [hx]
      show s = Pool.orElse _ (Pool.disable gov c.pool a i)
      rw [hs]; rfl
  | scheduleUpgrade m =>
    obtain ⟨s, hr, rfl⟩ := map_ok h
    refine Or.inr ⟨_, .schedule m, ?_⟩
    show s = Pool.orElse _ (Pool.schedule gov c.pool c.now m)
    rw [hr]; rfl
  | cancelUpgrade a r =>
    obtain ⟨s, hr, rfl⟩ := map_ok h
    refine Or.inr ⟨_, .cancel a r, ?_⟩
    show s = Pool.orElse _ (Pool.cancel gov c.pool a r)
    rw [hr]; rfl
  | bundlesParams a y => obtain ⟨s, hr, rfl⟩ := map_ok h; exact Or.inl rfl
  | delegationParams a y => obtain ⟨s, hr, rfl⟩ := map_ok h; exact Or.inl rfl
  | stakersParams a y => obtain ⟨s, hr, rfl⟩ := map_ok h; exact Or.inl rfl
  | poolParams a y =>
    obtain ⟨s, hr, rfl⟩ := map_ok h
    refine Or.inr ⟨_, .params a y, ?_⟩
    show s = Pool.orElse _ (Pool.updateParams gov c.pool a y)
    rw [hr]; rfl
  | fundersParams a p => obtain ⟨s, hr, rfl⟩ := map_ok h; exact Or.inl rfl
  | beginBlock dt pr te r =>
    injection h with h
    subst h
    left
    show (c.afterSplit r ((c.newBlock dt r).splitInflation pr te)).pool = _
    cases hs : (c.newBlock dt r).splitInflation pr te with
    | none => rfl
    | some x =>
      obtain ⟨b, hl, rfl, -⟩ := splitInflation_eq hs
      rfl
  | endBlock => exact absurd rfl h5
  | external b gd gs gf => injection h with h; subst h; exact Or.inl rfl

theorem step_pool {gov : Addr} (c : Chain) {op : Op} (h5 : op ≠ .endBlock) :
    (c.step gov op).pool = c.pool ∨ ∃ q, op.PoolPart q ∧ (c.step gov op).pool = Pool.step gov c.pool c.now q := by
  unfold step
  split
  · exact Or.inl rfl
  · cases h : exec gov c op with
    | error e => exact Or.inl rfl
    | ok c' => exact exec_pool h h5

/-- a visit changes nothing of the pool's record but its progress -/
theorem visit_record {gov : Addr} {c c' : Chain} (hk : Keyed c) {id interval : Nat} {pl : Pool.Pool}
    (hpl : c.pool.pools.get? id = some pl) (h : c.visit id interval = some c') :
    ∃ pl', c'.pool.pools.get? id = some pl' ∧
      pl' = { pl with currentIndex := pl'.currentIndex, totalBundles := pl'.totalBundles
                      currentKey := pl'.currentKey, currentSummary := pl'.currentSummary } ∧
      (c.runError id ≠ none → pl' = pl ∧ c'.bun.finalized = c.bun.finalized) := by
  have same : ∀ {x : Chain}, x.pool = c.pool → (c.runError id ≠ none → x.bun.finalized = c.bun.finalized) → ∃ pl', x.pool.pools.get? id = some pl' ∧
      pl' = { pl with currentIndex := pl'.currentIndex, totalBundles := pl'.totalBundles
                      currentKey := pl'.currentKey, currentSummary := pl'.currentSummary } ∧
      (c.runError id ≠ none → pl' = pl ∧ x.bun.finalized = c.bun.finalized) :=
    fun e e2 => ⟨pl, by rw [e]; exact hpl, rfl, fun hx => ⟨rfl, e2 hx⟩⟩
  rcases visit_cases h with ⟨e, -, rfl⟩ | ⟨-, -, rfl⟩ | ⟨h1, -, -, -, rfl⟩ | ⟨-, -, -, rfl⟩ | ⟨h1, -, h0, rfl⟩ |
    ⟨h1, -, -, ht⟩ | ⟨y, v, h1, -, h0, -, ht, rfl⟩
  · refine same ?_ ?_
    · unfold visitStopped
      split
      · rfl
      · split <;> rfl
    · intro _
      unfold visitStopped
      split
      · rfl
      · split <;> rfl
  · exact same rfl (fun _ => rfl)
  · refine same ?_ (fun hx => absurd h1 hx)
    show (c.nonVoters id).pool = _
    rw [(nonVoters_q 0 c id).still.pool]
  · exact same rfl (fun _ => rfl)
  · refine same ?_ (fun hx => absurd h1 hx)
    unfold visitEmpty
    rw [(pointLate_q 0 _ id _).still.pool]; rfl
  · have hq := tally_q gov c id (c.proposal id)
    rw [ht] at hq
    exact same (QSteps.still hq).pool (fun hx => absurd h1 hx)
  · have hq := tally_q gov c id (c.proposal id)
    rw [ht] at hq
    have hy := QSteps.still hq
    rw [(pointLate_q 0 _ id _).still.pool]
    split
    · unfold visitValid
      show ∃ pl', (Chain.finalize _ id v).pool.pools.get? id = some pl' ∧ _
      have hpy : (y.setProgress id (y.choiceFrom id (c.proposal id).valid).2).pool.pools.get? id = some pl := by
        show y.pool.pools.get? id = _
        rw [hy.pool]; exact hpl
      unfold finalize
      rw [hpy]
      refine ⟨{ pl with
        currentIndex := u64add pl.currentIndex (y.proposal id).bundleSize, totalBundles := pl.totalBundles + 1
        currentKey := (y.proposal id).toKey, currentSummary := (y.proposal id).summary }, ?_, rfl, fun hx => absurd h1 hx⟩
      show (Pool.incrementBundleInformation _ id _ _ _).pools.get? id = _
      unfold Pool.incrementBundleInformation
      rw [hpy]
      show (Map.set _ pl.id _).get? id = _
      rw [hk id pl hpl, Map.get?_set_self]
      rfl
    · refine ⟨pl, ?_, rfl, fun hx => absurd h1 hx⟩
      show y.pool.pools.get? id = _
      rw [hy.pool]; exact hpl

theorem finalize_count (c : Chain) (id : Nat) (v : VoteDist) : (c.finalize id v).pool.count = c.pool.count := by
  unfold finalize
  split
  · rfl
  · show (Pool.incrementBundleInformation _ id _ _ _).count = _
    unfold Pool.incrementBundleInformation
    split <;> rfl

theorem visit_count {c c' : Chain} {id interval : Nat} (h : c.visit id interval = some c') :
    c'.pool.count = c.pool.count := by
  rcases visit_cases h with ⟨e, -, rfl⟩ | ⟨-, -, rfl⟩ | ⟨h1, -, -, -, rfl⟩ | ⟨-, -, -, rfl⟩ | ⟨h1, -, h0, rfl⟩ |
    ⟨h1, -, -, ht⟩ | ⟨y, v, h1, -, h0, -, ht, rfl⟩
  · unfold visitStopped
    split
    · rfl
    · split <;> rfl
  · rfl
  · show (c.nonVoters id).pool.count = _
    rw [(nonVoters_q 0 c id).still.pool]
  · rfl
  · unfold visitEmpty
    rw [(pointLate_q 0 _ id _).still.pool]; rfl
  · have hq := tally_q 0 c id (c.proposal id)
    rw [ht] at hq
    rw [(QSteps.still hq).pool]
  · have hq := tally_q 0 c id (c.proposal id)
    rw [ht] at hq
    have hy := QSteps.still hq
    rw [(pointLate_q 0 _ id _).still.pool]
    split
    · unfold visitValid
      show (Chain.finalize _ id v).pool.count = _
      rw [finalize_count]
      show y.pool.count = _
      rw [hy.pool]
    · show y.pool.count = _
      rw [hy.pool]

/-- the pool's record after an end block: its upgrade, then its progress -/
theorem endBlock_record {gov : Addr} {c : Chain} (h : Reachable gov c) (hc : (c.step gov .endBlock).crashed = false)
    {id : Nat} {p : Pool.Pool} (hp : c.pool.pools.get? id = some p) :
    ∃ p', (c.step gov .endBlock).pool.pools.get? id = some p' ∧
      p' = { Pool.upgradePool c.now p with
        currentIndex := p'.currentIndex, totalBundles := p'.totalBundles
        currentKey := p'.currentKey, currentSummary := p'.currentSummary } ∧
      (0 < (Pool.upgradePool c.now p).plan.scheduledAt ∧ (Pool.upgradePool c.now p).plan.scheduledAt ≤ c.now →
        p' = Pool.upgradePool c.now p ∧
        ∀ i, (c.step gov .endBlock).bun.finalized.get? (id, i) = c.bun.finalized.get? (id, i)) := by
  have hI := h.good.mods.pool
  have hP' : Pool.Spec.Reachable gov c.upgradePools.pool := pool_step hI c.now .endBlock
  have hk : Keyed c.upgradePools := keyed_of hP' rfl
  have hu : c.upgradePools.pool.pools.get? id = some (Pool.upgradePool c.now p) := by
    show (Pool.State.forEach c.pool (Pool.upgradePool c.now)).pools.get? id = _
    rw [Pool.get?_forEach hI.inv.key (Pool.upgradePool_id c.now), hp]; rfl
  have e0 := endBlock_step hc
  rw [e0] at hc ⊢
  rcases endBlock_split hk hu with e | ⟨d, d', a1, k1, hv, a2⟩
  · rw [e] at hc; cases hc
  · have hd : d.pool.pools.get? id = some (Pool.upgradePool c.now p) := a1.pool.trans hu
    obtain ⟨pl', h1, h2, h3⟩ := visit_record (gov := gov) k1 hd hv
    refine ⟨pl', a2.pool.trans h1, h2, fun hx => ?_⟩
    have hne : d.runError id ≠ none := by
      rw [Ne, runError_none_iff]
      rintro ⟨q, hq⟩
      have hf := hq.found
      rw [hd] at hf; cases hf
      rcases hq.noUpgrade with h4 | h4
      · omega
      · rw [a1.now] at h4
        have : c.now < (Pool.upgradePool c.now p).plan.scheduledAt := h4
        omega
    obtain ⟨h4, h5⟩ := h3 hne
    exact ⟨h4, fun i => by rw [a2.fin, h5, a1.fin]; rfl⟩

/-- a panic in the end block changes nothing but the crash -/
theorem endBlock_crash_pool {gov : Addr} {c : Chain} (h : Reachable gov c) (hc : (c.step gov .endBlock).crashed = true) :
    (c.step gov .endBlock).pool = c.pool := by
  unfold step at hc ⊢
  split
  · rfl
  · rename_i hcr
    rw [if_neg hcr] at hc
    have e : c.endBlock.crashed = true := hc
    show c.endBlock.pool = _
    unfold endBlock at e ⊢
    cases hv : visits c.upgradePools.pool.pools.toList c.upgradePools with
    | none => rfl
    | some x =>
      exfalso
      rw [hv] at e
      have e : x.crashed = true := e
      have hk : Keyed c.upgradePools := keyed_of (pool_step h.good.mods.pool c.now .endBlock) rfl
      have crash : ∀ (l : List (Nat × Pool.Pool)) (a b : Chain), Keyed a → visits l a = some b → b.crashed = a.crashed := by
        intro l
        induction l with
        | nil => intro a b _ hab; cases hab; rfl
        | cons y l ih =>
          intro a b ha hab
          unfold visits at hab
          split at hab
          · cases hab
          · rename_i d hd
            rw [ih d b (keyed_visit ha hd) hab]
            exact (apart_visit (id := y.1 + 1) (by omega) ha hd).crashed
      rw [crash _ _ _ hk hv] at e
      exact absurd e hcr

/-! ## C37 -/

/-- an upgrade of the pool has started -/
def Upgrading (c : Chain) (p : Pool.Pool) : Prop := 0 < p.plan.scheduledAt ∧ p.plan.scheduledAt ≤ c.now

/-- C37: from the scheduled time on until the upgrade is over, nobody can submit, vote, skip or claim in the pool. -/
theorem C37_blocked (gov : Addr) (c : Chain) (op : Op) (signer staker : Addr) (id : Nat) (p : Pool.Pool)
    (hp : c.pool.pools.get? id = some p) (hu : Upgrading c p) (hop : op.nodeMsg = some (signer, staker, id)) :
    c.step gov op = c := by
  unfold step
  split
  · rfl
  · cases he : exec gov c op with
    | error e => rfl
    | ok c' =>
      obtain ⟨q, hq⟩ := (C19_authorized gov c c' op signer staker id hop he).2
      have hf := hq.found
      rw [hp] at hf; cases hf
      rcases hq.noUpgrade with h1 | h1
      · have := hu.1; omega
      · have := hu.2; omega

/-- C37: the first end block at or after the scheduled time applies the upgrade; an end block after the end of the upgrade
clears the plan; before the scheduled time neither happens.  Nothing else of the pool changes but the progress of its
bundles, and as long as the upgrade is going on not even that: nothing is finalized. -/
theorem C37_endBlock (gov : Addr) (c : Chain) (h : Reachable gov c) (hc : (c.step gov .endBlock).crashed = false)
    (id : Nat) (p : Pool.Pool) (hp : c.pool.pools.get? id = some p)
    (ho : p.plan.scheduledAt + p.plan.duration < 2 ^ 64) :
    ∃ p', (c.step gov .endBlock).pool.pools.get? id = some p' ∧
      p' = { p with
        protocol := p'.protocol, plan := p'.plan, currentIndex := p'.currentIndex, totalBundles := p'.totalBundles
        currentKey := p'.currentKey, currentSummary := p'.currentSummary } ∧
      (¬ Upgrading c p → p'.protocol = p.protocol ∧ p'.plan = p.plan) ∧
      (Upgrading c p → p'.protocol.version = p.plan.version ∧ p'.protocol.binaries = p.plan.binaries) ∧
      (Upgrading c p → p.plan.scheduledAt + p.plan.duration ≤ c.now → p'.plan = Pool.Plan.none) ∧
      (Upgrading c p → c.now < p.plan.scheduledAt + p.plan.duration → p' = { p with protocol := p'.protocol } ∧
        ∀ i, (c.step gov .endBlock).bun.finalized.get? (id, i) = c.bun.finalized.get? (id, i)) := by
  obtain ⟨p', h1, h2, h3⟩ := endBlock_record h hc hp
  refine ⟨p', h1, ?_, ?_, ?_, ?_, ?_⟩
  · rw [h2]
    unfold Pool.upgradePool
    dsimp only
    split
    · split <;> split <;> rfl
    · rfl
  · intro hn
    have e : Pool.upgradePool c.now p = p := by
      unfold Pool.upgradePool
      rw [if_neg]
      exact fun hx => hn ⟨hx.1, hx.2⟩
    rw [h2, e]
    exact ⟨rfl, rfl⟩
  · intro hu
    rw [h2]
    unfold Pool.upgradePool
    rw [if_pos ⟨hu.1, hu.2⟩]
    dsimp only
    split <;> split
    · exact ⟨rfl, rfl⟩
    · rename_i hx; push Not at hx; exact ⟨hx.1, hx.2⟩
    · exact ⟨rfl, rfl⟩
    · rename_i hx; push Not at hx; exact ⟨hx.1, hx.2⟩
  · intro hu hle
    rw [h2]
    unfold Pool.upgradePool
    rw [if_pos ⟨hu.1, hu.2⟩]
    dsimp only
    rw [if_pos (by rw [u64add_eq ho]; exact hle)]
  · intro hu hlt
    have hpl : (Pool.upgradePool c.now p).plan = p.plan := by
      unfold Pool.upgradePool
      rw [if_pos ⟨hu.1, hu.2⟩]
      dsimp only
      rw [if_neg (by rw [u64add_eq ho]; omega)]
      split <;> rfl
    obtain ⟨h4, h5⟩ := h3 (by rw [hpl]; exact hu)
    refine ⟨?_, h5⟩
    rw [h4]
    unfold Pool.upgradePool
    rw [if_pos ⟨hu.1, hu.2⟩]
    dsimp only
    rw [if_neg (by rw [u64add_eq ho]; omega)]
    split <;> rfl

/-- C37: the runtime version of a pool changes only in an end block, and only to the one of its plan, when it is due. -/
theorem C37_never_early_chain (gov : Addr) (c : Chain) (h : Reachable gov c) (op : Op) (id : Nat) (p p' : Pool.Pool)
    (hp : c.pool.pools.get? id = some p) (hp' : (c.step gov op).pool.pools.get? id = some p')
    (hne : p'.protocol ≠ p.protocol) :
    op = .endBlock ∧ Upgrading c p ∧ p'.protocol = ⟨p.plan.version, p.plan.binaries, p.plan.scheduledAt⟩ := by
  by_cases ho : op = .endBlock
  · subst ho
    refine ⟨rfl, ?_⟩
    have hc : (c.step gov .endBlock).crashed = false := by
      cases e : (c.step gov .endBlock).crashed with
      | false => rfl
      | true => rw [endBlock_crash_pool h e, hp] at hp'; cases hp'; exact absurd rfl hne
    obtain ⟨q, h1, h2, -⟩ := endBlock_record h hc hp
    rw [hp'] at h1; cases h1
    rw [h2] at hne ⊢
    unfold Pool.upgradePool at hne ⊢
    by_cases hu : p.plan.scheduledAt > 0 ∧ c.now ≥ p.plan.scheduledAt
    · rw [if_pos hu] at hne ⊢
      refine ⟨hu, ?_⟩
      dsimp only at hne ⊢
      by_cases hx : p.protocol.version ≠ p.plan.version ∨ p.protocol.binaries ≠ p.plan.binaries
      · simp only [if_pos hx]
        split <;> rfl
      · simp only [if_neg hx] at hne
        split at hne <;> exact absurd rfl hne
    · rw [if_neg hu] at hne
      exact absurd rfl hne
  · exfalso
    rcases step_pool (gov := gov) c ho with e | ⟨q, hq, e⟩
    · rw [e, hp] at hp'; cases hp'; exact hne rfl
    · obtain ⟨r, h1, h2, -⟩ := Pool.record_step h.good.mods.pool c.now (q := q) (by rintro rfl; cases hq) hp
      rw [e, h1] at hp'; cases hp'
      exact hne h2

/-- C37: the plan of a pool is set only by governance scheduling an upgrade of its runtime (never for a time in the past,
never replacing a plan), and cleared only by governance cancelling it or by an end block after the end of the upgrade. -/
theorem C37_plan (gov : Addr) (c : Chain) (h : Reachable gov c) (op : Op) (hc : (c.step gov op).crashed = false) (id : Nat)
    (p p' : Pool.Pool) (hp : c.pool.pools.get? id = some p) (hp' : (c.step gov op).pool.pools.get? id = some p')
    (hne : p'.plan ≠ p.plan) :
    (∃ m, op = .scheduleUpgrade m ∧ m.authority = gov ∧ m.version ≠ 0 ∧ m.binaries ≠ 0 ∧ p.plan.scheduledAt = 0 ∧
      p.runtime = m.runtime ∧ p'.plan = ⟨m.version, m.binaries, max m.scheduledAt c.now, m.duration⟩) ∨
    (op = .cancelUpgrade gov p.runtime ∧ p'.plan = Pool.Plan.none) ∨
    (op = .endBlock ∧ Upgrading c p ∧ (p.plan.scheduledAt + p.plan.duration) % 2 ^ 64 ≤ c.now ∧ p'.plan = Pool.Plan.none) := by
  by_cases ho : op = .endBlock
  · subst ho
    right; right
    refine ⟨rfl, ?_⟩
    obtain ⟨q, h1, h2, -⟩ := endBlock_record h hc hp
    rw [hp'] at h1; cases h1
    rw [h2] at hne ⊢
    unfold Pool.upgradePool at hne ⊢
    by_cases hu : p.plan.scheduledAt > 0 ∧ c.now ≥ p.plan.scheduledAt
    · rw [if_pos hu] at hne ⊢
      refine ⟨hu, ?_⟩
      dsimp only at hne ⊢
      by_cases hx : c.now ≥ u64add p.plan.scheduledAt p.plan.duration
      · simp only [if_pos hx]
        exact ⟨hx, trivial⟩
      · simp only [if_neg hx] at hne
        split at hne <;> exact absurd rfl hne
    · rw [if_neg hu] at hne
      exact absurd rfl hne
  · rcases step_pool (gov := gov) c ho with e | ⟨q, hq, e⟩
    · rw [e, hp] at hp'; cases hp'; exact absurd rfl hne
    · obtain ⟨r, h1, -, h2, -⟩ := Pool.record_step h.good.mods.pool c.now (q := q) (by rintro rfl; cases hq) hp
      rw [e, h1] at hp'; cases hp'
      cases h2 with
      | same _ h3 => exact absurd h3 hne
      | scheduled m a1 a2 a3 a4 a5 a6 =>
        cases hq
        exact Or.inl ⟨m, rfl, a1, a2, a3, a4, a5, a6⟩
      | cancelled a1 =>
        cases hq
        exact Or.inr (Or.inl ⟨rfl, a1⟩)

/-! ## C38 -/

/-- disabled pools have no members -/
def Emptied (c : Chain) : Prop :=
  ∀ id p, c.pool.pools.get? id = some p → p.disabled = true → ∀ a, c.member id a = false

theorem Emptied.frame {c c' : Chain} (h : Emptied c) (hp : c'.pool = c.pool)
    (hm : ∀ id a, c'.member id a = true → c.member id a = true) : Emptied c' := by
  intro id p hx hd a
  rw [hp] at hx
  have := h id p hx hd a
  cases e : c'.member id a with
  | false => rfl
  | true => rw [hm id a e] at this; cases this

theorem Emptied.micro {gov : Addr} {c : Chain} (μ : Micro) (h : Emptied c) (hM : Modules gov c) (ho : μ.Ok gov c) :
    Emptied (μ.run gov c) := by
  have hSt := hM.st.inv
  cases μ with
  | del act => exact h.frame rfl (fun _ _ x => x)
  | st op =>
    refine h.frame rfl (fun id a hx => ?_)
    exact Stakers.step_member (gov := gov) (op := op) hSt (by rintro ans amt m rfl; exact ho.elim) hx
  | join m =>
    obtain ⟨ha, c', h'⟩ := ho
    have e : (Micro.join m).run gov c = c' := by
      show c.orElse (c.join m) = _
      rw [h']; rfl
    rw [e]
    obtain ⟨w, hw, rfl⟩ := join_eq h'
    obtain ⟨hans, -⟩ := Stakers.joinPool_ok hSt.mem ha hw
    obtain ⟨s1, he, hv⟩ := Stakers.join_vals hSt.mem ha hw
    intro id p hx hd a
    have hx : c.pool.pools.get? id = some p := hx
    have hne : id ≠ m.pool := by
      rintro rfl
      unfold poolAnswer at hans
      rw [hx] at hans
      simp only at hans
      rw [hd] at hans
      cases hans
    show (Stakers.noteGift m c.sw w).s.vals.has (id, a) = false
    have e2 : (Stakers.noteGift m c.sw w).s.vals = w.s.vals := by unfold Stakers.noteGift; split <;> rfl
    rw [e2, hv, Stakers.has_set]
    have h1 : c.st.vals.has (id, a) = false := h id p hx hd a
    have h2 : s1.vals.has (id, a) = false := by
      rcases Stakers.ensureFreeSlot_ok hSt.mem ha he with ⟨-, rfl⟩ | ⟨-, low, -, -, -, rfl⟩
      · exact h1
      · rw [Stakers.kick_vals, Stakers.has_del]
        have : c.sw.s.vals.has (id, a) = false := h1
        rw [this]; simp
    rw [h2]
    simp [hne]
  | fund op => exact h.frame rfl (fun _ _ x => x)
  | pool op =>
    intro id p' hx hd a
    show c.member id a = false
    have hx : (Pool.step gov c.pool c.now op).pools.get? id = some p' := hx
    obtain ⟨p, hp, -⟩ := (pool_op hM.pool c.now ho id).1 p' hx
    by_cases hq : op = .endBlock
    · subst hq
      have : (Pool.step gov c.pool c.now .endBlock).pools.get? id = some (Pool.upgradePool c.now p) := by
        show (Pool.State.forEach c.pool (Pool.upgradePool c.now)).pools.get? id = _
        rw [Pool.get?_forEach hM.pool.inv.key (Pool.upgradePool_id c.now), hp]; rfl
      rw [this] at hx; cases hx
      refine h id p hp ?_ a
      rw [← hd]
      unfold Pool.upgradePool
      dsimp only
      split
      · split <;> split <;> rfl
      · rfl
    · obtain ⟨r, h1, -, -, h2⟩ := Pool.record_step hM.pool c.now hq hp
      rw [h1] at hx; cases hx
      cases h2 with
      | same _ e => exact h id p hp (e ▸ hd) a
      | on e => rw [e] at hd; cases hd
      | off e =>
        have ho : c.members id = [] := ho
        cases e2 : c.member id a with
        | false => rfl
        | true => rw [← mem_members, ho] at e2; cases e2
  | createPool m =>
    obtain ⟨c', h'⟩ := ho
    have e : (Micro.createPool m).run gov c = c' := by
      show c.orElse (Chain.createPool gov c m) = _
      rw [h']; rfl
    rw [e]
    obtain ⟨s, hs, rfl⟩ := createPool_eq h'
    obtain ⟨-, c0, -, c1, c2⟩ := Pool.C40_create_effect gov c.pool s hM.pool c.now m hs
    intro id p hx hd a
    have hx : s.pools.get? id = some p := hx
    by_cases e : id = c.pool.count
    · subst e
      rw [show s.pools.get? c.pool.count = _ from c1] at hx
      cases hx; cases hd
    · exact h id p ((c2 id e).symm.trans hx) hd a
  | pay b hl => exact h.frame rfl (fun _ _ x => x)
  | blank id n => exact h.frame rfl (fun _ _ x => x)
  | next id n t => exact h.frame rfl (fun _ _ x => x)
  | cast id a v => exact h.frame rfl (fun _ _ x => x)
  | register m n =>
    obtain ⟨s, e⟩ := register_eq c m n
    show Emptied (c.register m n)
    rw [e]; exact h.frame rfl (fun _ _ x => x)
  | progress id l => exact h.frame rfl (fun _ _ x => x)
  | finalize id v =>
    intro j p' hx hd a
    have hst : (c.finalize id v).st = c.st := by obtain ⟨s, s', e⟩ := finalize_eq c id v; rw [e]
    show (c.finalize id v).st.vals.has (j, a) = false
    rw [hst]
    have hx : (c.finalize id v).pool.pools.get? j = some p' := hx
    rcases finalize_pool c id v gov with e | ⟨i, k, sm, e⟩
    · rw [e] at hx; exact h j p' hx hd a
    · rw [e] at hx
      have hI' := (pool_step hM.pool c.now (.bundleFinalized id i k sm)).inv
      have hcnt := pool_count (gov := gov) hM.pool.inv c.now (op := .bundleFinalized id i k sm) (fun m e => by cases e)
      have hlt := (hI'.dense j).1 ⟨p', hx⟩
      rw [hcnt] at hlt
      obtain ⟨p, hp⟩ := (hM.pool.inv.dense j).2 hlt
      obtain ⟨r, h1, -, -, h2⟩ := Pool.record_step hM.pool c.now (q := .bundleFinalized id i k sm) (by rintro ⟨⟩) hp
      rw [h1] at hx; cases hx
      cases h2 with
      | same _ e => exact h j p hp (e ▸ hd) a
  | bundlesParams a y => obtain ⟨s, e⟩ := bundlesParams_eq gov c a y; rw [e]; exact h.frame rfl (fun _ _ x => x)
  | block dt r =>
    refine h.frame rfl (fun id a hx => ?_)
    exact Stakers.step_member (gov := gov) (op := .beginBlock dt) hSt (by rintro ans amt m ⟨⟩) hx
  | external b gd gs gf => exact h.frame rfl (fun _ _ x => x)
  | crash => exact h.frame rfl (fun _ _ x => x)

theorem Reachable.emptied {gov : Addr} {c : Chain} (h : Reachable gov c) : Emptied c := by
  induction h with
  | init => intro id p hp; cases hp
  | step op h hs ih =>
    rename_i d
    have := Steps.invariant (P := fun x => Emptied x ∧ Modules gov x)
      (fun x μ hx ho hc => ⟨hx.1.micro μ hx.2 ho, hx.2.micro μ ho hc⟩) (step_steps h.good.sound op) hs.calm ⟨ih, h.good.mods⟩
    exact this.1

theorem kickAll_bank (id : Nat) (l : List Addr) (c : Chain) : (kickAll id l c).b = c.b ∧ (kickAll id l c).now = c.now := by
  induction l generalizing c with
  | nil => exact ⟨rfl, rfl⟩
  | cons a l ih => exact ih (c.kick id a)

theorem kickAll_other (id : Nat) (l : List Addr) (c : Chain) (j : Nat) (hj : j ≠ id) (a : Addr) :
    (kickAll id l c).st.vals.get? (j, a) = c.st.vals.get? (j, a) := by
  induction l generalizing c with
  | nil => rfl
  | cons x l ih =>
    show (kickAll id l (c.kick id x)).st.vals.get? (j, a) = _
    rw [ih]
    show (c.st.kick c.now id x).vals.get? (j, a) = _
    rw [Stakers.kick_vals, Map.get?_del, if_neg]
    intro e
    exact hj (congrArg Prod.fst e)

/-- C38: disabling a pool: only by governance, only an enabled pool.  Then the pool is disabled, has no members, its
account has no native coins any more, the treasury has them, and no other account, pool or membership has changed. -/
theorem C38_disable (gov : Addr) (c c' : Chain) (h : Reachable gov c) (a : Addr) (id : Nat)
    (hx : exec gov c (.disablePool a id) = .ok c') :
    a = gov ∧ (∃ p, c.pool.pools.get? id = some p ∧ p.disabled = false ∧
      c'.pool.pools.get? id = some { p with disabled := true }) ∧
    (∀ b, c'.member id b = false) ∧
    (c'.b (.pool id)).amt kyve = 0 ∧
    (c'.b (.mod .treasury)).amt kyve = (c.b (.mod .treasury)).amt kyve + (c.b (.pool id)).amt kyve ∧
    (∀ x d, (x ≠ .pool id ∧ x ≠ .mod .treasury) ∨ d ≠ kyve → (c'.b x).amt d = (c.b x).amt d) ∧
    (∀ j, j ≠ id → c'.pool.pools.get? j = c.pool.pools.get? j ∧ ∀ b, c'.st.vals.get? (j, b) = c.st.vals.get? (j, b)) := by
  have hx : disablePool gov c a id = .ok c' := hx
  unfold disablePool Pool.disable at hx
  by_cases ha : gov = a
  swap
  · rw [if_pos (by simpa using ha)] at hx; cases hx
  rw [if_neg (by simpa using ha)] at hx
  cases hp : c.pool.pools.get? id with
  | none => rw [hp] at hx; cases hx
  | some p =>
    rw [hp] at hx
    simp only at hx
    cases hd : p.disabled with
    | true => rw [hd] at hx; cases hx
    | false =>
      simp only [hd, Bool.false_eq_true, if_false] at hx
      have hid : p.id = id := h.good.mods.pool.inv.key id p hp
      have hkm := fun j b => kickAll_member id (c.members id) { c with pool := c.pool.setPool { p with disabled := true } } j b
      have hko := fun j hj b => kickAll_other id (c.members id) { c with pool := c.pool.setPool { p with disabled := true } } j hj b
      have hkb := kickAll_bank id (c.members id) { c with pool := c.pool.setPool { p with disabled := true } }
      have hkp := kickAll_pool_eq id (c.members id) { c with pool := c.pool.setPool { p with disabled := true } }
      generalize kickAll id (c.members id) { c with pool := c.pool.setPool { p with disabled := true } } = y at *
      have hpool : y.pool.pools.get? id = some { p with disabled := true } ∧
          ∀ j, j ≠ id → y.pool.pools.get? j = c.pool.pools.get? j := by
        rw [hkp]
        show (Map.set _ p.id _).get? id = _ ∧ ∀ j, j ≠ id → (Map.set _ p.id _).get? j = _
        rw [hid]
        exact ⟨Map.get?_set_self _ _ _, fun j hj => Map.get?_set_ne _ _ hj⟩
      have hmem : ∀ b, y.member id b = false := by
        intro b
        cases e : y.member id b with
        | false => rfl
        | true =>
          obtain ⟨h1, h2⟩ := (hkm id b).1 e
          exact absurd ⟨rfl, mem_members.2 h1⟩ h2
      have hb : y.b = c.b := hkb.1
      have fin : c'.pool = y.pool → c'.st = y.st →
          ((c'.b (.pool id)).amt kyve = 0 ∧
          (c'.b (.mod .treasury)).amt kyve = (c.b (.mod .treasury)).amt kyve + (c.b (.pool id)).amt kyve ∧
          (∀ x d, (x ≠ .pool id ∧ x ≠ .mod .treasury) ∨ d ≠ kyve → (c'.b x).amt d = (c.b x).amt d)) →
          a = gov ∧ (∃ q, some p = some q ∧ q.disabled = false ∧
            c'.pool.pools.get? id = some { q with disabled := true }) ∧
          (∀ b, c'.member id b = false) ∧
          (c'.b (.pool id)).amt kyve = 0 ∧
          (c'.b (.mod .treasury)).amt kyve = (c.b (.mod .treasury)).amt kyve + (c.b (.pool id)).amt kyve ∧
          (∀ x d, (x ≠ .pool id ∧ x ≠ .mod .treasury) ∨ d ≠ kyve → (c'.b x).amt d = (c.b x).amt d) ∧
          (∀ j, j ≠ id → c'.pool.pools.get? j = c.pool.pools.get? j ∧ ∀ b, c'.st.vals.get? (j, b) = c.st.vals.get? (j, b)) := by
        intro e1 e2 ⟨e3, e4, e5⟩
        refine ⟨ha.symm, ⟨p, rfl, hd, by rw [e1]; exact hpool.1⟩, fun b => ?_, e3, e4, e5, fun j hj => ⟨?_, fun b => ?_⟩⟩
        · unfold member; rw [e2]; exact hmem b
        · rw [e1]; exact hpool.2 j hj
        · rw [e2]; exact hko j hj b
      unfold drain at hx
      split at hx
      · rename_i hz
        cases hx
        rw [hb] at hz
        refine fin rfl rfl ⟨by rw [hb]; exact hz, by rw [hb, hz]; rfl, fun x d _ => by rw [hb]⟩
      · split at hx
        · cases hx
        · split at hx
          · cases hx
          · rename_i b' hs
            cases hx
            rw [hb] at hs
            have hs2 := (Bank.send_ok hs).2
            refine fin rfl rfl ⟨?_, ?_, ?_⟩
            · show (b' (.pool id)).amt kyve = 0
              rw [hs2, if_pos rfl, if_neg (by rintro ⟨⟩), Coins.amt_single, if_pos rfl]; omega
            · show (b' (.mod .treasury)).amt kyve = _
              rw [hs2, if_neg (by rintro ⟨⟩), if_pos rfl, Coins.amt_single, if_pos rfl]; omega
            · intro x d hxd
              show (b' x).amt d = _
              rw [hs2, Coins.amt_single]
              rcases hxd with ⟨x1, x2⟩ | x1
              · rw [if_neg x1, if_neg x2]; omega
              · rw [if_neg x1]; simp

/-- C38: in every reachable state a disabled pool has no members. -/
theorem C38_empty (gov : Addr) (c : Chain) (h : Reachable gov c) (id : Nat) (p : Pool.Pool)
    (hp : c.pool.pools.get? id = some p) (hd : p.disabled = true) (a : Addr) : c.member id a = false :=
  Reachable.emptied h id p hp hd a

/-- C38: nobody can join a disabled pool. -/
theorem C38_no_join (gov : Addr) (c : Chain) (m : Stakers.JoinMsg) (p : Pool.Pool)
    (hp : c.pool.pools.get? m.pool = some p) (hd : p.disabled = true) : c.step gov (.join m) = c := by
  unfold step
  split
  · rfl
  · have hj : ∃ e, c.join m = .error e := by
      unfold join
      have : c.poolAnswer m.pool = .disabled := by unfold poolAnswer; rw [hp]; simp [hd]
      rw [this]
      unfold Stakers.joinPool
      split
      · rename_i e he; exact ⟨e, rfl⟩
      · rename_i w hw
        exfalso
        revert hw
        repeat' split
        all_goals try (intro hw; cases hw)
        all_goals simp_all
    obtain ⟨e, he⟩ := hj
    show c.orElse (c.join m) = c
    rw [he]; rfl

/-- C38: a disabled pool stays disabled until governance enables it. -/
theorem C38_until_enabled (gov : Addr) (c : Chain) (h : Reachable gov c) (op : Op) (id : Nat) (p p' : Pool.Pool)
    (hp : c.pool.pools.get? id = some p) (hd : p.disabled = true)
    (hp' : (c.step gov op).pool.pools.get? id = some p') (hd' : p'.disabled = false) : op = .enablePool gov id := by
  by_cases ho : op = .endBlock
  · subst ho
    exfalso
    by_cases hc : (c.step gov .endBlock).crashed = false
    · obtain ⟨q, h1, h2, -⟩ := endBlock_record h hc hp
      rw [hp'] at h1; cases h1
      rw [h2] at hd'
      have : (Pool.upgradePool c.now p).disabled = p.disabled := by
        unfold Pool.upgradePool
        dsimp only
        split
        · split <;> split <;> rfl
        · rfl
      have hd' : (Pool.upgradePool c.now p).disabled = false := hd'
      rw [this, hd] at hd'; cases hd'
    · have : (c.step gov .endBlock).pool = c.pool := endBlock_crash_pool h (by simpa using hc)
      rw [this, hp] at hp'; cases hp'
      rw [hd] at hd'; cases hd'
  · rcases step_pool (gov := gov) c ho with e | ⟨q, hq, e⟩
    · rw [e, hp] at hp'; cases hp'; rw [hd] at hd'; cases hd'
    · obtain ⟨r, h1, -, -, h2⟩ := Pool.record_step h.good.mods.pool c.now (q := q) (by rintro rfl; cases hq) hp
      rw [e, h1] at hp'; cases hp'
      cases h2 with
      | same _ e => rw [e, hd] at hd'; cases hd'
      | on e => cases hq; rfl
      | off e2 => rw [e2] at hd'; cases hd'

/-- C38: governance can disable every enabled pool whose account holds less than `2^63` native coins. -/
theorem C38_accepted (gov : Addr) (c : Chain) (id : Nat) (p : Pool.Pool) (hp : c.pool.pools.get? id = some p)
    (hd : p.disabled = false) (hb : (c.b (.pool id)).amt kyve < 2 ^ 63) :
    ∃ c', exec gov c (.disablePool gov id) = .ok c' := by
  show ∃ c', disablePool gov c gov id = .ok c'
  unfold disablePool Pool.disable
  rw [if_neg (by simp), hp]
  simp only [hd, Bool.false_eq_true, if_false]
  have hkb := kickAll_bank id (c.members id) { c with pool := c.pool.setPool { p with disabled := true } }
  generalize kickAll id (c.members id) { c with pool := c.pool.setPool { p with disabled := true } } = y at *
  have e : y.b = c.b := hkb.1
  unfold drain
  rw [e]
  by_cases h0 : (c.b (.pool id)).amt kyve = 0
  · rw [if_pos h0]; exact ⟨_, rfl⟩
  · rw [if_neg h0, if_neg (by omega)]
    obtain ⟨b', hs⟩ := Bank.send_succeeds (b := c.b) (s := .pool id) (t := .mod .treasury)
      (c := Coins.single kyve ((c.b (.pool id)).amt kyve)) (fun d => by
        rw [Coins.amt_single]
        split
        · rename_i e; rw [e]
        · exact Nat.zero_le _)
    rw [hs]
    exact ⟨_, rfl⟩

/-! ## C40 -/

/-- C40: the pools of every reachable chain are numbered `0, …, n-1`, and exactly these have a funding state. -/
theorem C40_chain (gov : Addr) (c : Chain) (h : Reachable gov c) (id : Nat) :
    ((c.pool.pools.get? id).isSome ↔ id < c.pool.count) ∧ (∀ p, c.pool.pools.get? id = some p → p.id = id) ∧
    (c.fund.active.has id = true ↔ (c.pool.pools.get? id).isSome) := by
  have h1 := Pool.C40_ids_dense gov c.pool h.good.mods.pool id
  exact ⟨h1.1, h1.2, (h.good.mods.fund.active id).trans h1.1.symm⟩

/-- C40: creating a pool (only by governance) uses the next unused id, with an empty funding state, and changes nothing
else in x/pool and x/funders. -/
theorem C40_create_chain (gov : Addr) (c c' : Chain) (h : Reachable gov c) (m : Pool.CreateMsg)
    (hx : exec gov c (.createPool m) = .ok c') :
    m.authority = gov ∧ c.pool.pools.get? c.pool.count = none ∧ c'.pool.count = c.pool.count + 1 ∧
    c'.pool.pools.get? c.pool.count = some { m.pool c.now with id := c.pool.count } ∧
    c'.fund.active.get? c.pool.count = some [] ∧
    (∀ id, id ≠ c.pool.count → c'.pool.pools.get? id = c.pool.pools.get? id ∧ c'.fund.active.get? id = c.fund.active.get? id) ∧
    c'.fund.fundings = c.fund.fundings ∧ c'.b = c.b := by
  obtain ⟨s, hs, rfl⟩ := createPool_eq hx
  obtain ⟨h1, h2, h3, h4, h5⟩ := Pool.C40_create_effect gov c.pool s h.good.mods.pool c.now m hs
  exact ⟨h1, h2, h3, h4, Map.get?_set_self _ _ _, fun id hne => ⟨h5 id hne, Map.get?_set_ne _ _ hne⟩, rfl, rfl⟩

/-- C40: pools never disappear, and the number of pools grows only by governance creating one. -/
theorem C40_permanent_chain (gov : Addr) (c : Chain) (h : Reachable gov c) (op : Op) :
    (∀ id p, c.pool.pools.get? id = some p → ∃ p', (c.step gov op).pool.pools.get? id = some p' ∧ p'.id = id ∧
      p'.startKey = p.startKey) ∧
    ((c.step gov op).pool.count = c.pool.count ∨
      ∃ m, op = .createPool m ∧ m.authority = gov ∧ (c.step gov op).pool.count = c.pool.count + 1) := by
  by_cases ho : op = .endBlock
  · subst ho
    cases hc : (c.step gov .endBlock).crashed with
    | true =>
      rw [endBlock_crash_pool h hc]
      exact ⟨fun id p hp => ⟨p, hp, h.good.mods.pool.inv.key id p hp, rfl⟩, Or.inl rfl⟩
    | false =>
      constructor
      · intro id p hp
        obtain ⟨p', h1, h2, -⟩ := endBlock_record h hc hp
        refine ⟨p', h1, ?_, ?_⟩
        · rw [h2]; exact (Pool.upgradePool_id c.now p).trans (h.good.mods.pool.inv.key id p hp)
        · rw [h2]
          show (Pool.upgradePool c.now p).startKey = _
          unfold Pool.upgradePool
          dsimp only
          split
          · split <;> split <;> rfl
          · rfl
      · left
        have e0 := endBlock_step hc
        rw [e0] at hc ⊢
        unfold endBlock at hc ⊢
        cases hv : visits c.upgradePools.pool.pools.toList c.upgradePools with
        | none => rfl
        | some x =>
          show x.pool.count = _
          have cnt : ∀ (l : List (Nat × Pool.Pool)) (a b : Chain), visits l a = some b → b.pool.count = a.pool.count := by
            intro l
            induction l with
            | nil => intro a b hab; cases hab; rfl
            | cons y l ih =>
              intro a b hab
              unfold visits at hab
              split at hab
              · cases hab
              · rename_i d hd
                rw [ih d b hab]
                exact visit_count hd
          rw [cnt _ _ _ hv]
          exact pool_count (gov := gov) h.good.mods.pool.inv c.now (op := .endBlock) (fun m e => by cases e)
  · rcases step_pool (gov := gov) c ho with e | ⟨q, hq, e⟩
    · rw [e]
      exact ⟨fun id p hp => ⟨p, hp, h.good.mods.pool.inv.key id p hp, rfl⟩, Or.inl rfl⟩
    · constructor
      · intro id p hp
        obtain ⟨r, h1, -⟩ := Pool.record_step h.good.mods.pool c.now (q := q) (by rintro rfl; cases hq) hp
        refine ⟨r, by rw [e]; exact h1, (pool_step h.good.mods.pool c.now q).inv.key id r h1, ?_⟩
        exact Pool.startKey_step h.good.mods.pool c.now hp h1
      · by_cases hcr : ∃ m, q = .create m
        · obtain ⟨m, rfl⟩ := hcr
          cases hq
          rw [e]
          show (Pool.orElse c.pool (Pool.create gov c.pool c.now m)).count = _ ∨ _
          cases hs : Pool.create gov c.pool c.now m with
          | error e => exact Or.inl rfl
          | ok s =>
            obtain ⟨h1, -, h3, -⟩ := Pool.C40_create_effect gov c.pool s h.good.mods.pool c.now m hs
            right
            refine ⟨m, rfl, h1, ?_⟩
            show (Pool.orElse c.pool (Pool.create gov c.pool c.now m)).count = _
            rw [hs]; exact h3
        · left
          rw [e]
          exact pool_count (gov := gov) h.good.mods.pool.inv c.now (op := q) (fun m e => hcr ⟨m, e⟩)

/-! ## C54 -/

/-- C54 for every pool of every reachable chain. -/
theorem C54_reachable (gov : Addr) (c : Chain) (h : Reachable gov c) (id : Nat) (p : Pool.Pool)
    (hp : c.pool.pools.get? id = some p) :
    (c.poolStatus p).reason = c.runError id ∧
    ((c.poolStatus p = .active ∨ c.poolStatus p = .noFunds) ↔ CanRun c id p) ∧
    (c.poolStatus p = .noFunds ↔ CanRun c id p ∧ ∀ d, (Funders.totalActiveFunding c.fund id).amt d = 0) :=
  C54_status c id p hp (h.good.mods.pool.inv.key id p hp)

/-! ## concrete cases -/

/-- an upgrade of the pool's runtime is scheduled, for 100 seconds from time 200 on -/
def _root_.Verif.Chain.Sample.planned : Chain :=
  Sample.run Sample.voted [.scheduleUpgrade ⟨Sample.gov, 1, 2, 3, 200, 100⟩]
/-- the upgrade has begun -/
def _root_.Verif.Chain.Sample.upgrading : Chain := Sample.run Sample.planned [.endBlock, .beginBlock 150 0 0 false]

theorem _root_.Verif.Chain.Sample.reach_planned : Reachable Sample.gov Sample.planned :=
  Sample.run_reachable Sample.reach_voted _ (by decide +kernel)
theorem _root_.Verif.Chain.Sample.reach_upgrading : Reachable Sample.gov Sample.upgrading :=
  Sample.run_reachable Sample.reach_planned _ (by decide +kernel)

example : (Sample.planned.pool.pools.get? 0).map (·.plan) = some ⟨2, 3, 200, 100⟩ ∧
    (Sample.upgrading.pool.pools.get? 0).map (·.protocol.version) = some 1 ∧ Sample.upgrading.now = 210 ∧
    ((Sample.upgrading.step Sample.gov .endBlock).pool.pools.get? 0).map (fun p => (p.protocol.version, p.plan.scheduledAt)) =
      some (2, 200) ∧
    (Sample.upgrading.step Sample.gov .endBlock).crashed = false ∧
    ((Sample.run Sample.upgrading [.endBlock, .beginBlock 90 0 0 false, .endBlock]).pool.pools.get? 0).map
      (fun p => (p.protocol.version, p.plan.scheduledAt)) = some (2, 0) := by decide +kernel
/-- the pool's account has 5 ukyve -/
example : (let c := Sample.run Sample.voted [.external (fun a => if a = .pool 0 then Coins.single kyve 5 else Coins.zero) Coins.zero Coins.zero Coins.zero]
    (c.members 0).length = 4 ∧ (exec Sample.gov c (.disablePool Sample.gov 0)).isOk = true ∧
    (((c.step Sample.gov (.disablePool Sample.gov 0)).b (.mod .treasury)).amt kyve = 5)) := by decide +kernel

end Chain
end Verif.Chain
