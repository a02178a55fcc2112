import Verif.Pool.Model

/-!
# Properties of x/pool (C37, C39, C40 inside the module, C52 for pool messages)
-/

set_option linter.dupNamespace false

namespace Verif.Pool
open Verif

namespace Spec

/-- pool `id` in state `s` -/
def pool? (s : State) (id : Nat) : Option Pool := s.pools.get? id

/-- a runtime upgrade is planned -/
def Planned (p : Pool) : Prop := p.plan.scheduledAt ≠ 0

/-- the planned upgrade is due at time `t` -/
def Due (p : Pool) (t : Nat) : Prop := Planned p ∧ p.plan.scheduledAt ≤ t

/-- the pool runs what its plan says -/
def Applied (p : Pool) : Prop := p.protocol.version = p.plan.version ∧ p.protocol.binaries = p.plan.binaries

/-- states reachable from an empty chain by any messages and end-blocks at any times -/
def Reachable (gov : Addr) (s : State) : Prop := ∃ ops, s = run gov State.init ops

end Spec
open Spec

/-! ## invariant: pools are stored under their ids, which are 0 .. count-1 -/

structure Inv (s : State) : Prop where
  key : ∀ k p, s.pools.get? k = some p → p.id = k
  dense : ∀ k, (∃ p, s.pools.get? k = some p) ↔ k < s.count

theorem Inv.init : Inv State.init := ⟨by simp [State.init], by simp [State.init]⟩

theorem get?_forEach {s : State} (hs : ∀ k p, s.pools.get? k = some p → p.id = k) {f : Pool → Pool}
    (hf : ∀ p, (f p).id = p.id) (k : Nat) : (s.forEach f).pools.get? k = (s.pools.get? k).map f := by
  unfold State.forEach
  simp only
  have h1 : s.pools.toList.foldl (fun m e => m.set (f e.2).id (f e.2)) s.pools
      = s.pools.toList.foldl (fun m e => m.set e.1 (f e.2)) s.pools := by
    have : ∀ (l : List (Nat × Pool)) (m : Map Nat Pool), (∀ e ∈ l, s.pools.get? e.1 = some e.2) →
        l.foldl (fun m e => m.set (f e.2).id (f e.2)) m = l.foldl (fun m e => m.set e.1 (f e.2)) m := by
      intro l
      induction l with
      | nil => intro m _; rfl
      | cons e t ih =>
        intro m h
        rw [List.foldl_cons, List.foldl_cons, hf, hs e.1 e.2 (h e (by simp))]
        exact ih _ (fun e he => h e (by simp [he]))
    exact this _ _ (fun e he => (Map.mem_iff _ _ _).1 he)
  rw [h1, get?_foldl_set (fun e : Nat × Pool => f e.2) _ (Map.keys_nodup _)]
  have e : getL k s.pools.toList = s.pools.get? k := rfl
  rw [e]
  cases h : s.pools.get? k <;> simp

theorem forEach_count (s : State) (f : Pool → Pool) : (s.forEach f).count = s.count := rfl

theorem Inv.forEach {s : State} (h : Inv s) {f : Pool → Pool} (hf : ∀ p, (f p).id = p.id) : Inv (s.forEach f) := by
  refine ⟨?_, ?_⟩
  · intro k p hp
    rw [get?_forEach h.key hf] at hp
    cases hq : s.pools.get? k with
    | none => rw [hq] at hp; cases hp
    | some q => rw [hq] at hp; cases hp; rw [hf]; exact h.key k q hq
  · intro k
    rw [get?_forEach h.key hf, forEach_count, ← h.dense k]
    cases hq : s.pools.get? k <;> simp

theorem Inv.setPool {s : State} (h : Inv s) {p q : Pool} {k : Nat} (hq : s.pools.get? k = some q) (hp : p.id = q.id) :
    Inv (s.setPool p) := by
  have hid : p.id = k := by rw [hp]; exact h.key k q hq
  refine ⟨?_, ?_⟩
  · intro j r hr
    simp only [State.setPool, Map.get?_set] at hr
    split at hr
    · cases hr; omega
    · exact h.key j r hr
  · intro j
    simp only [State.setPool, Map.get?_set]
    split
    · rename_i e
      rw [e, hid]
      simp only [Option.some.injEq, exists_eq']
      exact iff_of_true trivial ((h.dense k).1 ⟨q, hq⟩)
    · exact h.dense j

theorem Inv.append {s : State} (h : Inv s) (p : Pool) : Inv (s.append p) := by
  refine ⟨?_, ?_⟩
  · intro j r hr
    simp only [State.append, Map.get?_set] at hr
    split at hr
    · cases hr; rename_i e; exact e.symm
    · exact h.key j r hr
  · intro j
    simp only [State.append, Map.get?_set]
    split
    · rename_i e; subst e; simp
    · rename_i e
      rw [h.dense j]; omega

theorem upgradePool_id (now : Nat) (p : Pool) : (upgradePool now p).id = p.id := by
  unfold upgradePool
  split
  · simp only
    split <;> split <;> rfl
  · rfl

theorem schedulePool_id (now : Nat) (m : ScheduleMsg) (p : Pool) : (schedulePool now m p).id = p.id := by
  unfold schedulePool
  split
  · rfl
  · split <;> rfl

theorem cancelPool_id (r : Str) (p : Pool) : (cancelPool r p).id = p.id := by
  unfold cancelPool
  split
  · rfl
  · split <;> rfl

theorem Inv.step {gov : Addr} {s : State} (h : Inv s) (now : Nat) (op : Op) : Inv (step gov s now op) := by
  cases op with
  | create m =>
    simp only [Pool.step, create]
    split
    · exact h
    · split
      · exact h
      · split
        · exact h
        · exact h.append _
  | update a id u =>
    simp only [Pool.step, Pool.update]
    split
    · exact h
    · split
      · exact h
      · split
        · exact h
        · rename_i p hp
          exact h.setPool hp rfl
  | enable a id =>
    simp only [Pool.step, Pool.enable]
    split
    · exact h
    · split
      · exact h
      · rename_i p hp
        split
        · exact h
        · exact h.setPool hp rfl
  | disable a id =>
    simp only [Pool.step, Pool.disable]
    split
    · exact h
    · split
      · exact h
      · rename_i p hp
        split
        · exact h
        · exact h.setPool hp rfl
  | schedule m =>
    simp only [Pool.step, Pool.schedule]
    split
    · exact h
    · split
      · exact h
      · exact h.forEach (schedulePool_id _ _)
  | cancel a r =>
    simp only [Pool.step, Pool.cancel]
    split
    · exact h
    · exact h.forEach (cancelPool_id _)
  | updateParams a y =>
    simp only [Pool.step, Pool.updateParams]
    split
    · exact h
    · split
      · exact h
      · exact ⟨h.key, h.dense⟩
  | bundleFinalized id i k sm =>
    simp only [Pool.step, incrementBundleInformation]
    split
    · exact h
    · rename_i p hp
      exact h.setPool hp rfl
  | endBlock => exact h.forEach (upgradePool_id _)

theorem run_snoc (gov : Addr) (s : State) (ops : List (Nat × Op)) (o : Nat × Op) :
    run gov s (ops ++ [o]) = step gov (run gov s ops) o.1 o.2 := by
  simp [run, List.foldl_append]

theorem Inv.run {gov : Addr} (ops : List (Nat × Op)) : Inv (run gov State.init ops) := by
  induction ops using List.reverseRecOn with
  | nil => exact Inv.init
  | append_singleton ops o ih => rw [run_snoc]; exact ih.step _ _

theorem Spec.Reachable.inv {gov : Addr} {s : State} (h : Reachable gov s) : Inv s := by
  obtain ⟨ops, rfl⟩ := h; exact Inv.run ops

/-! ## examples used below -/

def exCreate : CreateMsg :=
  ⟨5, 1, 10, 0, 0, 60, 0, 100, 50, 7, 8, true, 1, 1⟩
def exSchedule : ScheduleMsg := ⟨5, 10, 20, 21, 1000, 100⟩
/-- two pools, an upgrade scheduled for 1000 -/
def exOps : List (Nat × Op) := [(1, .create exCreate), (2, .create exCreate), (3, .schedule exSchedule)]

theorem exReach : Reachable 5 (run 5 State.init exOps) := ⟨exOps, rfl⟩

/-! ## C37 runtime upgrades -/

/-- C37: an end-block leaves a pool without a due upgrade completely alone; a due upgrade is applied in this very
end-block; the plan is cleared if the upgrade is over (scheduled time plus duration reached) and kept otherwise.
Nothing else of the pool changes. -/
theorem C37_end_block (gov : Addr) (s : State) (hs : Reachable gov s) (now id : Nat) (p : Pool)
    (hp : pool? s id = some p) (ho : p.plan.scheduledAt + p.plan.duration < 2 ^ 64) :
    ∃ p', pool? (step gov s now .endBlock) id = some p' ∧
      (¬ Due p now → p' = p) ∧
      (Due p now →
        p'.protocol.version = p.plan.version ∧ p'.protocol.binaries = p.plan.binaries ∧
        (p.plan.scheduledAt + p.plan.duration ≤ now → p'.plan = Plan.none) ∧
        (now < p.plan.scheduledAt + p.plan.duration → p'.plan = p.plan) ∧
        p' = { p with protocol := p'.protocol, plan := p'.plan }) := by
  refine ⟨upgradePool now p, ?_, ?_, ?_⟩
  · unfold pool? at hp ⊢
    simp only [step, handlePoolUpgrades]
    rw [get?_forEach hs.inv.key (upgradePool_id now), hp]
    rfl
  · intro h
    unfold upgradePool
    rw [if_neg]
    rintro ⟨h1, h2⟩
    exact h ⟨by unfold Planned; omega, h2⟩
  · rintro ⟨h1, h2⟩
    unfold Planned at h1
    have hadd : u64add p.plan.scheduledAt p.plan.duration = p.plan.scheduledAt + p.plan.duration := by
      unfold u64add twoPow64; exact Nat.mod_eq_of_lt ho
    unfold upgradePool
    rw [if_pos ⟨by omega, h2⟩]
    simp only [hadd]
    by_cases hA : p.protocol.version ≠ p.plan.version ∨ p.protocol.binaries ≠ p.plan.binaries
    · rw [if_pos hA]
      split <;> rename_i hd <;> refine ⟨rfl, rfl, fun h => ?_, fun h => ?_, rfl⟩ <;>
        first | rfl | (exfalso; omega)
    · rw [if_neg hA]
      push Not at hA
      split <;> rename_i hd <;> refine ⟨hA.1, hA.2, fun h => ?_, fun h => ?_, rfl⟩ <;>
        first | rfl | (exfalso; omega)

example : ∃ p, pool? (run 5 State.init exOps) 1 = some p ∧ p.plan.scheduledAt + p.plan.duration < 2 ^ 64 ∧
    Due p 1000 ∧ ¬ Due p 999 := by
  refine ⟨{ exCreate.pool 2 with id := 1, plan := ⟨20, 21, 1000, 100⟩ }, by decide +kernel, ?_⟩
  unfold Due Planned
  decide

/-- C37: after every end-block every pool either has no plan, or a plan for the future, or runs the planned version
while the upgrade duration is not over. -/
theorem C37_after_every_block (gov : Addr) (s : State) (hs : Reachable gov s) (now id : Nat) (p : Pool)
    (hp : pool? (step gov s now .endBlock) id = some p) :
    ¬ Planned p ∨ now < p.plan.scheduledAt ∨
      (Applied p ∧ now < u64add p.plan.scheduledAt p.plan.duration) := by
  unfold pool? at hp
  simp only [step, handlePoolUpgrades] at hp
  rw [get?_forEach hs.inv.key (upgradePool_id now)] at hp
  cases hq : s.pools.get? id with
  | none => rw [hq] at hp; cases hp
  | some q =>
    rw [hq] at hp
    cases hp
    unfold upgradePool
    by_cases hd : q.plan.scheduledAt > 0 ∧ now ≥ q.plan.scheduledAt
    · rw [if_pos hd]
      simp only
      by_cases hA : q.protocol.version ≠ q.plan.version ∨ q.protocol.binaries ≠ q.plan.binaries
      · rw [if_pos hA]
        split
        · exact Or.inl (by simp [Planned, Plan.none])
        · rename_i hlt
          exact Or.inr (Or.inr ⟨⟨rfl, rfl⟩, by simpa using hlt⟩)
      · rw [if_neg hA]
        push Not at hA
        split
        · exact Or.inl (by simp [Planned, Plan.none])
        · rename_i hlt
          exact Or.inr (Or.inr ⟨hA, by simpa using hlt⟩)
    · rw [if_neg hd]
      by_cases h0 : q.plan.scheduledAt = 0
      · exact Or.inl (by simp [Planned, h0])
      · exact Or.inr (Or.inl (by omega))

/-- C37: the version a pool runs changes only in an end-block, only when its planned time has come, and only to the
planned version. -/
theorem C37_never_early (gov : Addr) (s : State) (hs : Reachable gov s) (now id : Nat) (op : Op) (p p' : Pool)
    (hp : pool? s id = some p) (hp' : pool? (step gov s now op) id = some p') (hne : p'.protocol ≠ p.protocol) :
    op = .endBlock ∧ Due p now ∧ p'.protocol = ⟨p.plan.version, p.plan.binaries, p.plan.scheduledAt⟩ := by
  have hI := hs.inv
  unfold pool? at hp hp'
  have setCase : ∀ (q : Pool) (k : Nat) (r : Pool), s.pools.get? k = some r → q.id = r.id → q.protocol = r.protocol →
      (s.setPool q).pools.get? id = some p' → False := by
    intro q k r hr h1 h2 h3
    simp only [State.setPool, Map.get?_set] at h3
    split at h3
    · cases h3
      rename_i e
      have : id = k := by rw [e, h1]; exact hI.key k r hr
      subst this
      rw [hp] at hr; cases hr
      exact hne h2
    · rw [hp] at h3; cases h3; exact hne rfl
  have same : s.pools.get? id = some p' → False := by
    intro h; rw [hp] at h; cases h; exact hne rfl
  have eachCase : ∀ f : Pool → Pool, (∀ q, (f q).id = q.id) → (∀ q, (f q).protocol = q.protocol) →
      (s.forEach f).pools.get? id = some p' → False := by
    intro f hf hg h
    rw [get?_forEach hI.key hf, hp] at h
    cases h
    exact hne (hg p)
  cases op with
  | create m =>
    simp only [step, create] at hp'
    exfalso
    split at hp'
    · exact same hp'
    · split at hp'
      · exact same hp'
      · split at hp'
        · exact same hp'
        · simp only [orElse, State.append, Map.get?_set] at hp'
          split at hp'
          · rename_i e
            have := (hI.dense id).1 ⟨p, hp⟩
            omega
          · exact same hp'
  | update a i u =>
    exfalso
    simp only [step, update] at hp'
    split at hp'
    · exact same hp'
    · split at hp'
      · exact same hp'
      · split at hp'
        · exact same hp'
        · rename_i q hq
          refine setCase _ i q hq ?_ ?_ hp' <;> rfl
  | enable a i =>
    exfalso
    simp only [step, enable] at hp'
    split at hp'
    · exact same hp'
    · split at hp'
      · exact same hp'
      · rename_i q hq
        split at hp'
        · exact same hp'
        · refine setCase _ i q hq ?_ ?_ hp' <;> rfl
  | disable a i =>
    exfalso
    simp only [step, disable] at hp'
    split at hp'
    · exact same hp'
    · split at hp'
      · exact same hp'
      · rename_i q hq
        split at hp'
        · exact same hp'
        · refine setCase _ i q hq ?_ ?_ hp' <;> rfl
  | schedule m =>
    exfalso
    simp only [step, schedule] at hp'
    split at hp'
    · exact same hp'
    · split at hp'
      · exact same hp'
      · refine eachCase _ (schedulePool_id now m) (fun q => ?_) hp'
        unfold schedulePool
        split
        · rfl
        · split <;> rfl
  | cancel a r =>
    exfalso
    simp only [step, cancel] at hp'
    split at hp'
    · exact same hp'
    · refine eachCase _ (cancelPool_id r) (fun q => ?_) hp'
      unfold cancelPool
      split
      · rfl
      · split <;> rfl
  | updateParams a y =>
    exfalso
    simp only [step, updateParams] at hp'
    split at hp'
    · exact same hp'
    · split at hp'
      · exact same hp'
      · exact same hp'
  | bundleFinalized i a b c =>
    exfalso
    simp only [step, incrementBundleInformation] at hp'
    split at hp'
    · exact same hp'
    · rename_i q hq
      refine setCase _ i q hq ?_ ?_ hp' <;> rfl
  | endBlock =>
    refine ⟨rfl, ?_⟩
    simp only [step, handlePoolUpgrades] at hp'
    rw [get?_forEach hI.key (upgradePool_id now), hp] at hp'
    cases hp'
    unfold upgradePool at hne ⊢
    by_cases hd : p.plan.scheduledAt > 0 ∧ now ≥ p.plan.scheduledAt
    · rw [if_pos hd] at hne ⊢
      refine ⟨⟨by unfold Planned; omega, hd.2⟩, ?_⟩
      simp only at hne ⊢
      by_cases hA : p.protocol.version ≠ p.plan.version ∨ p.protocol.binaries ≠ p.plan.binaries
      · rw [if_pos hA]
        split <;> rfl
      · rw [if_neg hA] at hne
        exfalso
        split at hne <;> exact hne rfl
    · rw [if_neg hd] at hne
      exact absurd rfl hne

/-- witness: the first end-block after the scheduled time changes the version -/
example : ∃ p p', pool? (run 5 State.init exOps) 1 = some p ∧
    pool? (step 5 (run 5 State.init exOps) 1003 .endBlock) 1 = some p' ∧ p'.protocol ≠ p.protocol := by
  refine ⟨{ exCreate.pool 2 with id := 1, plan := ⟨20, 21, 1000, 100⟩ },
    { exCreate.pool 2 with id := 1, plan := ⟨20, 21, 1000, 100⟩, protocol := ⟨20, 21, 1000⟩ }, by decide +kernel,
    by decide +kernel, by decide⟩

/-- C37: every plan in every reachable state comes from a governance message: it asks for that version and binaries,
and the planned time is the requested one, or the time of the message if that is later. -/
theorem C37_plan_origin (gov : Addr) (ops : List (Nat × Op)) (id : Nat) (p : Pool)
    (hp : pool? (run gov State.init ops) id = some p) (hpl : Planned p) :
    ∃ t m, (t, Op.schedule m) ∈ ops ∧ m.authority = gov ∧ m.version ≠ 0 ∧ m.binaries ≠ 0 ∧
      p.plan = ⟨m.version, m.binaries, max m.scheduledAt t, m.duration⟩ := by
  induction ops using List.reverseRecOn generalizing id p with
  | nil => simp [pool?, run, State.init] at hp
  | append_singleton ops o ih =>
    obtain ⟨now, op⟩ := o
    have hI : Inv (run gov State.init ops) := Inv.run ops
    rw [run_snoc] at hp
    set s := run gov State.init ops with hs
    -- unchanged plan
    have old : ∀ q, s.pools.get? id = some q → q.plan = p.plan →
        ∃ t m, (t, Op.schedule m) ∈ ops ++ [(now, op)] ∧ m.authority = gov ∧ m.version ≠ 0 ∧ m.binaries ≠ 0 ∧
          p.plan = ⟨m.version, m.binaries, max m.scheduledAt t, m.duration⟩ := by
      intro q hq e
      obtain ⟨t, m, h1, h2⟩ := ih id q hq (by unfold Planned at hpl ⊢; rw [e]; exact hpl)
      rw [e] at h2
      exact ⟨t, m, by simp [h1], h2⟩
    have same : s.pools.get? id = some p →
        ∃ t m, (t, Op.schedule m) ∈ ops ++ [(now, op)] ∧ m.authority = gov ∧ m.version ≠ 0 ∧ m.binaries ≠ 0 ∧
          p.plan = ⟨m.version, m.binaries, max m.scheduledAt t, m.duration⟩ := fun h => old p h rfl
    have setCase : ∀ (q : Pool) (k : Nat) (r : Pool), s.pools.get? k = some r → q.id = r.id → q.plan = r.plan →
        (s.setPool q).pools.get? id = some p →
        ∃ t m, (t, Op.schedule m) ∈ ops ++ [(now, op)] ∧ m.authority = gov ∧ m.version ≠ 0 ∧ m.binaries ≠ 0 ∧
          p.plan = ⟨m.version, m.binaries, max m.scheduledAt t, m.duration⟩ := by
      intro q k r hr h1 h2 h3
      simp only [State.setPool, Map.get?_set] at h3
      split at h3
      · cases h3
        rename_i e
        have : id = k := by rw [e, h1]; exact hI.key k r hr
        subst this
        exact old r hr h2.symm
      · exact same h3
    unfold pool? at hp
    cases op with
    | create m =>
      simp only [step, create] at hp
      split at hp
      · exact same hp
      · split at hp
        · exact same hp
        · split at hp
          · exact same hp
          · simp only [orElse, State.append, Map.get?_set] at hp
            split at hp
            · cases hp
              exact absurd rfl hpl
            · exact same hp
    | update a i u =>
      simp only [step, update] at hp
      split at hp
      · exact same hp
      · split at hp
        · exact same hp
        · split at hp
          · exact same hp
          · rename_i q hq
            refine setCase _ i q hq ?_ ?_ hp <;> rfl
    | enable a i =>
      simp only [step, enable] at hp
      split at hp
      · exact same hp
      · split at hp
        · exact same hp
        · rename_i q hq
          split at hp
          · exact same hp
          · refine setCase _ i q hq ?_ ?_ hp <;> rfl
    | disable a i =>
      simp only [step, disable] at hp
      split at hp
      · exact same hp
      · split at hp
        · exact same hp
        · rename_i q hq
          split at hp
          · exact same hp
          · refine setCase _ i q hq ?_ ?_ hp <;> rfl
    | schedule m =>
      simp only [step, schedule] at hp
      split at hp
      · exact same hp
      · rename_i ha
        split at hp
        · exact same hp
        · rename_i hv
          simp only [orElse] at hp
          rw [get?_forEach hI.key (schedulePool_id now m)] at hp
          cases hq : s.pools.get? id with
          | none => rw [hq] at hp; cases hp
          | some q =>
            rw [hq] at hp
            simp only [Option.map_some, Option.some.injEq] at hp
            unfold schedulePool at hp
            split at hp
            · exact old q hq (by rw [hp])
            · split at hp
              · exact old q hq (by rw [hp])
              · push Not at hv
                refine ⟨now, m, by simp, ?_, hv.1, hv.2, ?_⟩
                · simp only [ne_eq, not_not] at ha; exact ha.symm
                · rw [← hp]
                  simp only [Plan.mk.injEq, true_and, and_true]
                  split <;> omega
    | cancel a r =>
      simp only [step, cancel] at hp
      split at hp
      · exact same hp
      · simp only [orElse] at hp
        rw [get?_forEach hI.key (cancelPool_id r)] at hp
        cases hq : s.pools.get? id with
        | none => rw [hq] at hp; cases hp
        | some q =>
          rw [hq] at hp
          simp only [Option.map_some, Option.some.injEq] at hp
          unfold cancelPool at hp
          split at hp
          · exact old q hq (by rw [hp])
          · split at hp
            · exact old q hq (by rw [hp])
            · exfalso
              rw [← hp] at hpl
              exact hpl rfl
    | updateParams a y =>
      simp only [step, updateParams] at hp
      split at hp
      · exact same hp
      · split at hp
        · exact same hp
        · exact same hp
    | bundleFinalized i a b c =>
      simp only [step, incrementBundleInformation] at hp
      split at hp
      · exact same hp
      · rename_i q hq
        refine setCase _ i q hq ?_ ?_ hp <;> rfl
    | endBlock =>
      simp only [step, handlePoolUpgrades] at hp
      rw [get?_forEach hI.key (upgradePool_id now)] at hp
      cases hq : s.pools.get? id with
      | none => rw [hq] at hp; cases hp
      | some q =>
        rw [hq] at hp
        simp only [Option.map_some, Option.some.injEq] at hp
        unfold upgradePool at hp
        split at hp
        · simp only at hp
          split at hp
          · exfalso
            rw [← hp] at hpl
            exact hpl rfl
          · refine old q hq ?_
            rw [← hp]
            split <;> rfl
        · exact old q hq (by rw [hp])

/-- C37: scheduling affects exactly the pools of that runtime that have no plan yet. -/
theorem C37_schedule_effect (gov : Addr) (s s' : State) (hs : Reachable gov s) (now : Nat) (m : ScheduleMsg)
    (h : schedule gov s now m = .ok s') (id : Nat) :
    pool? s' id = (pool? s id).map (fun p =>
      if p.runtime = m.runtime ∧ p.plan.scheduledAt = 0
      then { p with plan := ⟨m.version, m.binaries, max m.scheduledAt now, m.duration⟩ } else p) := by
  unfold schedule at h
  split at h
  · cases h
  · split at h
    · cases h
    · cases h
      unfold pool?
      rw [get?_forEach hs.inv.key (schedulePool_id now m)]
      congr 1
      funext p
      have hmax : (if m.scheduledAt < now then now else m.scheduledAt) = max m.scheduledAt now := by
        split <;> omega
      unfold schedulePool
      rw [hmax]
      by_cases h1 : p.runtime = m.runtime <;> by_cases h2 : p.plan.scheduledAt = 0 <;> simp [h1, h2]

/-- C37: cancelling removes the plans of all pools of that runtime and nothing else. -/
theorem C37_cancel_effect (gov : Addr) (s s' : State) (hs : Reachable gov s) (a : Addr) (r : Str)
    (h : cancel gov s a r = .ok s') (id : Nat) :
    pool? s' id = (pool? s id).map (fun p =>
      if p.runtime = r ∧ p.plan.scheduledAt ≠ 0 then { p with plan := Plan.none } else p) := by
  unfold cancel at h
  split at h
  · cases h
  · cases h
    unfold pool?
    rw [get?_forEach hs.inv.key (cancelPool_id r)]
    congr 1
    funext p
    unfold cancelPool
    by_cases h1 : p.runtime = r <;> by_cases h2 : p.plan.scheduledAt = 0 <;> simp [h1, h2]

example : ∃ s', schedule 5 (run 5 State.init exOps) 4 { exSchedule with scheduledAt := 2 } = .ok s' := ⟨_, rfl⟩

/-! ## C39 the inflation pool -/

/-- C39: charging an existing pool's inflation account (balance below 2^63) always succeeds, takes exactly
`floor(balance * rate)` of the native coin to the pool module, leaves all other accounts and coins alone and never
halts the chain. -/
theorem C39_charge_inflation (s : State) (b : Bank) (id : Nat) (p : Pool) (hp : pool? s id = some p)
    (hr : s.params.validate = true) (hb : (b (.pool id)).amt kyve < 2 ^ 63) :
    ∃ b', chargeInflationPool s b id
        = .ok ((b (.pool id)).amt kyve * s.params.poolInflationPayoutRate / 10 ^ 18, b', false) ∧
      (b (.pool id)).amt kyve * s.params.poolInflationPayoutRate / 10 ^ 18 ≤ (b (.pool id)).amt kyve ∧
      (b' (.pool id)).amt kyve
        = (b (.pool id)).amt kyve - (b (.pool id)).amt kyve * s.params.poolInflationPayoutRate / 10 ^ 18 ∧
      (b' (.mod .pool)).amt kyve
        = (b (.mod .pool)).amt kyve + (b (.pool id)).amt kyve * s.params.poolInflationPayoutRate / 10 ^ 18 ∧
      (∀ a d, (a ≠ .pool id ∧ a ≠ .mod .pool) ∨ d ≠ kyve → (b' a).amt d = (b a).amt d) := by
  have hrate : s.params.poolInflationPayoutRate ≤ 10 ^ 18 := by
    unfold Params.validate at hr
    simp only [Bool.and_eq_true, decide_eq_true_eq] at hr
    exact hr.1.2
  have hpay : inflationPayout s ((b (.pool id)).amt kyve)
      = (b (.pool id)).amt kyve * s.params.poolInflationPayoutRate / 10 ^ 18 := by
    unfold inflationPayout
    rw [Dec.ofNat_mul]; rfl
  have hle : (b (.pool id)).amt kyve * s.params.poolInflationPayoutRate / 10 ^ 18 ≤ (b (.pool id)).amt kyve := by
    apply Nat.div_le_of_le_mul
    rw [Nat.mul_comm]; exact Nat.mul_le_mul_right _ hrate
  set x := (b (.pool id)).amt kyve * s.params.poolInflationPayoutRate / 10 ^ 18 with hx
  obtain ⟨b', hb'⟩ := Bank.send_succeeds (b := b) (s := .pool id) (t := .mod .pool) (c := Coins.single kyve x) (by
    intro d
    rw [Coins.amt_single]
    split
    · rename_i e; subst e; exact hle
    · exact Nat.zero_le _)
  have h2 := (Bank.send_ok hb').2
  refine ⟨b', ?_, hle, ?_, ?_, ?_⟩
  · unfold chargeInflationPool
    unfold pool? at hp
    rw [hp]
    simp only
    rw [if_neg (by omega), hpay, hb']
    rfl
  · have := h2 (.pool id) kyve
    simpa using this
  · have := h2 (.mod .pool) kyve
    simpa using this
  · rintro a d (⟨h3, h4⟩ | h3)
    · have := h2 a d
      simpa [h3, h4] using this
    · have := h2 a d
      simp [h3] at this
      exact this

example : ∃ p, pool? (run 5 State.init exOps) 1 = some p ∧ (run 5 State.init exOps).params.validate = true := by
  refine ⟨{ exCreate.pool 2 with id := 1, plan := ⟨20, 21, 1000, 100⟩ }, by decide +kernel, by decide +kernel⟩

/-- C39: the payout rate and the other fractions stay in [0,1] in every reachable state. -/
theorem C39_params_valid (gov : Addr) (s : State) (hs : Reachable gov s) : s.params.validate = true := by
  obtain ⟨ops, rfl⟩ := hs
  induction ops using List.reverseRecOn with
  | nil => show Params.default.validate = true; decide
  | append_singleton ops o ih =>
    rw [run_snoc]
    set s := run gov State.init ops
    obtain ⟨now, op⟩ := o
    cases op with
    | create m =>
      simp only [step, create]
      split
      · exact ih
      · split
        · exact ih
        · split <;> exact ih
    | update a i u =>
      simp only [step, update]
      split
      · exact ih
      · split
        · exact ih
        · split <;> exact ih
    | enable a i =>
      simp only [step, enable]
      split
      · exact ih
      · split
        · exact ih
        · split <;> exact ih
    | disable a i =>
      simp only [step, disable]
      split
      · exact ih
      · split
        · exact ih
        · split <;> exact ih
    | schedule m =>
      simp only [step, schedule]
      split
      · exact ih
      · split <;> exact ih
    | cancel a r =>
      simp only [step, cancel]
      split <;> exact ih
    | updateParams a y =>
      simp only [step, updateParams]
      split
      · exact ih
      · rename_i hv
        split
        · exact ih
        · simp only [orElse]
          simp only [Bool.not_eq_true', Bool.not_eq_false] at hv
          unfold ParamsPayload.apply Params.default at hv
          unfold ParamsPayload.apply
          unfold Params.validate at hv ih ⊢
          simp only [Bool.and_eq_true] at hv ih ⊢
          refine ⟨⟨?_, ?_⟩, ?_⟩
          · cases hy : y.protocolInflationShare with
            | none => simpa using ih.1.1
            | some x => have := hv.1.1; rw [hy] at this; simpa using this
          · cases hy : y.poolInflationPayoutRate with
            | none => simpa using ih.1.2
            | some x => have := hv.1.2; rw [hy] at this; simpa using this
          · cases hy : y.maxVotingPowerPerPool with
            | none => simpa using ih.2
            | some x => have := hv.2; rw [hy] at this; simpa using this
    | bundleFinalized i a b c =>
      simp only [step, incrementBundleInformation]
      split <;> exact ih
    | endBlock => exact ih

/-! ## C40 pool ids -/

/-- C40: in every reachable state the existing pools are exactly those with ids below the counter, each stored with
its own id. -/
theorem C40_ids_dense (gov : Addr) (s : State) (hs : Reachable gov s) (id : Nat) :
    ((pool? s id).isSome ↔ id < s.count) ∧ ∀ p, pool? s id = some p → p.id = id := by
  refine ⟨?_, fun p hp => hs.inv.key id p hp⟩
  rw [← hs.inv.dense id, Option.isSome_iff_exists]
  rfl

/-- C40: creating a pool uses the next unused id, which had no pool, and touches no other pool. -/
theorem C40_create_effect (gov : Addr) (s s' : State) (hs : Reachable gov s) (now : Nat) (m : CreateMsg)
    (h : create gov s now m = .ok s') :
    m.authority = gov ∧ pool? s s.count = none ∧ s'.count = s.count + 1 ∧
    pool? s' s.count = some { m.pool now with id := s.count } ∧
    ∀ id, id ≠ s.count → pool? s' id = pool? s id := by
  unfold create at h
  split at h
  · cases h
  · split at h
    · cases h
    · rename_i ha
      split at h
      · cases h
      · cases h
        refine ⟨by simp only [ne_eq, not_not] at ha; exact ha.symm, ?_, rfl, ?_, ?_⟩
        · have := (hs.inv.dense s.count)
          cases hq : pool? s s.count with
          | none => rfl
          | some q => have := this.1 ⟨q, hq⟩; omega
        · simp [pool?, State.append]
        · intro id hid
          simp only [pool?, State.append]
          exact Map.get?_set_ne _ _ hid

example : ∃ s', create 5 (run 5 State.init exOps) 9 exCreate = .ok s' := ⟨_, rfl⟩

/-- C40: pools are permanent: no operation ever removes one, and the counter never decreases. -/
theorem C40_permanent (gov : Addr) (s : State) (hs : Reachable gov s) (now : Nat) (op : Op) (id : Nat)
    (h : (pool? s id).isSome) : (pool? (step gov s now op) id).isSome ∧ s.count ≤ (step gov s now op).count := by
  have hc : s.count ≤ (step gov s now op).count := by
    cases op with
    | create m =>
      simp only [step, create]
      split
      · exact Nat.le_refl _
      · split
        · exact Nat.le_refl _
        · split
          · exact Nat.le_refl _
          · simp [orElse, State.append]
    | update a i u =>
      simp only [step, update]
      split
      · exact Nat.le_refl _
      · split
        · exact Nat.le_refl _
        · split <;> exact Nat.le_refl _
    | enable a i =>
      simp only [step, enable]
      split
      · exact Nat.le_refl _
      · split
        · exact Nat.le_refl _
        · split <;> exact Nat.le_refl _
    | disable a i =>
      simp only [step, disable]
      split
      · exact Nat.le_refl _
      · split
        · exact Nat.le_refl _
        · split <;> exact Nat.le_refl _
    | schedule m =>
      simp only [step, schedule]
      split
      · exact Nat.le_refl _
      · split <;> exact Nat.le_refl _
    | cancel a r =>
      simp only [step, cancel]
      split <;> exact Nat.le_refl _
    | updateParams a y =>
      simp only [step, updateParams]
      split
      · exact Nat.le_refl _
      · split <;> exact Nat.le_refl _
    | bundleFinalized i a b c =>
      simp only [step, incrementBundleInformation]
      split <;> exact Nat.le_refl _
    | endBlock => exact Nat.le_refl _
  refine ⟨?_, hc⟩
  have h1 := (C40_ids_dense gov s hs id).1.1 h
  obtain ⟨ops, rfl⟩ := hs
  have hr : Reachable gov (step gov (run gov State.init ops) now op) := ⟨ops ++ [(now, op)], by rw [run_snoc]⟩
  exact (C40_ids_dense gov _ hr id).1.2 (by omega)

/-- C40: an update by governance changes exactly the settings it mentions (to the given values) of exactly that pool:
progress (current key, index and summary, number of bundles), protocol, upgrade plan, id, start key and the disabled
flag stay. -/
theorem C40_update_effect (gov : Addr) (s s' : State) (hs : Reachable gov s) (a : Addr) (id : Nat) (u : Update)
    (h : update gov s a id u = .ok s') :
    a = gov ∧ s'.count = s.count ∧ s'.params = s.params ∧ (∀ i, i ≠ id → pool? s' i = pool? s i) ∧
    ∃ p p', pool? s id = some p ∧ pool? s' id = some p' ∧
      p'.id = p.id ∧ p'.startKey = p.startKey ∧ p'.currentKey = p.currentKey ∧
      p'.currentSummary = p.currentSummary ∧ p'.currentIndex = p.currentIndex ∧
      p'.totalBundles = p.totalBundles ∧ p'.disabled = p.disabled ∧ p'.protocol = p.protocol ∧ p'.plan = p.plan ∧
      (u.name = none → p'.name = p.name) ∧ (∀ v, u.name = some v → p'.name = v) ∧
      (u.runtime = none → p'.runtime = p.runtime) ∧ (∀ v, u.runtime = some v → p'.runtime = v) ∧
      (u.uploadInterval = none → p'.uploadInterval = p.uploadInterval) ∧
      (∀ v, u.uploadInterval = some v → p'.uploadInterval = v ∧ 0 < v) ∧
      (u.inflationShareWeight = none → p'.inflationShareWeight = p.inflationShareWeight) ∧
      (∀ v, u.inflationShareWeight = some v → p'.inflationShareWeight = v) ∧
      (u.minDelegation = none → p'.minDelegation = p.minDelegation) ∧
      (∀ v, u.minDelegation = some v → p'.minDelegation = v) ∧
      (u.maxBundleSize = none → p'.maxBundleSize = p.maxBundleSize) ∧
      (∀ v, u.maxBundleSize = some v → p'.maxBundleSize = v ∧ 0 < v) ∧
      (u.storageProviderId = none → p'.storageProviderId = p.storageProviderId) ∧
      (∀ v, u.storageProviderId = some v → p'.storageProviderId = v) ∧
      (u.compressionId = none → p'.compressionId = p.compressionId) ∧
      (∀ v, u.compressionId = some v → p'.compressionId = v) ∧
      (u.endKey = none → p'.endKey = p.endKey) ∧ (∀ v, u.endKey = some v → p'.endKey = v) := by
  unfold update at h
  split at h
  · cases h
  · rename_i hv
    split at h
    · cases h
    · rename_i ha
      split at h
      · cases h
      · rename_i p hp
        have hid : p.id = id := hs.inv.key id p hp
        have hid' : (u.apply p).id = id := hid
        cases h
        have hv' : u.uploadInterval ≠ some 0 ∧ u.maxBundleSize ≠ some 0 := by
          simpa [Update.valid] using hv
        refine ⟨by simpa using Eq.symm (by simpa using ha), rfl, rfl, ?_, p, u.apply p, hp, ?_, rfl, rfl, rfl, rfl, rfl,
          rfl, rfl, rfl, rfl, ?_⟩
        · intro i hi
          show (s.pools.set (u.apply p).id (u.apply p)).get? i = _
          rw [hid', Map.get?_set_ne _ _ hi]; rfl
        · show (s.pools.set (u.apply p).id (u.apply p)).get? id = _
          rw [hid', Map.get?_set_self]
        · refine ⟨fun e => by simp [Update.apply, e], fun v e => by simp [Update.apply, e],
            fun e => by simp [Update.apply, e], fun v e => by simp [Update.apply, e],
            fun e => by simp [Update.apply, e], fun v e => ⟨by simp [Update.apply, e], ?_⟩,
            fun e => by simp [Update.apply, e], fun v e => by simp [Update.apply, e],
            fun e => by simp [Update.apply, e], fun v e => by simp [Update.apply, e],
            fun e => by simp [Update.apply, e], fun v e => ⟨by simp [Update.apply, e], ?_⟩,
            fun e => by simp [Update.apply, e], fun v e => by simp [Update.apply, e],
            fun e => by simp [Update.apply, e], fun v e => by simp [Update.apply, e],
            fun e => by simp [Update.apply, e], fun v e => by simp [Update.apply, e]⟩
          · rcases Nat.eq_zero_or_pos v with h | h
            · subst h; exact absurd e hv'.1
            · exact h
          · rcases Nat.eq_zero_or_pos v with h | h
            · subst h; exact absurd e hv'.2
            · exact h

example : ∃ s', update 5 (run 5 State.init exOps) 5 1 { name := some 77, maxBundleSize := some 3 } = .ok s' := ⟨_, rfl⟩

/-- C40: only governance's update, enable, disable, upgrade and the finalization of a bundle touch a pool; the progress
fields of a pool are changed by nothing but a finalized bundle. -/
theorem C40_progress (gov : Addr) (s : State) (hs : Reachable gov s) (now id : Nat) (op : Op) (p p' : Pool)
    (hp : pool? s id = some p) (hp' : pool? (step gov s now op) id = some p') :
    (p'.currentKey = p.currentKey ∧ p'.currentIndex = p.currentIndex ∧ p'.currentSummary = p.currentSummary ∧
      p'.totalBundles = p.totalBundles) ∨
    ∃ i k sm, op = .bundleFinalized id i k sm ∧ p' = { p with
      currentIndex := i, currentKey := k, currentSummary := sm, totalBundles := p.totalBundles + 1 } := by
  have hkey := fun k p h => hs.inv.key k p h
  have hset : ∀ (q q' : Pool) (i : Nat), s.pools.get? i = some q → q'.id = q.id →
      (q'.currentKey = q.currentKey ∧ q'.currentIndex = q.currentIndex ∧ q'.currentSummary = q.currentSummary ∧
        q'.totalBundles = q.totalBundles) → pool? (s.setPool q') id = some p' →
      (p'.currentKey = p.currentKey ∧ p'.currentIndex = p.currentIndex ∧ p'.currentSummary = p.currentSummary ∧
        p'.totalBundles = p.totalBundles) := by
    intro q q' i hq he hc h
    have hqi := hkey i q hq
    by_cases hi : id = i
    · subst hi
      have hp2 : s.pools.get? id = some p := hp
      have h2 : (s.pools.set q'.id q').get? id = some p' := h
      rw [he, hqi, Map.get?_set_self] at h2
      rw [hq] at hp2; cases hp2; cases h2; exact hc
    · have h2 : (s.pools.set q'.id q').get? id = some p' := h
      rw [he, hqi, Map.get?_set_ne _ _ hi] at h2
      have hp2 : s.pools.get? id = some p := hp
      rw [hp2] at h2; cases h2; exact ⟨rfl, rfl, rfl, rfl⟩
  have hsame : pool? s id = some p' →
      (p'.currentKey = p.currentKey ∧ p'.currentIndex = p.currentIndex ∧ p'.currentSummary = p.currentSummary ∧
        p'.totalBundles = p.totalBundles) := by
    intro h; rw [hp] at h; cases h; exact ⟨rfl, rfl, rfl, rfl⟩
  have heach : ∀ f : Pool → Pool, (∀ q, (f q).id = q.id) → (∀ q, (f q).currentKey = q.currentKey ∧
      (f q).currentIndex = q.currentIndex ∧ (f q).currentSummary = q.currentSummary ∧
      (f q).totalBundles = q.totalBundles) → pool? (s.forEach f) id = some p' →
      (p'.currentKey = p.currentKey ∧ p'.currentIndex = p.currentIndex ∧ p'.currentSummary = p.currentSummary ∧
        p'.totalBundles = p.totalBundles) := by
    intro f h1 h2 h
    unfold pool? at h
    rw [get?_forEach hkey h1] at h
    have hp2 : s.pools.get? id = some p := hp
    rw [hp2] at h
    cases h
    exact h2 p
  cases op with
  | create m =>
    left
    simp only [step, create] at hp'
    split at hp'
    · exact hsame hp'
    · split at hp'
      · exact hsame hp'
      · split at hp'
        · exact hsame hp'
        · have h2 : (s.pools.set s.count { m.pool now with id := s.count }).get? id = some p' := hp'
          have : id ≠ s.count := by
            have := (hs.inv.dense id).1 ⟨p, hp⟩; omega
          rw [Map.get?_set_ne _ _ this] at h2
          exact hsame h2
  | update a i u =>
    left
    simp only [step, update] at hp'
    split at hp'
    · exact hsame hp'
    · split at hp'
      · exact hsame hp'
      · split at hp'
        · exact hsame hp'
        · rename_i q hq
          exact hset q (u.apply q) i hq rfl ⟨rfl, rfl, rfl, rfl⟩ hp'
  | enable a i =>
    left
    simp only [step, enable] at hp'
    split at hp'
    · exact hsame hp'
    · split at hp'
      · exact hsame hp'
      · rename_i q hq
        split at hp'
        · exact hsame hp'
        · exact hset q { q with disabled := false } i hq rfl ⟨rfl, rfl, rfl, rfl⟩ hp'
  | disable a i =>
    left
    simp only [step, disable] at hp'
    split at hp'
    · exact hsame hp'
    · split at hp'
      · exact hsame hp'
      · rename_i q hq
        split at hp'
        · exact hsame hp'
        · exact hset q { q with disabled := true } i hq rfl ⟨rfl, rfl, rfl, rfl⟩ hp'
  | schedule m =>
    left
    simp only [step, schedule] at hp'
    split at hp'
    · exact hsame hp'
    · split at hp'
      · exact hsame hp'
      · refine heach _ (schedulePool_id now m) (fun q => ?_) hp'
        unfold schedulePool
        split
        · exact ⟨rfl, rfl, rfl, rfl⟩
        · split <;> exact ⟨rfl, rfl, rfl, rfl⟩
  | cancel a r =>
    left
    simp only [step, cancel] at hp'
    split at hp'
    · exact hsame hp'
    · refine heach _ (cancelPool_id r) (fun q => ?_) hp'
      unfold cancelPool
      split
      · exact ⟨rfl, rfl, rfl, rfl⟩
      · split <;> exact ⟨rfl, rfl, rfl, rfl⟩
  | updateParams a y =>
    left
    simp only [step, updateParams] at hp'
    split at hp'
    · exact hsame hp'
    · split at hp'
      · exact hsame hp'
      · exact hsame hp'
  | bundleFinalized i idx k sm =>
    simp only [step, incrementBundleInformation] at hp'
    split at hp'
    · exact Or.inl (hsame hp')
    · rename_i q hq
      have hqi := hkey i q hq
      have h2 : (s.pools.set q.id
          { q with currentIndex := idx, totalBundles := q.totalBundles + 1
                   currentKey := k, currentSummary := sm }).get? id = some p' := hp'
      by_cases hi : id = i
      · subst hi
        have hp2 : s.pools.get? id = some p := hp
        rw [hqi, Map.get?_set_self] at h2
        rw [hq] at hp2; cases hp2; cases h2
        exact Or.inr ⟨idx, k, sm, rfl, by rw [hqi]⟩
      · rw [hqi, Map.get?_set_ne _ _ hi] at h2
        exact Or.inl (hsame h2)
  | endBlock =>
    left
    refine heach _ (upgradePool_id now) (fun q => ?_) hp'
    unfold upgradePool
    split
    · simp only
      split <;> split <;> exact ⟨rfl, rfl, rfl, rfl⟩
    · exact ⟨rfl, rfl, rfl, rfl⟩

/-- C40: finalizing a bundle of an existing pool always counts it and moves the pool to the given index, key and
summary. -/
theorem C40_bundle_counted (gov : Addr) (s : State) (hs : Reachable gov s) (now id i : Nat) (k sm : Str) (p : Pool)
    (hp : pool? s id = some p) :
    pool? (step gov s now (.bundleFinalized id i k sm)) id = some { p with
      currentIndex := i, currentKey := k, currentSummary := sm, totalBundles := p.totalBundles + 1 } := by
  have hp2 : s.pools.get? id = some p := hp
  simp only [step, incrementBundleInformation, hp2]
  show (s.pools.set p.id _).get? id = _
  rw [hs.inv.key id p hp, Map.get?_set_self]

example : (pool? (run 5 State.init exOps) 1).isSome = true := by rfl

/-! ## C52 (pool messages) -/

/-- C52: pool creation, update, enabling, disabling, upgrade scheduling/cancelling and parameter updates by anyone but
governance change nothing. -/
theorem C52_pool_authority (gov : Addr) (s : State) (now : Nat) (a : Addr) (ha : a ≠ gov) (m : CreateMsg)
    (hm : m.authority = a) (sm : ScheduleMsg) (hsm : sm.authority = a) (id : Nat) (u : Update) (r : Str)
    (y : ParamsPayload) :
    step gov s now (.create m) = s ∧ step gov s now (.update a id u) = s ∧ step gov s now (.enable a id) = s ∧
    step gov s now (.disable a id) = s ∧ step gov s now (.schedule sm) = s ∧ step gov s now (.cancel a r) = s ∧
    step gov s now (.updateParams a y) = s := by
  have h : gov ≠ a := fun e => ha e.symm
  refine ⟨?_, ?_, ?_, ?_, ?_, ?_, ?_⟩
  · simp only [step, create, hm]
    split
    · rfl
    · rfl
  · simp only [step, update]
    split
    · rfl
    · rfl
  · simp only [step, enable]; rw [if_pos h]; rfl
  · simp only [step, disable]; rw [if_pos h]; rfl
  · simp only [step, schedule, hsm]; rw [if_pos h]; rfl
  · simp only [step, cancel]; rw [if_pos h]; rfl
  · simp only [step, updateParams]
    split
    · rfl
    · rfl

end Verif.Pool
