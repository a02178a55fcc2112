import Verif.Chain.Apart

/-!
# Rounds: what one operation does to the proposal and the bundles of one pool
-/

set_option linter.dupNamespace false
namespace Verif.Chain
open Verif
open Chain
open Verif.Bundles (Proposal VoteDist FBundle)

/-! ## specification -/

/-- the progress of the pool is the same -/
def Info (id : Nat) (c c' : Chain) : Prop :=
  ∀ pl, c.pool.pools.get? id = some pl → ∃ pl', c'.pool.pools.get? id = some pl' ∧
    pl'.totalBundles = pl.totalBundles ∧ pl'.currentIndex = pl.currentIndex ∧ pl'.currentKey = pl.currentKey ∧
    pl'.currentSummary = pl.currentSummary

/-- no bundle of the pool is finalized -/
structure SameBundles (id : Nat) (c c' : Chain) : Prop where
  fin : ∀ i, c'.bun.finalized.get? (id, i) = c.bun.finalized.get? (id, i)
  info : Info id c c'

/-- the current bundle proposal of pool `pl` is finalized: it gets the next bundle id and the index range that follows,
with the data of the proposal; more than half of the voting power was for it; the pool advances accordingly -/
structure Finalizes (id : Nat) (pl : Pool.Pool) (v : VoteDist) (c c' : Chain) : Prop where
  bundle : (c.proposal id).storageId ≠ 0
  majority : v.total < 2 * v.valid
  fin : ∀ i, c'.bun.finalized.get? (id, i) =
    if i = pl.totalBundles then
      some { storageId := (c.proposal id).storageId, uploader := (c.proposal id).uploader
             fromIndex := pl.currentIndex, toIndex := (pl.currentIndex + (c.proposal id).bundleSize) % 2 ^ 64
             finalizedAt := c.now, fromKey := (c.proposal id).fromKey, toKey := (c.proposal id).toKey
             summary := (c.proposal id).summary, dataHash := (c.proposal id).dataHash
             storageProviderId := (c.proposal id).storageProviderId, compressionId := (c.proposal id).compressionId
             validPower := v.valid, totalPower := v.total }
    else c.bun.finalized.get? (id, i)
  pool : ∃ pl', c'.pool.pools.get? id = some pl' ∧ pl'.totalBundles = pl.totalBundles + 1 ∧
    pl'.currentIndex = (pl.currentIndex + (c.proposal id).bundleSize) % 2 ^ 64 ∧
    pl'.currentKey = (c.proposal id).toKey ∧ pl'.currentSummary = (c.proposal id).summary

/-- the proposal of pool `id` is the one just submitted -/
def Submitted (id : Nat) (pl : Pool.Pool) (c c' : Chain) (op : Op) : Prop :=
  ∃ m n, op = .submit m ∧ m.pool = id ∧
    c'.proposal id = m.proposal c.now pl.storageProviderId pl.compressionId n

/-- the possible effects of an operation on pool `id` -/
inductive Round (id : Nat) (c c' : Chain) (op : Op) : Prop
  /-- the same proposal with the same votes; maybe another next uploader or time -/
  | kept (n : Option Addr) (t : Nat) : c'.proposal id = { c.proposal id with nextUploader := n, updatedAt := t } →
      SameBundles id c c' → Round id c c' op
  /-- a vote -/
  | voted (m : VoteMsg) : op = .vote m → m.pool = id → Registered c id m.staker m.creator →
      (c.proposal id).storageId ≠ 0 → m.storageId = (c.proposal id).storageId →
      m.staker ∉ (c.proposal id).valid → m.staker ∉ (c.proposal id).invalid →
      castVote (c.proposal id) m.staker m.vote = .ok (c'.proposal id) → SameBundles id c c' → Round id c c' op
  /-- the proposal is dropped -/
  | dropped (n : Option Addr) : c'.proposal id = Proposal.blank n c.now → SameBundles id c c' → Round id c c' op
  /-- a new proposal when there was none -/
  | proposed (pl : Pool.Pool) : c.pool.pools.get? id = some pl → (c.proposal id).storageId = 0 →
      Submitted id pl c c' op → SameBundles id c c' → Round id c c' op
  /-- the proposal is finalized; there is a new one or none -/
  | finalized (pl : Pool.Pool) (v : VoteDist) : c.pool.pools.get? id = some pl → Finalizes id pl v c c' →
      ((∃ n, c'.proposal id = Proposal.blank n c.now) ∨ Submitted id pl c c' op) → Round id c c' op

/-! ## small facts -/

theorem Info.refl (id : Nat) (c : Chain) : Info id c c := fun pl h => ⟨pl, h, rfl, rfl, rfl, rfl⟩

theorem SameBundles.refl (id : Nat) (c : Chain) : SameBundles id c c := ⟨fun _ => rfl, Info.refl id c⟩

theorem SameBundles.trans {id : Nat} {c c' c'' : Chain} (h : SameBundles id c c') (h' : SameBundles id c' c'') :
    SameBundles id c c'' := by
  refine ⟨fun i => (h'.fin i).trans (h.fin i), fun pl hpl => ?_⟩
  obtain ⟨q, hq, e1, e2, e3, e4⟩ := h.info pl hpl
  obtain ⟨r, hr, f1, f2, f3, f4⟩ := h'.info q hq
  exact ⟨r, hr, f1.trans e1, f2.trans e2, f3.trans e3, f4.trans e4⟩

theorem Apart.same {id : Nat} {c c' : Chain} (h : Apart id c c') : SameBundles id c c' :=
  ⟨h.fin, fun pl hpl => ⟨pl, by rw [h.pool]; exact hpl, rfl, rfl, rfl, rfl⟩⟩

theorem Round.of_apart {id : Nat} {c c' : Chain} {op : Op} (h : Apart id c c') : Round id c c' op :=
  .kept (c.proposal id).nextUploader (c.proposal id).updatedAt (by rw [h.proposal]) h.same

/-- the proposals and bundles are literally the same -/
theorem Round.of_bun {id : Nat} {c c' : Chain} {op : Op} (h1 : c'.bun.proposals = c.bun.proposals)
    (h2 : c'.bun.finalized = c.bun.finalized) (h3 : Info id c c') : Round id c c' op := by
  refine .kept (c.proposal id).nextUploader (c.proposal id).updatedAt ?_ ⟨fun i => by rw [h2], h3⟩
  unfold Chain.proposal Bundles.State.proposal
  rw [h1]

theorem Info.of_eq {id : Nat} {c c' : Chain} (h : c'.pool = c.pool) : Info id c c' := by
  intro pl hpl; exact ⟨pl, by rw [h]; exact hpl, rfl, rfl, rfl, rfl⟩

theorem Info.of_step {gov : Addr} {c c' : Chain} {op : Pool.Op} (hs : PoolR gov c)
    (ho : ∀ i a b e, op ≠ .bundleFinalized i a b e) (he : c'.pool = Pool.step gov c.pool c.now op) (id : Nat) :
    Info id c c' := by
  intro pl hpl
  have hI := Pool.Spec.Reachable.inv hs
  have hI' := (pool_step hs c.now op).inv
  have hex : ∃ pl', (Pool.step gov c.pool c.now op).pools.get? id = some pl' := by
    have hlt := (hI.dense id).1 ⟨pl, hpl⟩
    rw [hI'.dense]
    by_cases hc : ∃ m, op = .create m
    · obtain ⟨m, rfl⟩ := hc
      show _ < (Pool.orElse c.pool (Pool.create gov c.pool c.now m)).count
      cases hr : Pool.create gov c.pool c.now m with
      | error e => exact hlt
      | ok s =>
        have := (Pool.C40_create_effect gov c.pool s hs c.now m hr).2.2.1
        show _ < s.count
        omega
    · rw [pool_count hI c.now (fun m e => hc ⟨m, e⟩)]; exact hlt
  obtain ⟨pl', hpl'⟩ := hex
  refine ⟨pl', by rw [he]; exact hpl', ?_⟩
  rcases Pool.C40_progress gov c.pool hs c.now id op pl pl' hpl hpl' with ⟨e1, e2, e3, e4⟩ | ⟨i, k, sm, rfl, -⟩
  · exact ⟨e4, e2, e1, e3⟩
  · exact absurd rfl (ho _ _ _ _)

namespace Chain

/-! ## the messages of x/bundles, case by case -/

theorem submit_cases {c c' : Chain} {m : SubmitMsg} (h : c.submit m = .ok c') :
    ((c.proposal m.pool).storageId = 0 ∧ c' = (c.resetPoints m.pool m.staker).submitFirst m) ∨
    ((c.proposal m.pool).storageId ≠ 0 ∧ ∃ y v,
      (c.resetPoints m.pool m.staker).tally m.pool (c.proposal m.pool) = .done y v ∧
      ((v.status = .valid ∧ c' = y.submitNext m (c.proposal m.pool) v) ∨
       (v.status = .invalid ∧ c' = y.drop m.pool (c.proposal m.pool).nextUploader))) := by
  obtain ⟨-, -, h3⟩ := submit_ok h
  unfold submitGo at h3
  have e : (c.resetPoints m.pool m.staker).proposal m.pool = c.proposal m.pool := rfl
  rw [e] at h3
  split at h3
  · rename_i h0
    cases h3
    exact Or.inl ⟨h0, rfl⟩
  · rename_i h0
    right
    refine ⟨h0, ?_⟩
    cases ht : (c.resetPoints m.pool m.staker).tally m.pool (c.proposal m.pool) with
    | panicked => rw [ht] at h3; cases h3
    | failed y => rw [ht] at h3; cases h3
    | done y v =>
      rw [ht] at h3
      refine ⟨y, v, rfl, ?_⟩
      unfold submitTallied at h3
      split at h3
      · cases h3
      · cases h3
      · rename_i z w heq
        injection heq with e1 e2
        subst e1; subst e2
        split at h3
        · rename_i hval; cases h3; exact Or.inl ⟨hval, rfl⟩
        · rename_i hval; cases h3; exact Or.inr ⟨hval, rfl⟩
        · cases h3

theorem skip_cases {c c' : Chain} {m : SkipMsg} (h : c.skip m = .ok c') :
    ∃ y v, (c.resetPoints m.pool m.staker).tally m.pool (c.proposal m.pool) = .done y v ∧
      c' = (y.setProgress m.pool (y.choice m.pool [m.staker]).2).skipOutcome m.pool (c.proposal m.pool) v
        (y.choice m.pool [m.staker]).1 := by
  obtain ⟨-, h3⟩ := skip_ok h
  cases ht : (c.resetPoints m.pool m.staker).tally m.pool (c.proposal m.pool) with
  | panicked => rw [ht] at h3; cases h3
  | failed y => rw [ht] at h3; cases h3
  | done y v =>
    rw [ht] at h3
    cases h3
    exact ⟨y, v, rfl, rfl⟩

/-- what handling pool `id` at the end of a block does -/
inductive Visited (id interval : Nat) (c c' : Chain) : Prop
  /-- the pool can not run -/
  | stopped (e : RunErr) : c.runError id = some e → c' = c.visitStopped id e → Visited id interval c c'
  /-- too early -/
  | early : c.runError id = none → c.now < u64add (c.proposal id).updatedAt interval → c' = c → Visited id interval c c'
  /-- a bundle without quorum when the upload interval is over -/
  | noQuorum : c.runError id = none → ¬ c.now < u64add (c.proposal id).updatedAt interval →
      (c.proposal id).storageId ≠ 0 → (c.dist id).status = .noQuorum → c' = c.visitNoQuorum id →
      Visited id interval c c'
  /-- not yet overdue -/
  | waiting : c.runError id = none →
      (¬ c.now < u64add (c.proposal id).updatedAt interval ∧
        ¬ ((c.proposal id).storageId ≠ 0 ∧ (c.dist id).status = .noQuorum)) →
      c.now < u64add (u64add (c.proposal id).updatedAt interval) c.bun.params.uploadTimeout → c' = c →
      Visited id interval c c'
  /-- overdue, nothing proposed -/
  | empty : c.runError id = none →
      ¬ c.now < u64add (u64add (c.proposal id).updatedAt interval) c.bun.params.uploadTimeout →
      (c.proposal id).storageId = 0 → c' = c.visitEmpty id → Visited id interval c c'
  /-- overdue, and the payout of the bundle fails -/
  | failed : c.runError id = none →
      ¬ c.now < u64add (u64add (c.proposal id).updatedAt interval) c.bun.params.uploadTimeout →
      (c.proposal id).storageId ≠ 0 → c.tally id (c.proposal id) = .failed c' → Visited id interval c c'
  /-- overdue, the bundle is decided -/
  | tallied (y : Chain) (v : VoteDist) : c.runError id = none →
      ¬ c.now < u64add (u64add (c.proposal id).updatedAt interval) c.bun.params.uploadTimeout →
      (c.proposal id).storageId ≠ 0 → (c.dist id).status ≠ .noQuorum → c.tally id (c.proposal id) = .done y v →
      c' = (if v.status = .valid then y.visitValid id (c.proposal id) v else y.visitOther id).pointLate id
        (c.proposal id).nextUploader → Visited id interval c c'

theorem visit_cases {c c' : Chain} {id interval : Nat} (h : c.visit id interval = some c') :
    Visited id interval c c' := by
  unfold visit at h
  split at h
  · rename_i e he
    cases h; exact .stopped e he rfl
  · rename_i hr
    unfold visitRunning at h
    split at h
    · rename_i h1; cases h; exact .early hr h1 rfl
    · rename_i h1
      split at h
      · rename_i h2; cases h; exact .noQuorum hr h1 h2.1 h2.2 rfl
      · rename_i h2
        unfold visitTimeout at h
        split at h
        · rename_i h3; cases h; exact .waiting hr ⟨h1, h2⟩ h3 rfl
        · rename_i h3
          split at h
          · rename_i h4
            cases ht : c.tally id (c.proposal id) with
            | panicked => rw [ht] at h; cases h
            | failed y => rw [ht] at h; cases h; exact .failed hr h3 h4 ht
            | done y v =>
              rw [ht] at h; cases h
              exact .tallied y v hr h3 h4 (fun e => h2 ⟨h4, e⟩) ht rfl
          · rename_i h4
            cases h
            exact .empty hr h3 (by simpa using h4) rfl

/-! ## other pools -/

variable {id : Nat} {c c' : Chain}

theorem apart_resetPoints {j : Nat} (hj : id ≠ j) (a : Addr) : Apart id c (c.resetPoints j a) := by
  refine Apart.of_fixed (resetPoints_fixed c j a) (fun b => ?_)
  rw [resetPoints_get, if_neg (by simp [hj])]

theorem apart_register {m : SubmitMsg} (hj : id ≠ m.pool) (n : Option Addr) : Apart id c (c.register m n) := by
  unfold register
  split
  · exact Apart.refl _ _
  · exact apart_setProposal hj _

theorem apart_submit (hk : Keyed c) {m : SubmitMsg} (hj : id ≠ m.pool) (h : c.submit m = .ok c') : Apart id c c' := by
  have h0 : Apart id c (c.resetPoints m.pool m.staker) := apart_resetPoints hj _
  have hk0 : Keyed (c.resetPoints m.pool m.staker) := hk
  rcases submit_cases h with ⟨-, rfl⟩ | ⟨-, y, v, ht, hh⟩
  · exact h0.trans ((apart_setProgress hj _).trans (apart_register hj _))
  · have ha := apart_tally (c := c.resetPoints m.pool m.staker) hj (c.proposal m.pool)
    have hq := tally_q 0 (c.resetPoints m.pool m.staker) m.pool (c.proposal m.pool)
    rw [ht] at ha hq
    have hd : Keyed y := keyed_still hk0 (QSteps.still hq)
    refine h0.trans (Apart.trans (c' := y) ha ?_)
    rcases hh with ⟨-, rfl⟩ | ⟨-, rfl⟩
    · refine (apart_setProgress (c := y) hj (y.choiceFrom m.pool (c.proposal m.pool).valid).2).trans
        (Apart.trans ?_ (apart_register hj _))
      exact apart_finalize (c := y.setProgress m.pool _) hj hd v
    · exact apart_setProposal hj _

theorem apart_skip (hk : Keyed c) {m : SkipMsg} (hj : id ≠ m.pool) (h : c.skip m = .ok c') : Apart id c c' := by
  have h0 : Apart id c (c.resetPoints m.pool m.staker) := apart_resetPoints hj _
  have hk0 : Keyed (c.resetPoints m.pool m.staker) := hk
  obtain ⟨y, v, ht, rfl⟩ := skip_cases h
  have ha := apart_tally (c := c.resetPoints m.pool m.staker) hj (c.proposal m.pool)
  have hq := tally_q 0 (c.resetPoints m.pool m.staker) m.pool (c.proposal m.pool)
  rw [ht] at ha hq
  have hd : Keyed y := keyed_still hk0 (QSteps.still hq)
  refine h0.trans (Apart.trans (c' := y) ha ((apart_setProgress (c := y) hj (y.choice m.pool [m.staker]).2).trans ?_))
  unfold skipOutcome
  split
  · exact Apart.trans (apart_finalize (c := y.setProgress m.pool _) hj hd v) (apart_setProposal hj _)
  · exact apart_setProposal hj _
  · exact apart_setProposal hj _

/-! ## the pool itself -/

theorem same_still (h : Still c c') : SameBundles id c c' :=
  ⟨fun i => by rw [h.bun], Info.of_eq h.pool⟩

theorem kept_still {op : Op} (h : Still c c') : Round id c c' op :=
  Round.of_bun (by rw [h.bun]) (by rw [h.bun]) (Info.of_eq h.pool)

/-- finalizing -/
theorem finalizes {pl : Pool.Pool} (hk : Keyed c) (hpl : c.pool.pools.get? id = some pl) {v : VoteDist}
    (h0 : (c.proposal id).storageId ≠ 0) (hv : v.total < 2 * v.valid) : Finalizes id pl v c (c.finalize id v) := by
  refine ⟨h0, hv, fun i => ?_, ?_⟩
  · unfold finalize
    rw [hpl]
    show (c.bun.finalized.set (id, pl.totalBundles) (c.bundleOf pl (c.proposal id) v)).get? (id, i) = _
    rw [Map.get?_set]
    by_cases e : i = pl.totalBundles
    · subst e; rw [if_pos rfl, if_pos rfl]; rfl
    · rw [if_neg (by simpa using e), if_neg e]
  · unfold finalize
    rw [hpl]
    refine ⟨{ pl with
      currentIndex := u64add pl.currentIndex (c.proposal id).bundleSize, totalBundles := pl.totalBundles + 1
      currentKey := (c.proposal id).toKey, currentSummary := (c.proposal id).summary }, ?_, rfl, rfl, rfl, rfl⟩
    show (Pool.incrementBundleInformation c.pool id _ _ _).pools.get? id = _
    unfold Pool.incrementBundleInformation
    rw [hpl]
    show (c.pool.pools.set pl.id _).get? id = _
    rw [hk id pl hpl, Map.get?_set_self]

/-- `Finalizes` looks only at some parts of the two states -/
theorem Finalizes.congr {pl : Pool.Pool} {v : VoteDist} {x x' : Chain} (h : Finalizes id pl v x x')
    (hn : x.now = c.now) (hp : x.proposal id = c.proposal id)
    (hf : ∀ i, x.bun.finalized.get? (id, i) = c.bun.finalized.get? (id, i))
    (hf' : ∀ i, c'.bun.finalized.get? (id, i) = x'.bun.finalized.get? (id, i))
    (hq : c'.pool.pools.get? id = x'.pool.pools.get? id) : Finalizes id pl v c c' := by
  obtain ⟨h1, h2, h3, h4⟩ := h
  rw [hp] at h1 h4
  refine ⟨h1, h2, fun i => ?_, by rw [hq]; exact h4⟩
  rw [hf', h3, hp, hn, hf]

theorem still_finalizes {pl : Pool.Pool} {v : VoteDist} {x : Chain} (hs : Still c x)
    (h : Finalizes id pl v x c') : Finalizes id pl v c c' :=
  Finalizes.congr h hs.now (hs.proposal id) (fun i => by rw [hs.bun]) (fun _ => rfl) rfl

theorem register_get {m : SubmitMsg} {n : Option Addr} {pl : Pool.Pool} (h : c.pool.pools.get? m.pool = some pl) :
    c.register m n = c.setProposal m.pool (m.proposal c.now pl.storageProviderId pl.compressionId n) := by
  unfold register; rw [h]

theorem finalize_pool_get {pl : Pool.Pool} (hk : Keyed c) (hpl : c.pool.pools.get? id = some pl) (v : VoteDist) :
    ∃ pl', (c.finalize id v).pool.pools.get? id = some pl' ∧ pl'.storageProviderId = pl.storageProviderId ∧
      pl'.compressionId = pl.compressionId := by
  unfold finalize
  rw [hpl]
  refine ⟨{ pl with
      currentIndex := u64add pl.currentIndex (c.proposal id).bundleSize, totalBundles := pl.totalBundles + 1
      currentKey := (c.proposal id).toKey, currentSummary := (c.proposal id).summary }, ?_, rfl, rfl⟩
  show (Pool.incrementBundleInformation c.pool id _ _ _).pools.get? id = _
  unfold Pool.incrementBundleInformation
  rw [hpl]
  show (c.pool.pools.set pl.id _).get? id = _
  rw [hk id pl hpl, Map.get?_set_self]

theorem round_submit (hk : Keyed c) {m : SubmitMsg} (h : c.submit m = .ok c') :
    Round m.pool c c' (.submit m) := by
  obtain ⟨h1, -, -⟩ := submit_ok h
  obtain ⟨pl, hpl, -⟩ := canPropose_none h1
  have hpl := hpl.found
  have s0 := (resetPoints_fixed c m.pool m.staker).still
  rcases submit_cases h with ⟨h0, rfl⟩ | ⟨h0, y, v, ht, hh⟩
  · refine .proposed pl hpl h0 ⟨m, ((c.resetPoints m.pool m.staker).choice m.pool []).1, rfl, rfl, ?_⟩ ?_
    · unfold submitFirst
      rw [register_get (c := (c.resetPoints m.pool m.staker).setProgress m.pool _) hpl, proposal_set, if_pos rfl]
      rfl
    · unfold submitFirst
      rw [register_get (c := (c.resetPoints m.pool m.staker).setProgress m.pool _) hpl]
      exact ⟨fun _ => rfl, Info.of_eq rfl⟩
  · obtain ⟨f1, -, -⟩ := tally_spec ht
    obtain ⟨-, hv⟩ := tally_facts (gov := 0) ht
    have s1 := Still.trans s0 f1.still
    rcases hh with ⟨hval, rfl⟩ | ⟨-, rfl⟩
    · have hpy : y.pool.pools.get? m.pool = some pl := by rw [s1.pool]; exact hpl
      have hky0 : Keyed y := keyed_still hk s1
      have hky : Keyed (y.setProgress m.pool (y.choiceFrom m.pool (c.proposal m.pool).valid).2) := hky0
      have hfz := finalizes (c := y.setProgress m.pool (y.choiceFrom m.pool (c.proposal m.pool).valid).2) (v := v)
        hky hpy (by show (y.proposal m.pool).storageId ≠ 0; rw [s1.proposal]; exact h0) (hv hval).1
      obtain ⟨pl', hpl', e1, e2⟩ := finalize_pool_get
        (c := y.setProgress m.pool (y.choiceFrom m.pool (c.proposal m.pool).valid).2) hky hpy v
      have er := register_get (c := (y.setProgress m.pool (y.choiceFrom m.pool (c.proposal m.pool).valid).2).finalize
        m.pool v) (n := (y.choiceFrom m.pool (c.proposal m.pool).valid).1) hpl'
      refine .finalized pl v hpl ?_ (Or.inr ⟨m, (y.choiceFrom m.pool (c.proposal m.pool).valid).1, rfl, rfl, ?_⟩)
      · unfold submitNext
        rw [er]
        exact Finalizes.congr hfz s1.now (s1.proposal m.pool) (fun i => by rw [← s1.bun]; rfl) (fun _ => rfl) rfl
      · unfold submitNext
        rw [er, proposal_set, if_pos rfl, e1, e2, finalize_now]
        show m.proposal y.now _ _ _ = _
        rw [s1.now]
    · refine .dropped (c.proposal m.pool).nextUploader ?_ ?_
      · show (y.setProposal m.pool _).proposal m.pool = _
        rw [proposal_set, if_pos rfl, s1.now]
      · exact (same_still s1).trans ⟨fun _ => rfl, Info.of_eq rfl⟩

theorem round_skip (hk : Keyed c) (hempty : (c.proposal id).storageId = 0 → (c.proposal id).valid = [])
    {m : SkipMsg} (hm : m.pool = id) (h : c.skip m = .ok c') : Round id c c' (.skip m) := by
  subst hm
  obtain ⟨h1, -⟩ := skip_ok h
  obtain ⟨pl, hpl, -⟩ := canPropose_none h1
  have hpl := hpl.found
  have s0 := (resetPoints_fixed c m.pool m.staker).still
  obtain ⟨y, v, ht, rfl⟩ := skip_cases h
  obtain ⟨f1, -, -⟩ := tally_spec ht
  obtain ⟨-, hv⟩ := tally_facts (gov := 0) ht
  have s1 := Still.trans s0 f1.still
  have sp : SameBundles m.pool c (y.setProgress m.pool (y.choice m.pool [m.staker]).2) :=
    (same_still s1).trans ⟨fun _ => rfl, Info.of_eq rfl⟩
  unfold skipOutcome
  split
  · rename_i hval
    have hpy : y.pool.pools.get? m.pool = some pl := by rw [s1.pool]; exact hpl
    have hky0 : Keyed y := keyed_still hk s1
    have hky : Keyed (y.setProgress m.pool (y.choice m.pool [m.staker]).2) := hky0
    have h0 : (c.proposal m.pool).storageId ≠ 0 := fun e => (hv hval).2 (hempty e)
    have hfz := finalizes (c := y.setProgress m.pool (y.choice m.pool [m.staker]).2) (v := v)
      hky hpy (by show (y.proposal m.pool).storageId ≠ 0; rw [s1.proposal]; exact h0) (hv hval).1
    refine .finalized pl v hpl ?_ (Or.inl ⟨(y.choice m.pool [m.staker]).1, ?_⟩)
    · exact Finalizes.congr hfz s1.now (s1.proposal m.pool) (fun i => by rw [← s1.bun]; rfl) (fun _ => rfl) rfl
    · rw [proposal_set, if_pos rfl]
      show Proposal.blank _ y.now = _
      rw [s1.now]
  · refine .dropped (y.choice m.pool [m.staker]).1 ?_ (sp.trans ⟨fun _ => rfl, Info.of_eq rfl⟩)
    show (Chain.setProposal _ m.pool _).proposal m.pool = _
    rw [proposal_set, if_pos rfl]
    show Proposal.blank _ y.now = _
    rw [s1.now]
  · refine .kept (y.choice m.pool [m.staker]).1 y.now ?_ (sp.trans ⟨fun _ => rfl, Info.of_eq rfl⟩)
    rw [proposal_set, if_pos rfl]
    rfl

theorem round_vote {m : VoteMsg} (h : c.vote m = .ok c') : Round m.pool c c' (.vote m) := by
  obtain ⟨h1, p, hp, rfl⟩ := vote_ok h
  obtain ⟨⟨pl, hpl⟩, hr, h0, hs, hv, hi⟩ := canVote_none h1
  have e : ((c.setProposal m.pool p).resetPoints m.pool m.staker).proposal m.pool = p := by
    show (c.setProposal m.pool p).proposal m.pool = p
    rw [proposal_set, if_pos rfl]
  refine .voted m rfl rfl hr h0 hs hv hi ?_ ⟨fun _ => rfl, Info.of_eq rfl⟩
  rw [e]; exact hp

theorem apart_vote {m : VoteMsg} (hj : id ≠ m.pool) (h : c.vote m = .ok c') : Apart id c c' := by
  obtain ⟨-, p, -, rfl⟩ := vote_ok h
  exact (apart_setProposal hj _).trans (apart_resetPoints hj _)

theorem round_claim {a b : Addr} {j : Nat} (h : c.claim a b j = .ok c') : Round id c c' (.claim a b j) := by
  obtain ⟨-, -, -, rfl⟩ := claim_ok h
  by_cases e : id = j
  · subst e
    refine .kept (some b) c.now ?_ ⟨fun _ => rfl, Info.of_eq rfl⟩
    rw [proposal_set, if_pos rfl]
  · exact Round.of_apart (apart_setProposal e _)

theorem round_visit (hk : Keyed c) {interval : Nat} {pl : Pool.Pool} (hpl : c.pool.pools.get? id = some pl)
    (h : c.visit id interval = some c') : Round id c c' .endBlock := by
  have self : ∀ (x : Chain) (p : Proposal), (x.setProposal id p).proposal id = p := fun x p => by
    rw [proposal_set, if_pos rfl]
  rcases visit_cases h with ⟨e, -, rfl⟩ | ⟨-, -, rfl⟩ | ⟨-, -, -, -, rfl⟩ | ⟨-, -, -, rfl⟩ | ⟨-, -, h0, rfl⟩ |
    ⟨-, -, -, ht⟩ | ⟨y, v, -, -, h0, -, ht, rfl⟩
  · unfold visitStopped
    split
    · exact .dropped none (self _ _) ⟨fun _ => rfl, Info.of_eq rfl⟩
    · split
      · exact .kept none (c.proposal id).updatedAt (self _ _) ⟨fun _ => rfl, Info.of_eq rfl⟩
      · exact Round.of_apart (Apart.refl _ _)
  · exact Round.of_apart (Apart.refl _ _)
  · have s := (nonVoters_q 0 c id).still
    refine .dropped ((c.nonVoters id).choice id []).1 ?_ ((same_still s).trans ⟨fun _ => rfl, Info.of_eq rfl⟩)
    show (Chain.setProposal _ id _).proposal id = _
    rw [self]
    show Proposal.blank _ (c.nonVoters id).now = _
    rw [s.now]
  · exact Round.of_apart (Apart.refl _ _)
  · have s := (pointLate_q 0 ((c.setProgress id (c.choice id []).2).setProposal id
      { c.proposal id with nextUploader := (c.choice id []).1, updatedAt := c.now }) id (c.proposal id).nextUploader).still
    refine .kept (c.choice id []).1 c.now ?_ (SameBundles.trans ?_ (same_still s))
    · unfold visitEmpty
      rw [s.proposal, self]
    · exact ⟨fun _ => rfl, Info.of_eq rfl⟩
  · have hq := tally_q 0 c id (c.proposal id)
    rw [ht] at hq
    exact kept_still (QSteps.still hq)
  · obtain ⟨f1, -, -⟩ := tally_spec ht
    obtain ⟨-, hv⟩ := tally_facts (gov := 0) ht
    have s1 := f1.still
    have s2 := (pointLate_q 0 (if v.status = .valid then y.visitValid id (c.proposal id) v else y.visitOther id) id
      (c.proposal id).nextUploader).still
    by_cases hval : v.status = .valid
    · simp only [hval, if_true] at s2 ⊢
      have hpy : y.pool.pools.get? id = some pl := by rw [s1.pool]; exact hpl
      have hky0 : Keyed y := keyed_still hk s1
      have hky : Keyed (y.setProgress id (y.choiceFrom id (c.proposal id).valid).2) := hky0
      have hfz := finalizes (c := y.setProgress id (y.choiceFrom id (c.proposal id).valid).2) (v := v)
        hky hpy (by show (y.proposal id).storageId ≠ 0; rw [s1.proposal]; exact h0) (hv hval).1
      refine .finalized pl v hpl ?_ (Or.inl ⟨(y.choiceFrom id (c.proposal id).valid).1, ?_⟩)
      · refine Finalizes.congr hfz s1.now (s1.proposal id) (fun i => by rw [← s1.bun]; rfl) (fun i => ?_) ?_
        · rw [s2.bun]; rfl
        · rw [s2.pool]; rfl
      · rw [s2.proposal]
        show (Chain.setProposal _ id _).proposal id = _
        rw [self, s1.now]
    · simp only [hval, if_false] at s2 ⊢
      refine .dropped (y.choice id []).1 ?_ (SameBundles.trans ?_ (same_still s2))
      · rw [s2.proposal]
        show (Chain.setProposal _ id _).proposal id = _
        rw [self]
        show Proposal.blank _ y.now = _
        rw [s1.now]
      · exact (same_still s1).trans ⟨fun _ => rfl, Info.of_eq rfl⟩

/-- before: only the time-independent parts of the pool record change -/
theorem Round.pre {x : Chain} {op : Op} (h : Round id x c' op) (hb : x.bun = c.bun) (hn : x.now = c.now)
    (hp : ∀ pl, x.pool.pools.get? id = some pl → ∃ pl0, c.pool.pools.get? id = some pl0 ∧
      pl.totalBundles = pl0.totalBundles ∧ pl.currentIndex = pl0.currentIndex ∧ pl.currentKey = pl0.currentKey ∧
      pl.currentSummary = pl0.currentSummary)
    (hi : Info id c x) (hs : ∀ m, op ≠ .submit m) (hv : ∀ m, op ≠ .vote m) : Round id c c' op := by
  have ep : x.proposal id = c.proposal id := by unfold Chain.proposal; rw [hb]
  have sx : SameBundles id c x := ⟨fun i => by rw [hb], hi⟩
  cases h with
  | kept n t h1 h2 => exact .kept n t (by rw [h1, ep]) (sx.trans h2)
  | voted m h1 => exact absurd h1 (hv m)
  | dropped n h1 h2 => exact .dropped n (by rw [h1, hn]) (sx.trans h2)
  | proposed pl h1 h2 h3 h4 => obtain ⟨m, n, e, -⟩ := h3; exact absurd e (hs m)
  | finalized pl v h1 h2 h3 =>
    obtain ⟨pl0, g1, g2, g3, g4, g5⟩ := hp pl h1
    obtain ⟨k1, k2, k3, k4⟩ := h2
    rw [ep] at k1
    refine .finalized pl0 v g1 ⟨k1, k2, fun i => ?_, ?_⟩ ?_
    · rw [k3, hb, hn, ep, g2, g3]
    · rw [ep, g2, g3] at k4; exact k4
    · rcases h3 with ⟨n, e⟩ | ⟨m, n, e, -⟩
      · exact Or.inl ⟨n, by rw [e, hn]⟩
      · exact absurd e (hs m)

/-- afterwards: other pools -/
theorem Round.post {x : Chain} {op : Op} (h : Round id c x op) (ha : Apart id x c') : Round id c c' op := by
  have ep : c'.proposal id = x.proposal id := ha.proposal
  cases h with
  | kept n t h1 h2 => exact .kept n t (by rw [ep, h1]) (h2.trans ha.same)
  | voted m h1 h2 h3 h4 h5 h6 h7 h8 h9 => exact .voted m h1 h2 h3 h4 h5 h6 h7 (by rw [ep]; exact h8) (h9.trans ha.same)
  | dropped n h1 h2 => exact .dropped n (by rw [ep, h1]) (h2.trans ha.same)
  | proposed pl h1 h2 h3 h4 =>
    obtain ⟨m, n, e1, e2, e3⟩ := h3
    exact .proposed pl h1 h2 ⟨m, n, e1, e2, by rw [ep]; exact e3⟩ (h4.trans ha.same)
  | finalized pl v h1 h2 h3 =>
    refine .finalized pl v h1 ⟨h2.bundle, h2.majority, fun i => by rw [ha.fin, h2.fin], by rw [ha.pool]; exact h2.pool⟩ ?_
    rcases h3 with ⟨n, e⟩ | ⟨m, n, e1, e2, e3⟩
    · exact Or.inl ⟨n, by rw [ep, e]⟩
    · exact Or.inr ⟨m, n, e1, e2, by rw [ep]; exact e3⟩

theorem keyed_of {gov : Addr} {s : Pool.State} (h : Pool.Spec.Reachable gov s) {c : Chain} (e : c.pool = s) : Keyed c := by
  intro k p hp
  rw [e] at hp
  exact h.inv.key k p hp

theorem round_endBlock {gov : Addr} (hP : PoolR gov c) (id : Nat) : Round id c c.endBlock .endBlock := by
  have hP' : Pool.Spec.Reachable gov c.upgradePools.pool := pool_step hP c.now .endBlock
  have hk : Keyed c.upgradePools := keyed_of hP' rfl
  have hi : Info id c c.upgradePools := Info.of_step (op := .endBlock) hP (fun _ _ _ _ h => by cases h) rfl id
  have hcrash : Round id c { c with crashed := true } .endBlock := Round.of_bun rfl rfl (Info.of_eq rfl)
  cases hp : c.upgradePools.pool.pools.get? id with
  | none =>
    have hx : c.endBlock = { c with crashed := true } ∨ Apart id c.upgradePools c.endBlock := by
      unfold endBlock
      cases hv : visits (c.upgradePools.pool.pools.toList) c.upgradePools with
      | none => exact Or.inl rfl
      | some c' =>
        right
        refine (apart_visits (id := id) _ (fun e he e' => ?_) hk hv).1
        have := (Map.mem_iff _ e.1 e.2).1 he
        rw [← e', hp] at this; cases this
    rcases hx with hx | hx
    · rw [hx]; exact hcrash
    · refine Round.post (x := c.upgradePools) ?_ hx
      exact Round.of_bun rfl rfl hi
  | some pl =>
    rcases endBlock_split hk hp with hx | ⟨d, d', a1, k1, hv, a2⟩
    · rw [hx]; exact hcrash
    · refine Round.post ?_ a2
      have hd : Round id d d' .endBlock := round_visit k1 (by rw [a1.pool]; exact hp) hv
      have h1 : Round id c.upgradePools d' .endBlock := by
        have ep := a1.proposal
        have sx := a1.same
        cases hd with
        | kept n t h1 h2 => exact .kept n t (by rw [h1, ep]) (sx.trans h2)
        | voted m h1 => cases h1
        | dropped n h1 h2 => exact .dropped n (by rw [h1, a1.now]) (sx.trans h2)
        | proposed pl h1 h2 h3 h4 => obtain ⟨m, n, e, -⟩ := h3; cases e
        | finalized pl' v h1 h2 h3 =>
          refine .finalized pl' v (by rw [← a1.pool]; exact h1)
            (Finalizes.congr h2 a1.now ep a1.fin (fun _ => rfl) rfl) ?_
          rcases h3 with ⟨n, e⟩ | ⟨m, n, e, -⟩
          · exact Or.inl ⟨n, by rw [e, a1.now]⟩
          · cases e
      refine Round.pre h1 rfl rfl (fun pl' hpl' => ?_) hi (fun m h => by cases h) (fun m h => by cases h)
      rw [hp] at hpl'; cases hpl'
      have hI := Pool.Spec.Reachable.inv hP
      have hlt := (hP'.inv.dense id).1 ⟨pl, hp⟩
      have hc := pool_count (gov := gov) hI c.now (op := .endBlock) (fun m e => by cases e)
      obtain ⟨pl0, hpl0⟩ := (hI.dense id).2 (by
        have e : c.upgradePools.pool.count = c.pool.count := hc
        omega)
      obtain ⟨q, hq, e1, e2, e3, e4⟩ := hi pl0 hpl0
      rw [hp] at hq; cases hq
      exact ⟨pl0, hpl0, e1, e2, e3, e4⟩

/-- an operation without effect on proposals -/
theorem round_plain {gov : Addr} (hP : PoolR gov c) {op : Op} (h : exec gov c op = .ok c')
    (h1 : ∀ m, op ≠ .submit m) (h2 : ∀ m, op ≠ .vote m) (h3 : ∀ m, op ≠ .skip m) (h4 : ∀ a b i, op ≠ .claim a b i)
    (h5 : op ≠ .endBlock) (id : Nat) : Round id c c' op := by
  have hpool : ∀ {s : Pool.State} {q : Pool.Op}, (∀ i a b e, q ≠ .bundleFinalized i a b e) →
      Pool.step gov c.pool c.now q = s → ∀ x : Chain, x.pool = s → Info id c x := by
    intro s q hq hs x hx
    exact Info.of_step hP hq (by rw [hx, hs]) id
  cases op with
  | submit m => exact absurd rfl (h1 m)
  | vote m => exact absurd rfl (h2 m)
  | skip m => exact absurd rfl (h3 m)
  | claim a b i => exact absurd rfl (h4 a b i)
  | createStaker a k n =>
    have h' : c.createStaker a k n = .ok c' := h
    unfold createStaker at h'
    split at h'
    · cases h'
    · split at h'
      · cases h'
      · cases h'; exact Round.of_bun rfl rfl (Info.of_eq rfl)
  | join m => obtain ⟨w, -, rfl⟩ := join_eq h; exact Round.of_bun rfl rfl (Info.of_eq rfl)
  | leave a i => obtain ⟨s, hr, rfl⟩ := map_ok h; exact Round.of_bun rfl rfl (Info.of_eq rfl)
  | updateCommission a k => obtain ⟨s, hr, rfl⟩ := map_ok h; exact Round.of_bun rfl rfl (Info.of_eq rfl)
  | updateMetadata a i v => obtain ⟨s, hr, rfl⟩ := map_ok h; exact Round.of_bun rfl rfl (Info.of_eq rfl)
  | claimRewards a x => obtain ⟨s, hr, rfl⟩ := map_ok h; exact Round.of_bun rfl rfl (Info.of_eq rfl)
  | delegate a st n => obtain ⟨s, hr, rfl⟩ := map_ok h; exact Round.of_bun rfl rfl (Info.of_eq rfl)
  | redelegate m => obtain ⟨s, hr, rfl⟩ := map_ok h; exact Round.of_bun rfl rfl (Info.of_eq rfl)
  | undelegate a st n => obtain ⟨s, hr, rfl⟩ := map_ok h; exact Round.of_bun rfl rfl (Info.of_eq rfl)
  | withdraw a st => obtain ⟨s, hr, rfl⟩ := map_ok h; exact Round.of_bun rfl rfl (Info.of_eq rfl)
  | createFunder a => obtain ⟨s, hr, rfl⟩ := map_ok h; exact Round.of_bun rfl rfl (Info.of_eq rfl)
  | fund m => obtain ⟨s, hr, rfl⟩ := map_ok h; exact Round.of_bun rfl rfl (Info.of_eq rfl)
  | defund m => obtain ⟨s, hr, rfl⟩ := map_ok h; exact Round.of_bun rfl rfl (Info.of_eq rfl)
  | createPool m =>
    obtain ⟨s, hs, rfl⟩ := createPool_eq h
    refine Round.of_bun rfl rfl (hpool (q := .create m) (by rintro _ _ _ _ ⟨⟩) ?_ _ rfl)
    show Pool.orElse c.pool (Pool.create gov c.pool c.now m) = s
    rw [hs]; rfl
  | updatePool a i u =>
    obtain ⟨s, hr, rfl⟩ := map_ok h
    refine Round.of_bun rfl rfl (hpool (q := .update a i u) (by rintro _ _ _ _ ⟨⟩) ?_ _ rfl)
    show Pool.orElse _ (Pool.update gov c.pool a i u) = _
    rw [hr]; rfl
  | enablePool a i =>
    obtain ⟨s, hr, rfl⟩ := map_ok h
    refine Round.of_bun rfl rfl (hpool (q := .enable a i) (by rintro _ _ _ _ ⟨⟩) ?_ _ rfl)
    show Pool.orElse _ (Pool.enable gov c.pool a i) = _
    rw [hr]; rfl
  | disablePool a i =>
    have h' : disablePool gov c a i = .ok c' := h
    unfold disablePool at h'
    split at h'
    · cases h'
    · rename_i s hs
      have q := (kickAll_q gov i (c.members i) { c with pool := s }).still
      have hx : c'.bun = c.bun ∧ c'.pool = s := by
        generalize hy : kickAll i (c.members i) { c with pool := s } = y at *
        unfold drain at h'
        split at h'
        · cases h'; exact ⟨q.bun, q.pool⟩
        · split at h'
          · cases h'
          · split at h'
            · cases h'
            · cases h'; exact ⟨q.bun, q.pool⟩
      refine Round.of_bun (by rw [hx.1]) (by rw [hx.1]) (hpool (q := .disable a i) (by rintro _ _ _ _ ⟨⟩) ?_ _ hx.2)
      show Pool.orElse _ (Pool.disable gov c.pool a i) = _
      rw [hs]; rfl
  | scheduleUpgrade m =>
    obtain ⟨s, hr, rfl⟩ := map_ok h
    refine Round.of_bun rfl rfl (hpool (q := .schedule m) (by rintro _ _ _ _ ⟨⟩) ?_ _ rfl)
    show Pool.orElse _ (Pool.schedule gov c.pool c.now m) = _
    rw [hr]; rfl
  | cancelUpgrade a r =>
    obtain ⟨s, hr, rfl⟩ := map_ok h
    refine Round.of_bun rfl rfl (hpool (q := .cancel a r) (by rintro _ _ _ _ ⟨⟩) ?_ _ rfl)
    show Pool.orElse _ (Pool.cancel gov c.pool a r) = _
    rw [hr]; rfl
  | bundlesParams a y =>
    obtain ⟨s, hr, rfl⟩ := map_ok h
    unfold Bundles.updateParams at hr
    split at hr
    · cases hr
    · split at hr
      · cases hr
      · cases hr; exact Round.of_bun rfl rfl (Info.of_eq rfl)
  | delegationParams a y => obtain ⟨s, hr, rfl⟩ := map_ok h; exact Round.of_bun rfl rfl (Info.of_eq rfl)
  | stakersParams a y => obtain ⟨s, hr, rfl⟩ := map_ok h; exact Round.of_bun rfl rfl (Info.of_eq rfl)
  | poolParams a y =>
    obtain ⟨s, hr, rfl⟩ := map_ok h
    refine Round.of_bun rfl rfl (hpool (q := .updateParams a y) (by rintro _ _ _ _ ⟨⟩) ?_ _ rfl)
    show Pool.orElse _ (Pool.updateParams gov c.pool a y) = _
    rw [hr]; rfl
  | fundersParams a p => obtain ⟨s, hr, rfl⟩ := map_ok h; exact Round.of_bun rfl rfl (Info.of_eq rfl)
  | beginBlock dt pr te r =>
    injection h with h
    subst h
    show Round id c (c.afterSplit r ((c.newBlock dt r).splitInflation pr te)) _
    cases hs : (c.newBlock dt r).splitInflation pr te with
    | none => exact Round.of_bun rfl rfl (Info.of_eq rfl)
    | some x =>
      obtain ⟨b, hl, rfl, -⟩ := splitInflation_eq hs
      refine Round.of_bun ?_ ?_ (Info.of_eq rfl)
      · show (if r then c.bun.initMemStore else c.bun).proposals = _
        cases r <;> rfl
      · show (if r then c.bun.initMemStore else c.bun).finalized = _
        cases r <;> rfl
  | endBlock => exact absurd rfl h5
  | external b gd gs gf => injection h with h; subst h; exact Round.of_bun rfl rfl (Info.of_eq rfl)

/-- every operation has one of the listed effects on every pool -/
theorem round_step {gov : Addr} (h : Reachable gov c) (op : Op) (id : Nat) : Round id c (c.step gov op) op := by
  have hP : PoolR gov c := h.good.mods.pool
  have hk : Keyed c := keyed_of hP rfl
  unfold step
  split
  · exact Round.of_apart (Apart.refl _ _)
  · cases he : exec gov c op with
    | error e => exact Round.of_apart (Apart.refl _ _)
    | ok c' =>
      show Round id c c' op
      cases op with
      | submit m =>
        by_cases e : id = m.pool
        · subst e; exact round_submit hk he
        · exact Round.of_apart (apart_submit hk e he)
      | vote m =>
        by_cases e : id = m.pool
        · subst e; exact round_vote he
        · exact Round.of_apart (apart_vote e he)
      | skip m =>
        by_cases e : id = m.pool
        · exact round_skip hk (fun h0 => by rw [(h.good.bun.prop id).empty h0]; rfl) e.symm he
        · exact Round.of_apart (apart_skip hk e he)
      | claim a b j => exact round_claim he
      | endBlock => injection he with he; subst he; exact round_endBlock hP id
      | _ =>
        exact round_plain hP he (by rintro _ ⟨⟩) (by rintro _ ⟨⟩) (by rintro _ ⟨⟩) (by rintro _ _ _ ⟨⟩)
          (by rintro ⟨⟩) id

end Chain
end Verif.Chain
