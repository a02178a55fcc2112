import Verif.Chain.Uploaders

/-!
# C80: upload turns

What the messages do to the turn of a pool: who may upload next, and since when.
-/

set_option linter.dupNamespace false
namespace Verif.Chain
open Verif
open Chain
open Verif.Bundles (Proposal VoteDist Status)

/-! ## specification -/

/-- the first member of the pool, in the order of the store, that has delegation -/
def FirstMember (c : Chain) (id : Nat) (a : Addr) : Prop :=
  ∃ l l', c.members id = l ++ a :: l' ∧ 0 < c.del.amount a ∧ ∀ b ∈ l, c.del.amount b = 0

namespace Chain

/-! ## proofs -/

theorem first_candidate {c : Chain} {id : Nat} {a : Addr}
    (h : (Bundles.candidates (c.members id) c.del.amount).head? = some a) : FirstMember c id a := by
  unfold Bundles.candidates at h
  rw [List.head?_filter] at h
  obtain ⟨l, l', e1, e2⟩ := (List.find?_eq_some_iff_append.1 h).2
  exact ⟨l, l', e1, by simpa using (List.find?_eq_some_iff_append.1 h).1, fun b hb => by simpa using e2 b hb⟩

/-- the choice only reads the members, their delegation and the progress -/
theorem member_eq {c c' : Chain} (h : c'.st = c.st) (id : Nat) (a : Addr) : c'.member id a = c.member id a := by
  unfold member; rw [h]

theorem firstMember_congr {c c' : Chain} (h1 : c'.st = c.st) (h2 : c'.del = c.del) {id : Nat} {a : Addr}
    (h : FirstMember c id a) : FirstMember c' id a := by
  unfold FirstMember members at *
  rw [h1, h2]; exact h

theorem register_proposal {c : Chain} {m : SubmitMsg} {pl : Pool.Pool} (h : c.pool.pools.get? m.pool = some pl) (n : Option Addr) :
    (c.register m n).proposal m.pool = m.proposal c.now pl.storageProviderId pl.compressionId n := by
  unfold register
  rw [h]
  show (c.setProposal m.pool _).proposal m.pool = _
  rw [proposal_set, if_pos rfl]

/-- C80: an accepted submission.  Either the submitted bundle is the pool's proposal now, with the vote of its uploader
only, and a new turn starts; if it follows a valid bundle, the next uploader voted for that one, provided that the first
member with delegation did.  Or the bundle before was invalid: then nothing is proposed and it is the sender's turn
again, from now on. -/
theorem C80_submit (gov : Addr) (c c' : Chain) (h : Reachable gov c) (m : SubmitMsg)
    (he : exec gov c (.submit m) = .ok c') :
    (((c.proposal m.pool).storageId = 0 ∨ NewBundle m.pool c c') ∧
      (∃ pl n, c.pool.pools.get? m.pool = some pl ∧ c'.proposal m.pool =
        { storageId := m.storageId, uploader := some m.staker, nextUploader := n
          dataSize := m.dataSize, bundleSize := m.bundleSize, updatedAt := c.now
          valid := [m.staker], invalid := [], abstain := []
          fromKey := m.fromKey, toKey := m.toKey, summary := m.summary, dataHash := m.dataHash
          storageProviderId := pl.storageProviderId, compressionId := pl.compressionId }) ∧
      NewTurn m.pool c c' ∧
      (NewBundle m.pool c c' → (∀ a, FirstMember c' m.pool a → a ∈ (c.proposal m.pool).valid) →
        ∀ a, (c'.proposal m.pool).nextUploader = some a → a ∈ (c.proposal m.pool).valid)) ∨
    ((c.proposal m.pool).storageId ≠ 0 ∧ ¬ NewBundle m.pool c c' ∧ c'.proposal m.pool =
        { storageId := 0, uploader := none, nextUploader := some m.staker
          dataSize := 0, bundleSize := 0, updatedAt := c.now
          valid := [], invalid := [], abstain := []
          fromKey := 0, toKey := 0, summary := 0, dataHash := 0, storageProviderId := 0, compressionId := 0 }) := by
  have hg := h.good
  have hx : c.submit m = .ok c' := he
  obtain ⟨h1, -⟩ := submit_ok hx
  obtain ⟨pl, hpl, -, hnext, -⟩ := canPropose_none h1
  have hpl := hpl.found
  have s0 := (resetPoints_fixed c m.pool m.staker).still
  rcases submit_cases hx with ⟨h0, rfl⟩ | ⟨h0, y, v, ht, hh⟩
  · left
    have ep := register_proposal (c := (c.resetPoints m.pool m.staker).setProgress m.pool
      ((c.resetPoints m.pool m.staker).choice m.pool []).2) (m := m) hpl ((c.resetPoints m.pool m.staker).choice m.pool []).1
    have e1 : ((c.resetPoints m.pool m.staker).submitFirst m).st = (c.resetPoints m.pool m.staker).st := by
      unfold submitFirst; rw [register_st]; rfl
    have e2 : ((c.resetPoints m.pool m.staker).submitFirst m).del = c.del := by
      unfold submitFirst; rw [register_del]; rfl
    have hb : ¬ NewBundle m.pool c ((c.resetPoints m.pool m.staker).submitFirst m) := no_bundle (fun i => by
      unfold submitFirst
      rw [register_get (c := (c.resetPoints m.pool m.staker).setProgress m.pool _) hpl]; rfl)
    refine ⟨Or.inl h0, ⟨pl, _, hpl, ep⟩, ?_, fun hn => absurd hn hb⟩
    refine newTurn_of (y := c.resetPoints m.pool m.staker)
      (Bundles.C27_member _ _ ((c.resetPoints m.pool m.staker).bun.progressOf m.pool) []) (by
        show (((c.resetPoints m.pool m.staker).submitFirst m).proposal m.pool).nextUploader = _
        unfold submitFirst
        rw [ep]; rfl) (by
        unfold submitFirst
        rw [ep]; rfl) (fun a => s0.member m.pool a) (fun a hm => by
        rw [member_eq e1] at hm; exact hm) (fun a => le_refl _) (fun a => by rw [e2]; exact le_refl _)
  · obtain ⟨f1, -, -⟩ := tally_spec ht
    have s1 := Still.trans s0 f1.still
    have hq0 := tally_q 0 (c.resetPoints m.pool m.staker) m.pool (c.proposal m.pool)
    rw [ht] at hq0
    have hq0 : QSteps 0 (c.resetPoints m.pool m.staker) y := hq0
    have hd : ∀ a, y.del.amount a ≤ c.del.amount a := fun a => amount_q (c := c.resetPoints m.pool m.staker) hq0 a
    have hply : y.pool.pools.get? m.pool = some pl := by rw [s1.pool]; exact hpl
    rcases hh with ⟨hval, rfl⟩ | ⟨hval, rfl⟩
    · left
      have hnb : NewBundle m.pool c (y.submitNext m (c.proposal m.pool) v) := by
        refine new_bundle hg.bun hpl ?_
        have := finalize_new s1 hpl (y.choiceFrom m.pool (c.proposal m.pool).valid).2 v
        unfold submitNext
        have e : ∀ (x : Chain) n, (x.register m n).bun.finalized = x.bun.finalized := by
          intro x n; unfold register; split <;> rfl
        rw [e]; exact this
      have e1 : (y.submitNext m (c.proposal m.pool) v).st = y.st := by
        unfold submitNext; rw [register_st, finalize_vals]; rfl
      have e2 : (y.submitNext m (c.proposal m.pool) v).del = y.del := by
        unfold submitNext; rw [register_del, finalize_del]; rfl
      have ep : ∃ pl' : Pool.Pool, (y.submitNext m (c.proposal m.pool) v).proposal m.pool =
          m.proposal c.now pl'.storageProviderId pl'.compressionId (y.choiceFrom m.pool (c.proposal m.pool).valid).1 ∧
          pl'.storageProviderId = pl.storageProviderId ∧ pl'.compressionId = pl.compressionId := by
        have hc0 : (y.setProgress m.pool (y.choiceFrom m.pool (c.proposal m.pool).valid).2).pool.pools.get? m.pool = some pl := hply
        obtain ⟨pl', hp', hs1, hs2⟩ : ∃ pl', ((y.setProgress m.pool (y.choiceFrom m.pool (c.proposal m.pool).valid).2).finalize m.pool v).pool.pools.get? m.pool = some pl' ∧
            pl'.storageProviderId = pl.storageProviderId ∧ pl'.compressionId = pl.compressionId := by
          unfold finalize
          rw [hc0]
          show ∃ pl', (Pool.incrementBundleInformation _ m.pool _ _ _).pools.get? m.pool = some pl' ∧ _
          unfold Pool.incrementBundleInformation
          rw [hc0]
          have hkey : m.pool = pl.id := (hg.mods.pool.inv.key _ _ hpl).symm
          refine ⟨_, (Map.get?_set _ _ _ _).trans (if_pos hkey), rfl, rfl⟩
        refine ⟨pl', ?_, hs1, hs2⟩
        unfold submitNext
        rw [register_proposal hp', finalize_now]
        have e : (y.setProgress m.pool (y.choiceFrom m.pool (c.proposal m.pool).valid).2).now = c.now := s1.now
        rw [e]
      obtain ⟨pl', ep, hs1, hs2⟩ := ep
      have en : ((y.submitNext m (c.proposal m.pool) v).proposal m.pool).nextUploader =
          (y.choiceFrom m.pool (c.proposal m.pool).valid).1 := by rw [ep]; rfl
      refine ⟨Or.inr hnb, ⟨pl, _, hpl, by rw [ep, hs1, hs2]; rfl⟩, ?_, fun _ hf a ha => ?_⟩
      · refine newTurn_of (y := y)
          (Bundles.C27_member _ _ (y.bun.progressOf m.pool) (Bundles.complement (Bundles.load (y.members m.pool) y.del.amount (y.bun.progressOf m.pool)) (c.proposal m.pool).valid))
          en (by rw [ep]; rfl) (fun a => s1.member m.pool a) (fun a hm => by
          rw [member_eq e1] at hm; exact hm) hd (fun a => by rw [e2])
      · rw [en] at ha
        exact Bundles.C27_list_partial (y.members m.pool) y.del.amount (y.bun.progressOf m.pool) (c.proposal m.pool).valid
          (fun b hb => hf b (firstMember_congr e1 e2 (first_candidate hb))) a ha
    · right
      refine ⟨h0, no_bundle (fun i => by show y.bun.finalized.get? _ = _; rw [s1.bun]), ?_⟩
      unfold drop
      rw [proposal_set, if_pos rfl, hnext, s1.now]
      rfl

/-- C80 and C27 for an accepted skip -/
theorem skip_turn (gov : Addr) (c c' : Chain) (m : SkipMsg)
    (he : exec gov c (.skip m) = .ok c') :
    NewTurn m.pool c c' ∧
      (¬ FirstMember c' m.pool m.staker → (c'.proposal m.pool).nextUploader ≠ some m.staker) := by
  have hx : c.skip m = .ok c' := he
  have s0 := (resetPoints_fixed c m.pool m.staker).still
  obtain ⟨y, v, ht, rfl⟩ := skip_cases hx
  obtain ⟨f1, -, -⟩ := tally_spec ht
  have s1 := Still.trans s0 f1.still
  have hq0 := tally_q 0 (c.resetPoints m.pool m.staker) m.pool (c.proposal m.pool)
  rw [ht] at hq0
  have hq0 : QSteps 0 (c.resetPoints m.pool m.staker) y := hq0
  have hd : ∀ a, y.del.amount a ≤ c.del.amount a := fun a => amount_q (c := c.resetPoints m.pool m.staker) hq0 a
  have key : ∀ z, z = (y.setProgress m.pool (y.choice m.pool [m.staker]).2).skipOutcome m.pool (c.proposal m.pool) v
      (y.choice m.pool [m.staker]).1 → z.st = y.st ∧ z.del = y.del ∧
      (z.proposal m.pool).nextUploader = (y.choice m.pool [m.staker]).1 ∧ (z.proposal m.pool).updatedAt = c.now := by
    rintro z rfl
    have en : (y.setProgress m.pool (y.choice m.pool [m.staker]).2).now = c.now := s1.now
    unfold skipOutcome
    split
    · refine ⟨?_, ?_, ?_, ?_⟩
      · show (Chain.finalize _ m.pool v).st = _
        rw [finalize_vals]; rfl
      · show (Chain.finalize _ m.pool v).del = _
        rw [finalize_del]; rfl
      · rw [proposal_set, if_pos rfl]; rfl
      · rw [proposal_set, if_pos rfl]; exact en
    · refine ⟨rfl, rfl, ?_, ?_⟩
      · unfold drop; rw [proposal_set, if_pos rfl]; rfl
      · unfold drop; rw [proposal_set, if_pos rfl]; exact en
    · refine ⟨rfl, rfl, ?_, ?_⟩
      · rw [proposal_set, if_pos rfl]
      · rw [proposal_set, if_pos rfl]; exact en
  generalize (y.setProgress m.pool (y.choice m.pool [m.staker]).2).skipOutcome m.pool (c.proposal m.pool) v
      (y.choice m.pool [m.staker]).1 = z at key ⊢
  obtain ⟨e1, e2, e3, e4⟩ := key z rfl
  refine ⟨?_, fun hf ha => ?_⟩
  · exact newTurn_of (y := y) (Bundles.C27_member _ _ (y.bun.progressOf m.pool) [m.staker]) e3 e4
      (fun a => s1.member m.pool a) (fun a hm => by rw [member_eq e1] at hm; exact hm) hd
      (fun a => by rw [e2])
  · rw [e3] at ha
    refine Bundles.C27_skip_partial (y.members m.pool) y.del.amount (y.bun.progressOf m.pool) m.staker (fun hb => ?_) ha
    exact hf (firstMember_congr e1 e2 (first_candidate hb))

/-- C80: an accepted skip starts a new turn. -/
theorem C80_skip (gov : Addr) (c c' : Chain) (m : SkipMsg) (he : exec gov c (.skip m) = .ok c') : NewTurn m.pool c c' :=
  (skip_turn gov c c' m he).1

/-- C27 (partial, on the chain): after an accepted skip the next uploader is not the sender, unless the sender is the
first member with delegation.  Missing: in that case the sender may be chosen again, see `C27_chain_false`. -/
theorem C27_chain_skip_partial (gov : Addr) (c c' : Chain) (m : SkipMsg) (he : exec gov c (.skip m) = .ok c')
    (hf : ¬ FirstMember c' m.pool m.staker) : (c'.proposal m.pool).nextUploader ≠ some m.staker :=
  (skip_turn gov c c' m he).2 hf

/-- proposals kept by a step of another module -/
theorem proposal_of_bun {c c' : Chain} (h : c'.bun.proposals = c.bun.proposals) (id : Nat) : c'.proposal id = c.proposal id := by
  unfold Chain.proposal Bundles.State.proposal
  rw [h]

theorem kickAll_bun (id : Nat) (l : List Addr) (c : Chain) : (kickAll id l c).bun = c.bun := by
  induction l generalizing c with
  | nil => rfl
  | cons a l ih => exact (ih (c.kick id a)).trans rfl

theorem inflTransfers_bun (l : List (Nat × Nat)) {c c' : Chain} (h : inflTransfers l c = some c') : c'.bun = c.bun := by
  induction l generalizing c with
  | nil => cases h; rfl
  | cons t l ih =>
    unfold inflTransfers at h
    split at h
    · cases h
    · rename_i d hd
      rw [ih h]
      unfold inflTransfer at hd
      split at hd
      · cases hd; rfl
      · cases hd

theorem beginBlock_proposals (c : Chain) (dt pr te : Nat) (r : Bool) :
    (c.beginBlock dt pr te r).bun.proposals = c.bun.proposals := by
  have e : (c.newBlock dt r).bun.proposals = c.bun.proposals := by
    unfold newBlock
    cases r <;> rfl
  unfold beginBlock
  cases hs : (c.newBlock dt r).splitInflation pr te with
  | none => rfl
  | some d =>
    show (d.queues r).bun.proposals = _
    have : d.bun = (c.newBlock dt r).bun := inflTransfers_bun _ hs
    show d.bun.proposals = _
    rw [this, e]

/-- C80: nothing else changes whose turn it is: only submissions, skips and claims in this pool and the end of a block. -/
theorem C80_only (gov : Addr) (c : Chain) (h : Reachable gov c) (op : Op) (id : Nat)
    (h1 : ∀ m, op = .submit m → m.pool ≠ id) (h2 : ∀ m, op = .skip m → m.pool ≠ id)
    (h3 : ∀ a st, op ≠ .claim a st id) (h4 : op ≠ .endBlock) :
    ((c.step gov op).proposal id).nextUploader = (c.proposal id).nextUploader ∧
    ((c.step gov op).proposal id).updatedAt = (c.proposal id).updatedAt := by
  suffices hx : ∀ c', exec gov c op = .ok c' →
      (c'.proposal id).nextUploader = (c.proposal id).nextUploader ∧ (c'.proposal id).updatedAt = (c.proposal id).updatedAt by
    unfold step
    split
    · exact ⟨rfl, rfl⟩
    · cases he : exec gov c op with
      | error e => exact ⟨rfl, rfl⟩
      | ok c' => exact hx c' he
  have same : ∀ c' : Chain, c'.bun.proposals = c.bun.proposals →
      (c'.proposal id).nextUploader = (c.proposal id).nextUploader ∧ (c'.proposal id).updatedAt = (c.proposal id).updatedAt :=
    fun c' e => by rw [proposal_of_bun e]; exact ⟨rfl, rfl⟩
  have mapped : ∀ {α : Type} (r : Except String α) (f : α → Chain) (c' : Chain), r.map f = .ok c' → (∀ x, (f x).bun = c.bun) →
      c'.bun.proposals = c.bun.proposals := by
    intro α r f c' e hf
    cases r with
    | error x => cases e
    | ok x => cases e; rw [hf x]
  have hk : Keyed c := h.good.mods.pool.inv.key
  intro c' he
  cases op with
  | submit m =>
    rw [(apart_submit (hk) (Ne.symm (h1 m rfl)) he).proposal]
    exact ⟨rfl, rfl⟩
  | skip m =>
    rw [(apart_skip (hk) (Ne.symm (h2 m rfl)) he).proposal]
    exact ⟨rfl, rfl⟩
  | claim a st j =>
    have e := (C26_claim gov c c' a st j he).2
    have hj : id ≠ j := fun e => h3 a st (by rw [e])
    rw [e, proposal_set, if_neg hj]
    exact ⟨rfl, rfl⟩
  | vote m =>
    obtain ⟨-, p, hp, rfl⟩ := vote_ok he
    show (((c.setProposal m.pool p).proposal id).nextUploader = _) ∧ (((c.setProposal m.pool p).proposal id).updatedAt = _)
    rw [proposal_set]
    split
    · rename_i e
      subst e
      revert hp
      unfold castVote
      cases m.vote with
      | unspecified => rintro ⟨⟩
      | valid => rintro ⟨⟩; exact ⟨rfl, rfl⟩
      | invalid => rintro ⟨⟩; exact ⟨rfl, rfl⟩
      | abstain =>
        intro hp
        simp only at hp
        split at hp
        · cases hp
        · cases hp; exact ⟨rfl, rfl⟩
    · exact ⟨rfl, rfl⟩
  | createStaker a k n =>
    apply same
    have he : c.createStaker a k n = .ok c' := he
    unfold createStaker at he
    split at he
    · cases he
    · split at he
      · cases he
      · cases he; rfl
  | join m =>
    apply same
    have he : c.join m = .ok c' := he
    unfold join at he
    split at he
    · cases he
    · cases he; rfl
  | leave a i => exact same _ (mapped _ _ _ he (fun _ => rfl))
  | updateCommission a k => exact same _ (mapped _ _ _ he (fun _ => rfl))
  | updateMetadata a i v => exact same _ (mapped _ _ _ he (fun _ => rfl))
  | claimRewards a x => exact same _ (mapped _ _ _ he (fun _ => rfl))
  | delegate a st n => exact same _ (mapped _ _ _ he (fun _ => rfl))
  | redelegate m => exact same _ (mapped _ _ _ he (fun _ => rfl))
  | undelegate a st n => exact same _ (mapped _ _ _ he (fun _ => rfl))
  | withdraw a st => exact same _ (mapped _ _ _ he (fun _ => rfl))
  | createFunder a => exact same _ (mapped _ _ _ he (fun _ => rfl))
  | fund m => exact same _ (mapped _ _ _ he (fun _ => rfl))
  | defund m => exact same _ (mapped _ _ _ he (fun _ => rfl))
  | createPool m =>
    apply same
    have he : Chain.createPool gov c m = .ok c' := he
    unfold Chain.createPool at he
    split at he
    · cases he
    · cases he; rfl
  | updatePool a i u => exact same _ (mapped _ _ _ he (fun _ => rfl))
  | enablePool a i => exact same _ (mapped _ _ _ he (fun _ => rfl))
  | disablePool a i =>
    apply same
    have he : Chain.disablePool gov c a i = .ok c' := he
    unfold Chain.disablePool at he
    split at he
    · cases he
    · rename_i s _
      have e1 : (kickAll i (c.members i) { c with pool := s }).bun = c.bun := kickAll_bun _ _ _
      unfold drain at he
      split at he
      · cases he; rw [e1]
      · split at he
        · cases he
        · split at he
          · cases he
          · cases he; show (kickAll _ _ _).bun.proposals = _; rw [e1]
  | scheduleUpgrade m => exact same _ (mapped _ _ _ he (fun _ => rfl))
  | cancelUpgrade a r => exact same _ (mapped _ _ _ he (fun _ => rfl))
  | bundlesParams a y =>
    apply same
    have he : (Bundles.updateParams gov c.bun a y).map (fun s => { c with bun := s }) = .ok c' := he
    unfold Bundles.updateParams at he
    split at he
    · cases he
    · split at he
      · cases he
      · cases he; rfl
  | delegationParams a y => exact same _ (mapped _ _ _ he (fun _ => rfl))
  | stakersParams a y => exact same _ (mapped _ _ _ he (fun _ => rfl))
  | poolParams a y => exact same _ (mapped _ _ _ he (fun _ => rfl))
  | fundersParams a y => exact same _ (mapped _ _ _ he (fun _ => rfl))
  | beginBlock dt pr te r =>
    apply same
    cases he
    exact beginBlock_proposals c dt pr te r
  | endBlock => exact absurd rfl h4
  | external b gd gs gf => cases he; exact same _ rfl

/-! ## concrete cases -/

/-- staker 1 is alone in the pool when it uploads; then staker 2 joins -/
def _root_.Verif.Chain.Sample.alone : Chain :=
  Sample.run Sample.start [.createPool Sample.pool, .poolParams Sample.gov { maxVotingPowerPerPool := some Dec.one },
    .createStaker 1 100000000000000000 100, .createStaker 2 100000000000000000 100, Sample.joins 1, .claim 11 1 0,
    .beginBlock 60 0 0 false, .submit (Sample.bundle 1 7 0), Sample.joins 2, .beginBlock 60 0 0 false]

/-- C27 is false of the code, in a reachable state: staker 1 skips and is chosen again, although staker 2 is a member with
delegation. -/
theorem C27_chain_false : ∃ c c' m a, Reachable Sample.gov c ∧ exec Sample.gov c (.skip m) = .ok c' ∧ a ≠ m.staker ∧
    c'.member m.pool a = true ∧ 0 < c'.del.amount a ∧ (c'.proposal m.pool).nextUploader = some m.staker := by
  have h1 : (Sample.alone.skip ⟨11, 1, 0, 10⟩).isOk = true := by decide +kernel
  cases h2 : Sample.alone.skip ⟨11, 1, 0, 10⟩ with
  | error e => rw [h2] at h1; cases h1
  | ok c' =>
    have h3 : Sample.alone.orElse (Sample.alone.skip ⟨11, 1, 0, 10⟩) = c' := by rw [h2]; rfl
    refine ⟨Sample.alone, c', ⟨11, 1, 0, 10⟩, 2,
      Sample.run_reachable Sample.reach_start _ (by decide +kernel), h2, by decide, ?_⟩
    rw [← h3]
    decide +kernel

/-- a submission that follows a valid bundle: the first member voted valid, and so did the next uploader -/
example : (Sample.later.exec Sample.gov (.submit (Sample.bundle 1 8 10))).isOk = true ∧
    Sample.second.members 0 = [1, 2, 3, 4] ∧ Sample.second.del.amount 1 = 100 ∧
    (Sample.later.proposal 0).valid = [1, 2, 3] ∧ (Sample.second.proposal 0).nextUploader = some 2 := by decide +kernel
/-- a submission that follows an invalid bundle -/
example : ((Sample.run Sample.proposed [Sample.votes 2 7 .invalid, Sample.votes 3 7 .invalid, .beginBlock 60 0 0 false,
    .submit (Sample.bundle 1 8 10)]).proposal 0).storageId = 0 ∧
    ((Sample.run Sample.proposed [Sample.votes 2 7 .invalid, Sample.votes 3 7 .invalid, .beginBlock 60 0 0 false,
    .submit (Sample.bundle 1 8 10)]).proposal 0).nextUploader = some 1 := by decide +kernel
/-- a skip by staker 2, which is not the first member -/
example : ((Sample.run Sample.second [.beginBlock 60 0 0 false]).exec Sample.gov (.skip ⟨12, 2, 0, 20⟩)).isOk = true ∧
    ((Sample.run Sample.second [.beginBlock 60 0 0 false, .skip ⟨12, 2, 0, 20⟩]).proposal 0).nextUploader = some 3 := by
  decide +kernel

end Chain
end Verif.Chain
