import Verif.Chain.Stake

/-!
# C24, C25: who is punished, by messages and by the end block

`Judged` (module `Judge`) says what a judgement does.  Here: every message and every end block judges exactly so.
-/

set_option linter.dupNamespace false
namespace Verif.Chain
open Verif
open Chain
open Verif.Bundles (Proposal VoteDist Status)
open Verif.Delegation (SlashType totalAll)

/-! ## specification -/

/-- `s` is the verdict on the proposal of pool `id`: members that did not vote get a point (and are removed if it was the
last one); then the stake of the remaining members decides.  Only slashed stakers have lost delegation. -/
def Verdict (id : Nat) (active : Option Addr) (s : Status) (c : Chain) : Prop :=
  ∃ d l, d.slashes = c.slashes ++ l ∧ Judged id active noFault (missed (c.proposal id)) l c d ∧
    (∀ a, a ∉ l.map (·.1) → d.del.amount a = c.del.amount a) ∧ d.proposal id = c.proposal id ∧ Majority id s d

/-- the upload interval of pool `id` is over -/
def Due (c : Chain) (id : Nat) : Prop := ∃ p, c.pool.pools.get? id = some p ∧
  u64add (c.proposal id).updatedAt p.uploadInterval ≤ c.now

/-- the next uploader of pool `id` has let the upload timeout pass -/
def Overdue (c : Chain) (id : Nat) : Prop := ∃ p, c.pool.pools.get? id = some p ∧
  u64add (u64add (c.proposal id).updatedAt p.uploadInterval) c.bun.params.uploadTimeout ≤ c.now

/-- what the end block judges in pool `id`: the faults and the points -/
inductive Turn (id : Nat) (c c' : Chain) : (Addr → Option SlashType) → (Addr → Nat) → Prop
  | stopped : c.runError id ≠ none → ¬ NewBundle id c c' → Turn id c c' noFault (fun _ => 0)
  | early : c.runError id = none → ¬ Due c id → ¬ NewBundle id c c' → Turn id c c' noFault (fun _ => 0)
  | waiting : c.runError id = none → Due c id → ¬ Overdue c id →
      ¬ ((c.proposal id).storageId ≠ 0 ∧ Majority id .noQuorum c) → ¬ NewBundle id c c' →
      Turn id c c' noFault (fun _ => 0)
  /-- nobody reached a quorum in time: a point for everybody that did not vote -/
  | noQuorum : c.runError id = none → Due c id → (c.proposal id).storageId ≠ 0 → Majority id .noQuorum c →
      (c'.proposal id).storageId = 0 → ¬ NewBundle id c c' → Turn id c c' noFault (missed (c.proposal id))
  /-- nothing was uploaded: a point for the next uploader -/
  | empty : c.runError id = none → Overdue c id → (c.proposal id).storageId = 0 → ¬ NewBundle id c c' →
      Turn id c c' noFault (late (c.proposal id))
  /-- the bundle is decided without the next uploader -/
  | decided (s : Status) : c.runError id = none → Overdue c id → (c.proposal id).storageId ≠ 0 → Verdict id none s c →
      (s = .valid ↔ NewBundle id c c') → (c'.proposal id).storageId = 0 →
      Turn id c c' (fault (c.proposal id) s) (fun a => missed (c.proposal id) a + late (c.proposal id) a)

/-- nobody's delegation grows, and only slashed stakers lose delegation -/
def Spared (c c' : Chain) : Prop :=
  ∃ l, c'.slashes = c.slashes ++ l ∧ (∀ a, a ∉ l.map (·.1) → c'.del.amount a = c.del.amount a) ∧
    ∀ a, c'.del.amount a ≤ c.del.amount a

/-- the pools of the list are judged one after the other, each without touching the others -/
inductive Turns : List Nat → Chain → Chain → Prop
  | nil {c : Chain} : Turns [] c c
  | cons {id : Nat} {ids : List Nat} {c d c' : Chain} {faults : Addr → Option SlashType} {marks : Addr → Nat}
      {l : List (Addr × Dec)} : d.slashes = c.slashes ++ l → Turn id c d faults marks →
      Judged id none faults marks l c d → (∀ j, j ≠ id → Apart j c d) → Spared c d → Turns ids d c' → Turns (id :: ids) c c'

namespace Chain

/-! ## only slashed stakers lose delegation -/

theorem Spared.refl (c : Chain) : Spared c c := ⟨[], by simp, fun _ _ => rfl, fun _ => le_refl _⟩
theorem Spared.trans {c c' c'' : Chain} (h : Spared c c') (h' : Spared c' c'') : Spared c c'' := by
  obtain ⟨l, h1, h2, g1⟩ := h
  obtain ⟨l', h3, h4, g2⟩ := h'
  refine ⟨l ++ l', by rw [h3, h1, List.append_assoc], fun a ha => ?_, fun a => le_trans (g2 a) (g1 a)⟩
  rw [List.map_append, List.mem_append, not_or] at ha
  rw [h4 a ha.2, h2 a ha.1]

theorem spared_same {c c' : Chain} (h : c'.del = c.del) : Spared c c' :=
  ⟨[], by unfold slashes; rw [h]; simp, fun _ _ => by rw [h], fun _ => by rw [h]⟩

theorem spared_slash (c : Chain) (a : Addr) (t : SlashType) : Spared c (c.slash a t) := by
  refine ⟨_, slash_slashes c a t, fun b hb => ?_, fun b => ?_⟩
  rotate_left
  · show (Delegation.slashDelegators c.dw a t).s.amount b ≤ _
    unfold Delegation.slashDelegators
    split
    · exact le_refl _
    · show (c.del.applyIndexed a (.slash (c.del.params.slashFraction t))).amount b ≤ _
      unfold Delegation.State.amount
      rw [Delegation.at_applyIndexed]
      split
      · rename_i e
        subst e
        show (Delegation.slash (c.del.at b) _).1.d.total ≤ _
        rw [Delegation.total_slash]
        exact Nat.sub_le _ _
      · exact le_refl _
  show (Delegation.slashDelegators c.dw a t).s.amount b = _
  unfold Delegation.slashDelegators
  split
  · rfl
  · rename_i hn
    have hd : c.delegated a = true := by
      unfold delegated
      show (c.dw.s.at a).data.isSome = true
      cases e : (c.dw.s.at a).data with
      | none => rw [e] at hn; simp at hn
      | some d => rfl
    rw [hd] at hb
    have hb : ¬ b = a := by simpa using hb
    show (c.del.applyIndexed a _).amount b = _
    unfold Delegation.State.amount
    rw [Delegation.at_applyIndexed, if_neg hb]

theorem spared_payout (gov : Addr) (c : Chain) (a : Addr) (x : Coins) :
    Spared c ((Micro.del (.payout a x)).run gov c) := by
  have same : ∀ b, ((Micro.del (.payout a x)).run gov c).del.amount b = c.del.amount b := by
    intro b
    show (Delegation.orElse c.dw (Delegation.payoutRewards c.dw .pool a x)).s.amount b = _
    cases h : Delegation.payoutRewards c.dw .pool a x with
    | error e => rfl
    | ok w' =>
      show w'.s.amount b = _
      rcases Delegation.payoutRewards_s h with rfl | h
      · rfl
      · rw [h]
        by_cases e : b = a
        · subst e; rw [amount_payout]; rfl
        · unfold Delegation.State.amount
          rw [Delegation.at_apply, if_neg e]; rfl
  refine ⟨[], ?_, fun b _ => same b, fun b => le_of_eq (same b)⟩
  show slashesOf (((⟨c.dw, c.now⟩ : Delegation.Sys).step gov (.payout a x)).w.s.trace) = _
  rw [Delegation.slashes_step gov _ _ (by rintro _ _ ⟨⟩)]
  simp [slashes]; rfl

theorem spared_q {gov : Addr} {c c' : Chain} (h : QSteps gov c c') : Spared c c' := by
  induction h with
  | refl => exact Spared.refl _
  | tail q _ _ _ ih =>
    refine Spared.trans ih ?_
    cases q with
    | slash a t => exact spared_slash _ a t
    | payout a x => exact spared_payout gov _ a x
    | kick id a => exact spared_same rfl
    | inc id a => exact spared_same rfl
    | reset id a => exact spared_same rfl
    | reward a x => exact spared_same rfl
    | charge id => exact spared_same rfl
    | pay b h => exact spared_same rfl

theorem spared_steps {gov : Addr} {c c' : Chain} (h : JSteps gov c c') : Spared c c' := by
  induction h with
  | refl => exact Spared.refl _
  | @cons c' μ _ _ hj _ ih =>
    refine Spared.trans ih ?_
    cases μ with
    | del act =>
      cases act <;> first | (cases hj; done) | skip
      · exact spared_payout gov _ _ _
      · exact spared_slash _ _ _
    | st op => exact spared_same rfl
    | fund op => exact spared_same rfl
    | pool op => exact spared_same rfl
    | pay b x => exact spared_same rfl
    | blank id n => exact spared_same rfl
    | next id n t => exact spared_same rfl
    | cast id a v => exact spared_same rfl
    | register m n => exact spared_same (by obtain ⟨s, hs⟩ := register_eq c' m n; show (c'.register m n).del = _; rw [hs])
    | progress id l => exact spared_same rfl
    | finalize id v => exact spared_same (finalize_del _ _ _)
    | crash => exact spared_same rfl
    | join | createPool | bundlesParams | block | external => cases hj

/-! ## the verdict of a tally -/

theorem verdict_tally {c y : Chain} {id : Nat} {v : VoteDist} (hn : (voters (c.proposal id)).Nodup)
    (ht : totalAll c.del < 2 ^ 63) (h : c.tally id (c.proposal id) = .done y v) : Verdict id none v.status c := by
  obtain ⟨l, h1, h2⟩ := judged_nonVoters c id
  obtain ⟨l', h3, h4, -⟩ := spared_q (nonVoters_q 0 c id)
  have e : l' = l := by rw [h1] at h3; exact (List.append_cancel_left h3).symm
  subst e
  exact ⟨_, l', h1, h2, h4, (nonVoters_q 0 c id).still.proposal id, tally_majority hn ht h⟩

theorem verdict_reset {id : Nat} {a : Addr} {s : Status} {c : Chain} (h : Verdict id none s (c.resetPoints id a)) :
    Verdict id (some a) s c := by
  obtain ⟨d, l, h1, h2, h3, h4, h5⟩ := h
  exact ⟨d, l, h1, judged_reset h2, h3, h4, h5⟩

/-! ## messages -/

theorem finalize_vals (c : Chain) (id : Nat) (v : VoteDist) : (c.finalize id v).st = c.st := by
  unfold finalize; split <;> rfl
theorem register_st (c : Chain) (m : SubmitMsg) (n : Option Addr) : (c.register m n).st = c.st := by
  unfold register; split <;> rfl
theorem register_del (c : Chain) (m : SubmitMsg) (n : Option Addr) : (c.register m n).del = c.del := by
  unfold register; split <;> rfl

/-- C24, C25: an accepted bundle submission.  The points of the sender start from 0.  Without a bundle before, nothing else
happens.  Otherwise that bundle has a verdict, valid or invalid; it is finalized if and only if the verdict is valid;
everybody on the losing side is slashed once and removed, everybody that did not vote gets one point, whoever reaches the
maximum is slashed once and removed, and nobody else is touched. -/
theorem C24_submit (gov : Addr) (c c' : Chain) (h : Reachable gov c) (m : SubmitMsg)
    (he : exec gov c (.submit m) = .ok c') :
    ∃ l, c'.slashes = c.slashes ++ l ∧
      (((c.proposal m.pool).storageId = 0 ∧ ¬ NewBundle m.pool c c' ∧
          Judged m.pool (some m.staker) noFault (fun _ => 0) l c c') ∨
       ((c.proposal m.pool).storageId ≠ 0 ∧ ∃ s, (s = .valid ∨ s = .invalid) ∧ Verdict m.pool (some m.staker) s c ∧
          (s = .valid ↔ NewBundle m.pool c c') ∧ (s = .invalid → (c'.proposal m.pool).storageId = 0) ∧
          Judged m.pool (some m.staker) (fault (c.proposal m.pool) s) (missed (c.proposal m.pool)) l c c')) := by
  have hg := h.good
  have hx : c.submit m = .ok c' := he
  obtain ⟨h1, -⟩ := submit_ok hx
  obtain ⟨pl, hpl, -⟩ := canPropose_none h1
  have hpl := hpl.found
  have s0 := (resetPoints_fixed c m.pool m.staker).still
  have hn : (voters ((c.resetPoints m.pool m.staker).proposal m.pool)).Nodup := (hg.bun.prop m.pool).nodup
  rcases submit_cases hx with ⟨h0, rfl⟩ | ⟨h0, y, v, ht, hh⟩
  · refine ⟨[], ?_, Or.inl ⟨h0, no_bundle (fun i => ?_), ?_⟩⟩
    · unfold submitFirst slashes
      rw [register_del]; simp; rfl
    · unfold submitFirst
      rw [register_get (c := (c.resetPoints m.pool m.staker).setProgress m.pool _) hpl]; rfl
    · refine Judged.congr (judged_reset (judged_idle (c.resetPoints m.pool m.staker) m.pool)) ?_
      unfold submitFirst
      rw [register_st]; rfl
  · have ht' : (c.resetPoints m.pool m.staker).tally m.pool ((c.resetPoints m.pool m.staker).proposal m.pool) = .done y v := ht
    obtain ⟨l, hl, hj⟩ := judged_tally hn ht'
    have hver := verdict_reset (verdict_tally hn hg.sane.small ht')
    have hj := judged_reset hj
    obtain ⟨f1, -, -⟩ := tally_spec ht
    have s1 := Still.trans s0 f1.still
    rcases hh with ⟨hval, rfl⟩ | ⟨hval, rfl⟩
    · refine ⟨l, ?_, Or.inr ⟨h0, v.status, Or.inl hval, hver, ⟨fun _ => ?_, fun _ => hval⟩,
        fun e => (by rw [hval] at e; cases e), Judged.congr hj ?_⟩⟩
      · unfold submitNext slashes
        rw [register_del, finalize_del]; exact hl
      · refine new_bundle hg.bun hpl ?_
        have := finalize_new s1 hpl (y.choiceFrom m.pool (c.proposal m.pool).valid).2 v
        unfold submitNext
        have e : ∀ (x : Chain) n, (x.register m n).bun.finalized = x.bun.finalized := by
          intro x n; unfold register; split <;> rfl
        rw [e]; exact this
      · unfold submitNext
        rw [register_st, finalize_vals]; rfl
    · refine ⟨l, hl, Or.inr ⟨h0, v.status, Or.inr hval, hver, ⟨fun e => ?_, fun hb => ?_⟩, fun _ => ?_, Judged.congr hj rfl⟩⟩
      · rw [hval] at e; cases e
      · exact absurd hb (no_bundle (fun i => by show y.bun.finalized.get? _ = _; rw [s1.bun]))
      · unfold drop; rw [proposal_set, if_pos rfl]; rfl

/-- C24, C25: an accepted skip of the upload role judges in the same way; the proposal is dropped if the verdict is
invalid and stays, with another next uploader, if there is no verdict. -/
theorem C24_skip (gov : Addr) (c c' : Chain) (h : Reachable gov c) (m : SkipMsg) (he : exec gov c (.skip m) = .ok c') :
    ∃ l s, c'.slashes = c.slashes ++ l ∧ Verdict m.pool (some m.staker) s c ∧ (s = .valid ↔ NewBundle m.pool c c') ∧
      (s = .invalid → (c'.proposal m.pool).storageId = 0) ∧
      (s ≠ .valid → s ≠ .invalid → ∃ n, c'.proposal m.pool = { c.proposal m.pool with nextUploader := n, updatedAt := c.now }) ∧
      Judged m.pool (some m.staker) (fault (c.proposal m.pool) s) (missed (c.proposal m.pool)) l c c' := by
  have hg := h.good
  have hx : c.skip m = .ok c' := he
  obtain ⟨h1, -⟩ := skip_ok hx
  obtain ⟨pl, hpl, -⟩ := canPropose_none h1
  have hpl := hpl.found
  have s0 := (resetPoints_fixed c m.pool m.staker).still
  have hn : (voters ((c.resetPoints m.pool m.staker).proposal m.pool)).Nodup := (hg.bun.prop m.pool).nodup
  obtain ⟨y, v, ht, rfl⟩ := skip_cases hx
  have ht' : (c.resetPoints m.pool m.staker).tally m.pool ((c.resetPoints m.pool m.staker).proposal m.pool) = .done y v := ht
  obtain ⟨l, hl, hj⟩ := judged_tally hn ht'
  have hver := verdict_reset (verdict_tally hn hg.sane.small ht')
  have hj := judged_reset hj
  obtain ⟨f1, -, -⟩ := tally_spec ht
  have s1 := Still.trans s0 f1.still
  refine ⟨l, v.status, ?_, hver, ?_⟩
  · unfold skipOutcome
    split
    · show slashesOf (Chain.finalize _ m.pool v).del.trace = _
      rw [finalize_del]; exact hl
    · exact hl
    · exact hl
  · unfold skipOutcome
    split
    · rename_i hval
      refine ⟨⟨fun _ => new_bundle hg.bun hpl (finalize_new s1 hpl _ v), fun _ => hval⟩, fun e => ?_, fun e => absurd hval e,
        Judged.congr hj ?_⟩
      · rw [hval] at e; cases e
      · show (Chain.finalize _ m.pool v).st.vals = _
        rw [finalize_vals]; rfl
    · rename_i hi
      refine ⟨⟨fun e => ?_, fun hb => ?_⟩, fun _ => ?_, fun _ e => absurd hi e, Judged.congr hj rfl⟩
      · rw [hi] at e; cases e
      · exact absurd hb (no_bundle (fun i => by show y.bun.finalized.get? _ = _; rw [s1.bun]))
      · unfold drop; rw [proposal_set, if_pos rfl]; rfl
    · rename_i hv hi
      refine ⟨⟨fun e => absurd e hv, fun hb => ?_⟩, fun e => absurd e hi, fun _ _ => ?_, Judged.congr hj rfl⟩
      · exact absurd hb (no_bundle (fun i => by show y.bun.finalized.get? _ = _; rw [s1.bun]))
      · refine ⟨(y.choice m.pool [m.staker]).1, ?_⟩
        rw [proposal_set, if_pos rfl]
        have e : (y.setProgress m.pool (y.choice m.pool [m.staker]).2).now = c.now := s1.now
        rw [e]

/-- C25: an accepted vote sets the points of the voter to 0 and punishes nobody. -/
theorem C25_vote (gov : Addr) (c c' : Chain) (m : VoteMsg) (he : exec gov c (.vote m) = .ok c') :
    c'.slashes = c.slashes ∧ Judged m.pool (some m.staker) noFault (fun _ => 0) [] c c' := by
  have hx : c.vote m = .ok c' := he
  obtain ⟨-, p, -, rfl⟩ := vote_ok hx
  refine ⟨rfl, ?_⟩
  have h1 : Judged m.pool (some m.staker) noFault (fun _ => 0) [] c (c.resetPoints m.pool m.staker) :=
    judged_reset (judged_idle _ _)
  exact Judged.congr h1 rfl

/-- C24: whatever a submission, a skip or an end block decides, nobody's delegation grows, and only slashed stakers lose
delegation. -/
theorem C24_stake (gov : Addr) (c : Chain) (h : Reachable gov c) (op : Op) (hj : op.judges = true) :
    Spared c (c.step gov op) := by
  unfold step
  split
  · exact Spared.refl c
  · cases he : exec gov c op with
    | error e => exact Spared.refl c
    | ok c' =>
      show Spared c c'
      have hs := h.good.sound
      cases op <;> first | (cases hj; done) | skip
      · exact spared_steps (gov := gov) (submit_steps hs.mem he)
      · exact spared_steps (gov := gov) (skip_steps hs he)
      · injection he with he; subst he
        exact spared_steps (gov := gov) (endBlock_steps hs.mem)

/-- C24, C25: no other operation slashes anybody or gives a point to anybody. -/
theorem C24_only (gov : Addr) (c : Chain) (h : Reachable gov c) (op : Op) (h1 : ∀ m, op ≠ .submit m)
    (h2 : ∀ m, op ≠ .skip m) (h3 : op ≠ .endBlock) :
    (c.step gov op).slashes = c.slashes ∧
    ∀ id a v', (c.step gov op).st.vals.get? (id, a) = some v' →
      v'.points = 0 ∨ ∃ v, c.st.vals.get? (id, a) = some v ∧ v'.points = v.points := by
  have hj : op.judges = false := by
    cases op with
    | submit m => exact absurd rfl (h1 m)
    | skip m => exact absurd rfl (h2 m)
    | endBlock => exact absurd rfl h3
    | _ => rfl
  have hp := plain_step h hj
  refine ⟨hp.slashes, fun id a v' hv => ?_⟩
  rcases hp.vals (id, a) v' hv with e | ⟨v, e1, e2, -⟩
  · exact Or.inl e
  · exact Or.inr ⟨v, e1, e2⟩

/-- C24: whoever abstains is never at fault and gets no point for not voting, whatever the verdict. -/
theorem C24_abstain (gov : Addr) (c : Chain) (h : Reachable gov c) (id : Nat) (s : Status) (a : Addr)
    (ha : a ∈ (c.proposal id).abstain) : fault (c.proposal id) s a = none ∧ missed (c.proposal id) a = 0 := by
  have hc := clean_votes (h.good.bun.prop id).nodup
  constructor
  · unfold fault
    split
    · rw [if_neg (fun hi => hc.ia a hi ha)]
    · rw [if_neg (fun hi => hc.va a hi ha)]
    · rfl
  · unfold missed; rw [if_pos (Or.inr (Or.inr ha))]

/-! ## the end block -/

theorem turn_visit {gov : Addr} {c c' : Chain} (hw : Well gov c) (hs : totalAll c.del < 2 ^ 63) {id : Nat} {pl : Pool.Pool}
    (hpl : c.pool.pools.get? id = some pl) (h : c.visit id pl.uploadInterval = some c') :
    ∃ f m l, c'.slashes = c.slashes ++ l ∧ Turn id c c' f m ∧ Judged id none f m l c c' := by
  have hp : c.pool.pools.has id = true := (Stakers.has_iff _ _).2 ⟨pl, hpl⟩
  have hn : (voters (c.proposal id)).Nodup := (hw.bun.prop id).nodup
  have idle : ∀ {x : Chain}, x.bun.finalized = c.bun.finalized → x.st = c.st → x.del = c.del →
      Turn id c x noFault (fun _ => 0) →
      ∃ f m l, x.slashes = c.slashes ++ l ∧ Turn id c x f m ∧ Judged id none f m l c x := by
    intro x _ e2 e3 e4
    exact ⟨_, _, [], by unfold slashes; rw [e3]; simp, e4, Judged.congr (judged_idle c id) (by rw [e2])⟩
  rcases visit_cases h with ⟨e, he, rfl⟩ | ⟨h1, h2, rfl⟩ | ⟨h1, h2, h3, h4, rfl⟩ | ⟨h1, h2, h3, rfl⟩ |
    ⟨h1, h2, h0, rfl⟩ | ⟨-, -, -, ht⟩ | ⟨y, v, h1, h2, h0, h3, ht, rfl⟩
  · have e1 : (c.visitStopped id e).bun.finalized = c.bun.finalized ∧ (c.visitStopped id e).st = c.st ∧
        (c.visitStopped id e).del = c.del := by
      unfold visitStopped
      split
      · exact ⟨rfl, rfl, rfl⟩
      · split <;> exact ⟨rfl, rfl, rfl⟩
    exact idle e1.1 e1.2.1 e1.2.2 (.stopped (by rw [he]; simp) (no_bundle (fun i => by rw [e1.1])))
  · refine idle rfl rfl rfl (.early h1 ?_ (no_bundle (fun _ => rfl)))
    rintro ⟨q, hq, hle⟩
    rw [hpl] at hq; cases hq; omega
  · obtain ⟨l, hl, hj⟩ := judged_nonVoters c id
    have hm := dist_majority hn hs
    rw [h4] at hm
    refine ⟨_, _, l, hl, .noQuorum h1 ⟨pl, hpl, by omega⟩ h3 hm ?_ (no_bundle (fun i => ?_)), Judged.congr hj rfl⟩
    · unfold visitNoQuorum drop; rw [proposal_set, if_pos rfl]; rfl
    · show (c.nonVoters id).bun.finalized.get? _ = _
      rw [(nonVoters_q 0 c id).still.bun]
  · refine idle rfl rfl rfl (.waiting h1 ⟨pl, hpl, by omega⟩ ?_ ?_ (no_bundle (fun _ => rfl)))
    · rintro ⟨q, hq, hle⟩
      rw [hpl] at hq; cases hq; omega
    · rintro ⟨h5, h6⟩
      apply h2.2
      refine ⟨h5, ?_⟩
      have hm := dist_majority hn hs
      have hd : (c'.dist id).status = .valid ∨ (c'.dist id).status = .invalid ∨ (c'.dist id).status = .noQuorum := by
        unfold dist
        cases hq : c'.bun.proposals.get? id with
        | none =>
          exfalso; apply h5
          unfold Chain.proposal Bundles.State.proposal; rw [hq]; rfl
        | some q =>
          show (Bundles.decideStatus _ _ _) = _ ∨ (Bundles.decideStatus _ _ _) = _ ∨ (Bundles.decideStatus _ _ _) = _
          unfold Bundles.decideStatus
          repeat' split
          all_goals simp
      rcases hd with e | e | e
      · exact absurd (h6.valid.2 (hm.valid.1 e)) (by simp)
      · exact absurd (h6.invalid.2 (hm.invalid.1 e)) (by simp)
      · exact e
  · have hj : Judged id none noFault (fun _ => 0) [] c ((c.setProgress id (c.choice id []).2).setProposal id
        { c.proposal id with nextUploader := (c.choice id []).1, updatedAt := c.now }) :=
      Judged.congr (judged_idle c id) rfl
    obtain ⟨l, hl, hj⟩ := judged_late (by simp [slashes]; rfl) hj (fun _ => rfl) rfl rfl (c.proposal id).nextUploader
    refine ⟨noFault, late (c.proposal id), l, hl, .empty h1 ⟨pl, hpl, by omega⟩ h0 (no_bundle (fun i => ?_)),
      Judged.marks hj (fun a => ?_)⟩
    · unfold visitEmpty
      rw [(pointLate_q 0 _ id (c.proposal id).nextUploader).still.bun]; rfl
    · unfold late; simp
  · exact absurd ht (tally_not_failed (Well.fit hw) hpl (hw.bun.prop id) _)
  · obtain ⟨f1, -, -⟩ := tally_spec ht
    obtain ⟨l, hl, hj⟩ := judged_tally hn ht
    have hver := verdict_tally hn hs ht
    have hs2 := (pointLate_q 0 (if v.status = .valid then y.visitValid id (c.proposal id) v else y.visitOther id) id
      (c.proposal id).nextUploader).still
    have hz : ∀ z, z = (if v.status = .valid then y.visitValid id (c.proposal id) v else y.visitOther id) →
        z.del = y.del ∧ z.st = y.st ∧ z.bun.params = y.bun.params ∧ (z.proposal id).storageId = 0 ∧
        (v.status = .valid ↔ NewBundle id c z) := by
      rintro z rfl
      split
      · rename_i hval
        unfold visitValid
        refine ⟨?_, ?_, ?_, ?_, fun _ => new_bundle hw.bun hpl (finalize_new f1.still hpl _ v), fun _ => hval⟩
        · show (Chain.finalize _ id v).del = _
          rw [finalize_del]; rfl
        · show (Chain.finalize _ id v).st = _
          rw [finalize_vals]; rfl
        · show (Chain.finalize _ id v).bun.params = _
          unfold finalize; split <;> rfl
        · rw [proposal_set, if_pos rfl]; rfl
      · rename_i hval
        refine ⟨rfl, rfl, rfl, ?_, fun e => absurd e hval, fun hb => ?_⟩
        · unfold visitOther drop; rw [proposal_set, if_pos rfl]; rfl
        · exact absurd hb (no_bundle (fun i => by show y.bun.finalized.get? _ = _; rw [f1.still.bun]))
    generalize (if v.status = .valid then y.visitValid id (c.proposal id) v else y.visitOther id) = z at hz hs2 ⊢
    obtain ⟨z1, z2, z3, z4, z5⟩ := hz z rfl
    have hst := stable_tally ht
    obtain ⟨l', hl', hj'⟩ := judged_late (c := c) (y := z) (by unfold slashes; rw [z1]; exact hl) (Judged.congr hj (by rw [z2]))
      (fun a => by unfold delegated; rw [z1]; exact hst.del a) (by rw [z1]; exact hst.dparams)
      (by rw [z3]; exact hst.bparams) (c.proposal id).nextUploader
    refine ⟨_, _, l', hl', .decided v.status h1 ⟨pl, hpl, by omega⟩ h0 hver ?_ ?_, Judged.marks hj' (fun a => rfl)⟩
    · rw [z5]
      unfold NewBundle bundle
      rw [hs2.bun]
    · rw [hs2.proposal]; exact z4

theorem turns_handled {gov : Addr} {l : List (Nat × Pool.Pool)} {c c' : Chain} (h : Handled gov l c c')
    (hn : (l.map (·.1)).Nodup) (hp : ∀ e ∈ l, c.pool.pools.get? e.1 = some e.2) (hs : totalAll c.del < 2 ^ 63) :
    Turns (l.map (·.1)) c c' := by
  induction h with
  | nil _ => exact .nil
  | @cons e l c d c' hw hq hv hh ih =>
    rw [List.map_cons, List.nodup_cons] at hn
    have ha : ∀ j, j ≠ e.1 → Apart j c d := fun j hj => apart_visit hj (Well.keyed hw) hv
    obtain ⟨f, m, x, t1, t2, t3⟩ := turn_visit hw hs (hp e (by simp)) hv
    refine .cons t1 t2 t3 ha (spared_steps (visit_steps (gov := gov) (Well.mem hw) hq hv).1) (ih hn.2 (fun e' he' => ?_) (lt_of_le_of_lt (total_visit hw hq hv) hs))
    have hne : e'.1 ≠ e.1 := fun e2 => hn.1 (e2 ▸ List.mem_map.2 ⟨_, he', rfl⟩)
    rw [(ha e'.1 hne).pool]
    exact hp e' (by simp [he'])

/-- C24, C25: at the end of a block, after the runtime upgrades, the pools are judged one after the other, each exactly
once and as `Turn` says. -/
theorem C24_endBlock (gov : Addr) (c : Chain) (h : Reachable gov c) (hs : Sane (c.step gov .endBlock))
    (hc : (c.step gov .endBlock).crashed = false) :
    ∃ s l, l.Nodup ∧ (∀ id, id ∈ l ↔ ∃ p, c.pool.pools.get? id = some p) ∧
      Turns l { c with pool := s } (c.step gov .endBlock) := by
  have hc0 : c.crashed = false := by
    cases e : c.crashed with
    | false => rfl
    | true => unfold step at hc; rw [if_pos e, e] at hc; cases hc
  have e0 : c.step gov .endBlock = c.endBlock := by unfold step; rw [hc0]; rfl
  rw [e0] at hs hc ⊢
  rcases endBlock_handled h hs with e | hh
  · rw [e] at hc; cases hc
  · have hnd : (c.upgradePools.pool.pools.toList.map (·.1)).Nodup := Map.keys_nodup _
    refine ⟨_, _, hnd, fun id => ?_, turns_handled hh hnd (fun e he => (Map.mem_iff _ _ _).1 he) h.good.sane.small⟩
    have hI := h.good.mods.pool.inv
    have hP' : Pool.Spec.Reachable gov c.upgradePools.pool := pool_step h.good.mods.pool c.now .endBlock
    have hcnt : c.upgradePools.pool.count = c.pool.count :=
      pool_count (gov := gov) hI c.now (op := .endBlock) (fun m e => by cases e)
    rw [hI.dense id, ← hcnt, ← hP'.inv.dense id]
    exact Map.mem_keys_iff _ _

/-! ## a point without anything to vote on -/

/-- C25, the last clause fails: when the uploader skips although nothing is proposed, every member of the pool gets a
point, the skipping uploader too. -/
theorem C25_skip_empty (gov : Addr) (c c' : Chain) (h : Reachable gov c) (m : SkipMsg)
    (he : exec gov c (.skip m) = .ok c') (h0 : (c.proposal m.pool).storageId = 0) (a : Addr) (v : Stakers.Val)
    (hv : c.st.vals.get? (m.pool, a) = some v) :
    c'.st.vals.get? (m.pool, a) = score c.bun.params.maxPoints 1 (renew (some m.staker) a v) := by
  obtain ⟨l, s, -, -, -, -, -, hj⟩ := C24_skip gov c c' h m he
  have e := (h.good.bun.prop m.pool).empty h0
  have e1 : fault (c.proposal m.pool) s a = none := by
    rw [e]; unfold fault Proposal.blank; split <;> simp
  have e2 : missed (c.proposal m.pool) a = 1 := by
    rw [e]; unfold missed Proposal.blank; simp
  rw [hj.member a, e1, e2, hv]
  rfl

/-! ## concrete cases -/

/-- the uploader skips although nothing is proposed -/
def _root_.Verif.Chain.Sample.claimed : Chain := Sample.run Sample.ready [.claim 11 1 0, .beginBlock 60 0 0 false]
theorem _root_.Verif.Chain.Sample.reach_claimed : Reachable Sample.gov Sample.claimed :=
  Sample.run_reachable Sample.reach_ready _ (by decide +kernel)
example : (exec Sample.gov Sample.claimed (.skip ⟨11, 1, 0, 0⟩)).isOk = true ∧
    (Sample.claimed.proposal 0).storageId = 0 ∧ (Sample.claimed.st.vals.get? (0, 3)).map (·.points) = some 0 ∧
    ((Sample.claimed.step Sample.gov (.skip ⟨11, 1, 0, 0⟩)).st.vals.get? (0, 3)).map (·.points) = some 1 ∧
    ((Sample.claimed.step Sample.gov (.skip ⟨11, 1, 0, 0⟩)).st.vals.get? (0, 1)).map (·.points) = some 1 := by
  decide +kernel

/-- staker 4 did not vote on the bundle that is finalized -/
example : (exec Sample.gov Sample.later (.submit (Sample.bundle 1 8 10))).isOk = true ∧
    (Sample.second.st.vals.get? (0, 4)).map (·.points) = some 1 ∧
    (Sample.second.st.vals.get? (0, 2)).map (·.points) = some 0 := by decide +kernel

/-- the bundle is found invalid, and the time of the next uploader is over -/
def _root_.Verif.Chain.Sample.disputed : Chain :=
  Sample.run Sample.proposed [Sample.votes 2 7 .invalid, Sample.votes 3 7 .invalid, .beginBlock 700 0 0 false]
theorem _root_.Verif.Chain.Sample.reach_disputed : Reachable Sample.gov Sample.disputed :=
  Sample.run_reachable Sample.reach_proposed _ (by decide +kernel)
/-- after that block -/
def _root_.Verif.Chain.Sample.punished : Chain := Sample.run Sample.disputed [.endBlock]
theorem _root_.Verif.Chain.Sample.reach_punished : Reachable Sample.gov Sample.punished :=
  Sample.run_reachable Sample.reach_disputed _ (by decide +kernel)
/-- the uploader 1 is slashed and removed, staker 4 has a point -/
example : Sample.punished.slashes.map (·.1) = [1] ∧ Sample.punished.st.vals.get? (0, 1) = none ∧
    (Sample.punished.st.vals.get? (0, 4)).map (·.points) = some 1 ∧ Sample.punished.crashed = false ∧
    (Sample.punished.st.vals.get? (0, 2)).map (·.points) = some (if (Sample.disputed.proposal 0).nextUploader = some 2 then 1 else 0)
    := by decide +kernel
example : ∃ s l, l.Nodup ∧ (∀ id, id ∈ l ↔ ∃ p, Sample.disputed.pool.pools.get? id = some p) ∧
    Turns l { Sample.disputed with pool := s } Sample.punished :=
  C24_endBlock Sample.gov Sample.disputed Sample.reach_disputed Sample.reach_punished.good.sane (by decide +kernel)

end Chain
end Verif.Chain
