import Verif.Query.Answers
import Verif.Chain.Turns
import Verif.Chain.Honest
import Verif.Chain.Crash
import Verif.Chain.Votes

/-!
# A running pool makes progress (C105)

What the members of a pool that can run have to do to archive data, and that nothing can stop them: whoever registered may
claim a free turn, the one whose turn it is may propose, everybody may vote, and as soon as more than half of the stake has
voted valid the next proposal finalizes the bundle; if half of the stake has voted invalid it drops it.
-/

set_option linter.dupNamespace false
namespace Verif.Chain
open Verif
open Chain
open Verif.Bundles (Proposal VoteDist Status FBundle stakeFor stakeAll)
open Verif.Delegation (totalAll)

/-! ## specification -/

/-- everything is in place for `m`: the pool `p` can run, it is the turn of the sender's staker, the upload interval is over,
and the bundle is well-formed and continues the data of the pool -/
structure MaySubmit (c : Chain) (p : Pool.Pool) (m : SubmitMsg) : Prop where
  run : CanRun c m.pool p
  node : Registered c m.pool m.staker m.creator
  turn : (c.proposal m.pool).nextUploader = some m.staker
  due : ((c.proposal m.pool).updatedAt + p.uploadInterval) % 2 ^ 64 ≤ c.now
  follows : m.fromIndex = (p.currentIndex + (c.proposal m.pool).bundleSize) % 2 ^ 64
  storage : m.storageId ≠ 0
  keys : m.fromKey ≠ 0 ∧ m.toKey ≠ 0
  size : 0 < m.bundleSize ∧ m.bundleSize ≤ p.maxBundleSize

/-- members with more than half of the stake of the pool are in the list `v` -/
def MostIn (c : Chain) (id : Nat) (v : List Addr) : Prop :=
  ∃ l : List Addr, l.Nodup ∧ (∀ a ∈ l, c.member id a = true ∧ a ∈ v) ∧
    stakeAll (c.members id) c.del.amount < 2 * (l.map c.del.amount).sum

/-- members with half of the stake of the pool, and not nothing, are in the list `v` -/
def HalfIn (c : Chain) (id : Nat) (v : List Addr) : Prop :=
  ∃ l : List Addr, l.Nodup ∧ (∀ a ∈ l, c.member id a = true ∧ a ∈ v) ∧
    0 < stakeAll (c.members id) c.del.amount ∧ stakeAll (c.members id) c.del.amount ≤ 2 * (l.map c.del.amount).sum

/-- the bundle of the pool can be paid: its size and the balance of the pool fit into 63 bits, and the native coin may be used
for funding -/
def CanPay (c : Chain) (id : Nat) : Prop :=
  (c.proposal id).dataSize < 2 ^ 63 ∧ (c.b (.pool id)).amt kyve < 2 ^ 63 ∧ Funders.Spec.whitelisted c.fw kyve

/-- it is the turn of somebody with a registered node and stake -/
def HasTurn (c : Chain) (id : Nat) : Prop :=
  ∃ a n, (c.proposal id).nextUploader = some a ∧ Registered c id a n ∧ 0 < c.del.amount a

/-- the stakers of the list vote valid one after the other; each entry is a staker and its node -/
def voteAll (gov : Addr) (id s : Nat) : List (Addr × Addr) → Chain → Except String Chain
  | [], c => .ok c
  | e :: l, c => match exec gov c (.vote ⟨e.2, e.1, id, s, .valid⟩) with
    | .error x => .error x
    | .ok c' => voteAll gov id s l c'

/-! ## proofs -/

variable {gov : Addr} {c c' d : Chain} {id : Nat}

theorem MaySubmit.may {p : Pool.Pool} {m : SubmitMsg} (h : MaySubmit c p m) :
    c.canPropose m.pool m.staker m.creator m.fromIndex = none := by
  unfold canPropose
  rw [if_neg (by rw [runError_none_iff.2 ⟨p, h.run⟩]; simp), if_neg (by simpa using authorized_iff.2 h.node), h.run.found]
  simp only
  rw [if_neg (by simp [h.turn]), if_neg (show ¬ c.now < u64add _ _ from Nat.not_lt.2 h.due),
    if_neg (not_not_intro (show u64add _ _ = _ from h.follows.symm))]

theorem MaySubmit.form {p : Pool.Pool} {m : SubmitMsg} (h : MaySubmit c p m) : WellFormed c m :=
  ⟨h.storage, h.size.1, fun q hq => (by rw [h.run.found] at hq; cases hq; exact h.size.2), h.keys.1, h.keys.2⟩

theorem stakeFor_mono (M : List Addr) (amt : Addr → Nat) {l v : List Addr} (h : ∀ a ∈ l, a ∈ v) :
    stakeFor M amt l ≤ stakeFor M amt v := by
  unfold stakeFor
  exact ((List.monotone_filter_right M (fun a ha => by simpa using h a (by simpa using ha))).map amt).sum_le_sum
    (fun _ _ => Nat.zero_le _)

/-- before a verdict only members that did not vote lose their place or stake -/
theorem verdict_stay {active : Option Addr} {x : List (Addr × Dec)}
    (hj : Judged id active noFault (missed (c.proposal id)) x c d)
    (hx : ∀ a, a ∉ x.map (·.1) → d.del.amount a = c.del.amount a) :
    (∀ a ∈ d.members id, a ∈ c.members id ∧ d.del.amount a = c.del.amount a) ∧
    (∀ a ∈ c.members id, missed (c.proposal id) a = 0 → a ∈ d.members id ∧ d.del.amount a = c.del.amount a) := by
  have key : ∀ a v w, c.st.vals.get? (id, a) = some v → d.st.vals.get? (id, a) = some w →
      d.del.amount a = c.del.amount a := by
    intro a v w hc hw
    refine hx a (fun hn => ?_)
    have e := hj.member a
    rw [hw, hc, show (noFault a).isSome = false from rfl, if_neg (by simp)] at e
    obtain ⟨⟨b, q⟩, hb, rfl⟩ := List.mem_map.1 hn
    obtain ⟨-, ⟨t, ht, -⟩ | ⟨-, ⟨h0, v', h1, h2⟩, -⟩⟩ := (hj.exactly b q).1 hb
    · cases ht
    · rw [hc] at h1; cases h1
      have e : some w = score c.bun.params.maxPoints (missed (c.proposal id) b) (renew active b v) := e
      unfold score at e
      rw [if_neg (by omega), if_pos h2] at e
      cases e
  constructor
  · intro a ha
    obtain ⟨w, hw⟩ := member_some.1 (mem_members.1 ha)
    cases hc : c.st.vals.get? (id, a) with
    | none =>
      have e := hj.member a
      rw [hw, hc, show (noFault a).isSome = false from rfl, if_neg (by simp)] at e
      cases e
    | some v => exact ⟨mem_members.2 (member_some.2 ⟨v, hc⟩), key a v w hc hw⟩
  · intro a ha h0
    obtain ⟨v, hv⟩ := member_some.1 (mem_members.1 ha)
    have e := hj.member a
    rw [hv, show (noFault a).isSome = false from rfl, if_neg (by simp), h0] at e
    have e : d.st.vals.get? (id, a) = some (renew active a v) := e
    exact ⟨mem_members.2 (member_some.2 ⟨_, e⟩), key a v _ hv e⟩

/-- the stake of those that voted decides -/
theorem verdict_most {active : Option Addr} {s : Status} (hv : Verdict id active s c) :
    (MostIn c id (c.proposal id).valid → s = .valid) ∧ (HalfIn c id (c.proposal id).invalid → s = .invalid) := by
  obtain ⟨d, x, -, hj, hx, hp, hm⟩ := hv
  obtain ⟨h1, h2⟩ := verdict_stay hj hx
  have htot : stakeAll (d.members id) d.del.amount ≤ stakeAll (c.members id) c.del.amount :=
    stake_mono (members_nodup d id) (fun a ha => (h1 a ha).1) (fun a ha => le_of_eq (h1 a ha).2)
  have keep : ∀ v l : List Addr, (∀ a ∈ v, missed (c.proposal id) a = 0) → l.Nodup → (∀ a ∈ l, c.member id a = true ∧ a ∈ v) →
      (l.map c.del.amount).sum ≤ stakeFor (d.members id) d.del.amount v := by
    intro v l hv l1 l2
    have e : (l.map d.del.amount).sum = (l.map c.del.amount).sum := by
      congr 1
      exact List.map_congr_left fun a ha => (h2 a (mem_members.2 (l2 a ha).1) (hv a (l2 a ha).2)).2
    have := stakeFor_sub d.del.amount (members_nodup d id) l1
      (fun a ha => (h2 a (mem_members.2 (l2 a ha).1) (hv a (l2 a ha).2)).1)
    have := stakeFor_mono (d.members id) d.del.amount (l := l) (v := v) (fun a ha => (l2 a ha).2)
    omega
  constructor
  · rintro ⟨l, l1, l2, l3⟩
    refine hm.valid.2 ?_
    rw [hp]
    have := keep _ l (fun a ha => by unfold missed; rw [if_pos (Or.inl ha)]) l1 l2
    omega
  · rintro ⟨l, l1, l2, l3, l4⟩
    have := keep _ l (fun a ha => by unfold missed; rw [if_pos (Or.inr (Or.inl ha))]) l1 l2
    refine hm.invalid.2 ?_
    rw [hp]
    have hle := Bundles.stakeFor_le (d.members id) d.del.amount (c.proposal id).invalid
    omega

/-- the verdict before the votes are acted on -/
theorem verdict_dist (hn : (voters (c.proposal id)).Nodup) (ht : totalAll c.del < 2 ^ 63) :
    Verdict id none ((c.nonVoters id).dist id).status c := by
  obtain ⟨l, h1, h2⟩ := judged_nonVoters c id
  obtain ⟨l', h3, h4, -⟩ := spared_q (nonVoters_q 0 c id)
  have e : l' = l := by rw [h1] at h3; exact (List.append_cancel_left h3).symm
  subst e
  refine ⟨_, l', h1, h2, h4, (nonVoters_q 0 c id).still.proposal id, ?_⟩
  refine dist_majority ?_ (lt_of_le_of_lt (total_q (nonVoters_q 0 c id)) ht)
  rw [(nonVoters_q 0 c id).still.proposal id]
  exact hn

/-- an undecided bundle is decided by a submission if there is a majority -/
theorem submit_decides (hr : Reachable gov c) {p : Pool.Pool} {m : SubmitMsg} (hm : MaySubmit c p m)
    (h0 : (c.proposal m.pool).storageId ≠ 0)
    (hd : (MostIn c m.pool (c.proposal m.pool).valid ∧ CanPay c m.pool) ∨ HalfIn c m.pool (c.proposal m.pool).invalid) :
    ∃ c', exec gov c (.submit m) = .ok c' := by
  have hg := hr.good
  have hn : (voters ((c.resetPoints m.pool m.staker).proposal m.pool)).Nodup := (hg.bun.prop m.pool).nodup
  have hfit : Fit gov (c.resetPoints m.pool m.staker) := (Good.fit hg).q (.one (.reset m.pool m.staker) trivial)
  have m0 := (QSteps.one (.reset m.pool m.staker) trivial : QSteps gov c (c.resetPoints m.pool m.staker)).still
  have hpo : PropOk (c.resetPoints m.pool m.staker) m.pool ((c.resetPoints m.pool m.staker).proposal m.pool) :=
    (hg.bun.prop m.pool).mono (fun a ha => by have := m0.stakers a; exact this.trans ha) (le_refl _)
  show ∃ c', c.submit m = .ok c'
  unfold submit
  simp only [hm.may, args_ok hm.may hm.form]
  unfold submitGo
  have h0' : ((c.resetPoints m.pool m.staker).proposal m.pool).storageId ≠ 0 := h0
  rw [if_neg h0']
  rcases tally_cases hfit (pl := p) hm.run.found hpo with ⟨-, hno, hval⟩ | ⟨y, v, ht, -⟩
  · exfalso
    rcases hd with ⟨-, h1, h2, h3⟩ | hi
    · exact hno ⟨h1, h2, (Funders.listed_iff c.fw kyve).2 h3⟩
    · have hver : Verdict m.pool none ((c.resetPoints m.pool m.staker).nonVoters m.pool |>.dist m.pool).status
          (c.resetPoints m.pool m.staker) := verdict_dist hn hg.sane.small
      have := (verdict_most (verdict_reset hver)).2 hi
      rw [this] at hval; cases hval
  · have hver := verdict_reset (verdict_tally hn hg.sane.small ht)
    have hs : v.status = .valid ∨ v.status = .invalid := by
      rcases hd with ⟨h, -⟩ | h
      · exact Or.inl ((verdict_most hver).1 h)
      · exact Or.inr ((verdict_most hver).2 h)
    rw [ht]
    unfold submitTallied
    rcases hs with e | e <;> simp only [e] <;> exact ⟨_, rfl⟩

/-- the uploader that is chosen by a submission is a member -/
theorem submit_next (hr : Reachable gov c) {m : SubmitMsg} (he : exec gov c (.submit m) = .ok c') {a : Addr}
    (ha : (c'.proposal m.pool).nextUploader = some a)
    (hn : (c.proposal m.pool).storageId = 0 ∨ NewBundle m.pool c c') : c'.member m.pool a = true ∧ 0 < c'.del.amount a := by
  have hx : c.submit m = .ok c' := he
  obtain ⟨h1, -⟩ := submit_ok hx
  obtain ⟨pl, hpl, -⟩ := canPropose_none h1
  have hpl := hpl.found
  have s0 := (resetPoints_fixed c m.pool m.staker).still
  rcases submit_cases hx with ⟨h0, rfl⟩ | ⟨h0, y, v, ht, hh⟩
  · have ep := register_proposal (c := (c.resetPoints m.pool m.staker).setProgress m.pool
      ((c.resetPoints m.pool m.staker).choice m.pool []).2) (m := m) hpl ((c.resetPoints m.pool m.staker).choice m.pool []).1
    have e1 : ((c.resetPoints m.pool m.staker).submitFirst m).st = (c.resetPoints m.pool m.staker).st := by
      unfold submitFirst; rw [register_st]; rfl
    have e2 : ((c.resetPoints m.pool m.staker).submitFirst m).del = c.del := by
      unfold submitFirst; rw [register_del]; rfl
    have ha : ((c.resetPoints m.pool m.staker).choice m.pool []).1 = some a := by
      unfold submitFirst at ha
      rw [ep] at ha; exact ha
    have := (Bundles.C27_member _ _ ((c.resetPoints m.pool m.staker).bun.progressOf m.pool) []).2 a ha
    rw [member_eq e1, e2]
    exact ⟨mem_members.1 this.1, this.2⟩
  · obtain ⟨f1, -, -⟩ := tally_spec ht
    have s1 := Still.trans s0 f1.still
    have hply : y.pool.pools.get? m.pool = some pl := by rw [s1.pool]; exact hpl
    rcases hh with ⟨hval, rfl⟩ | ⟨hval, rfl⟩
    · have e1 : (y.submitNext m (c.proposal m.pool) v).st = y.st := by
        unfold submitNext; rw [register_st, finalize_vals]; rfl
      have e2 : (y.submitNext m (c.proposal m.pool) v).del = y.del := by
        unfold submitNext; rw [register_del, finalize_del]; rfl
      have hc0 : (y.setProgress m.pool (y.choiceFrom m.pool (c.proposal m.pool).valid).2).pool.pools.get? m.pool = some pl := hply
      obtain ⟨pl', hp'⟩ : ∃ pl', ((y.setProgress m.pool (y.choiceFrom m.pool (c.proposal m.pool).valid).2).finalize
          m.pool v).pool.pools.get? m.pool = some pl' := by
        unfold finalize
        rw [hc0]
        show ∃ pl', (Pool.incrementBundleInformation _ m.pool _ _ _).pools.get? m.pool = some pl'
        unfold Pool.incrementBundleInformation
        rw [hc0]
        have hkey : m.pool = pl.id := (hr.good.mods.pool.inv.key _ _ hpl).symm
        exact ⟨_, (Map.get?_set _ _ _ _).trans (if_pos hkey)⟩
      have ha : (y.choiceFrom m.pool (c.proposal m.pool).valid).1 = some a := by
        unfold submitNext at ha
        rw [register_proposal hp'] at ha; exact ha
      have := (Bundles.C27_member _ _ (y.bun.progressOf m.pool) (Bundles.complement
        (Bundles.load (y.members m.pool) y.del.amount (y.bun.progressOf m.pool)) (c.proposal m.pool).valid)).2 a ha
      rw [member_eq e1, e2]
      exact ⟨mem_members.1 this.1, this.2⟩
    · exact absurd (hn.resolve_left h0) (no_bundle (fun i => by show y.bun.finalized.get? _ = _; rw [s1.bun]))

/-! ## C105 -/

/-- **C105**: while nobody has the turn, every registered node can claim it for its staker. -/
theorem C105_claim (gov : Addr) (c : Chain) (id : Nat) (p : Pool.Pool) (hp : CanRun c id p) (a n : Addr)
    (hn : Registered c id a n) (h : (c.proposal id).nextUploader = none) :
    ∃ c', exec gov c (.claim n a id) = .ok c' ∧ (c'.proposal id).nextUploader = some a ∧ c'.data id = c.data id := by
  refine ⟨c.setProposal id { c.proposal id with nextUploader := some a, updatedAt := c.now }, ?_, ?_, ?_⟩
  · show c.claim n a id = _
    unfold claim
    rw [if_neg (by rw [runError_none_iff.2 ⟨p, hp⟩]; simp), if_neg (by simpa using authorized_iff.2 hn), if_neg (by simp [h])]
  · rw [proposal_set, if_pos rfl]
  · unfold Chain.data; rw [proposal_set, if_pos rfl]

/-- **C105**: while nothing is proposed, the staker whose turn it is can propose any well-formed data, and has voted for it. -/
theorem C105_first (gov : Addr) (c : Chain) (hr : Reachable gov c) (p : Pool.Pool) (m : SubmitMsg) (hm : MaySubmit c p m)
    (h0 : (c.proposal m.pool).storageId = 0) :
    ∃ c', exec gov c (.submit m) = .ok c' ∧ c'.data m.pool = m.data ∧ (c'.proposal m.pool).valid = [m.staker] := by
  obtain ⟨c', he⟩ := C57_can_propose_first (by unfold canProposeQuery; rw [hm.may]; rfl) h0 hm.form
  refine ⟨c', he, ?_⟩
  rcases C80_submit gov c c' hr m he with ⟨-, ⟨pl, n, -, e⟩, -⟩ | ⟨h, -⟩
  · rw [show c'.data m.pool = _ from by unfold Chain.data; rw [e]]
    exact ⟨rfl, by rw [e]⟩
  · exact absurd h0 h

/-- **C105**: while something is proposed, every registered node can vote for its staker, unless it has voted valid or invalid. -/
theorem C105_vote (gov : Addr) (c : Chain) (p : Pool.Pool) (m : VoteMsg) (hp : CanRun c m.pool p)
    (hn : Registered c m.pool m.staker m.creator) (h0 : (c.proposal m.pool).storageId ≠ 0)
    (hs : m.storageId = (c.proposal m.pool).storageId) (hv : m.vote = .valid ∨ m.vote = .invalid)
    (h1 : m.staker ∉ (c.proposal m.pool).valid) (h2 : m.staker ∉ (c.proposal m.pool).invalid) :
    ∃ c', exec gov c (.vote m) = .ok c' ∧ c'.data m.pool = c.data m.pool ∧
      (m.vote = .valid → (c'.proposal m.pool).valid = (c.proposal m.pool).valid ++ [m.staker]) ∧
      (m.vote = .invalid → (c'.proposal m.pool).invalid = (c.proposal m.pool).invalid ++ [m.staker]) := by
  have hc : c.canVote m.pool m.staker m.creator m.storageId = none := by
    unfold canVote
    rw [if_neg (by rw [runError_none_iff.2 ⟨p, hp⟩]; simp), if_neg (by simpa using authorized_iff.2 hn), if_neg h0,
      if_neg (by simpa using hs), if_neg h1, if_neg h2]
  have e : exec gov c (.vote m) = match castVote (c.proposal m.pool) m.staker m.vote with
    | .error e => .error e
    | .ok p => .ok ((c.setProposal m.pool p).resetPoints m.pool m.staker) := by
    show c.vote m = _
    unfold vote; rw [hc]; rfl
  have ep : ∀ q, (((c.setProposal m.pool q).resetPoints m.pool m.staker).proposal m.pool) = q := fun q => by
    show (c.setProposal m.pool q).proposal m.pool = q
    rw [proposal_set, if_pos rfl]
  rcases hv with hv | hv
  · rw [hv] at e ⊢
    refine ⟨_, e, ?_, fun _ => by rw [ep], fun h => by cases h⟩
    unfold Chain.data; rw [ep]
  · rw [hv] at e ⊢
    refine ⟨_, e, ?_, fun h => (by cases h), fun _ => by rw [ep]⟩
    unfold Chain.data; rw [ep]

/-- what a valid vote leaves as it is -/
theorem vote_keeps {m : VoteMsg} (he : exec gov c (.vote m) = .ok c') (j : Nat) :
    c'.runError j = c.runError j ∧ c'.pool = c.pool ∧ c'.members j = c.members j ∧ c'.del = c.del ∧
      (∀ a n, Registered c' j a n ↔ Registered c j a n) := by
  obtain ⟨-, q, -, rfl⟩ := vote_ok he
  refine ⟨runError_resetPoints _ _ _ _, rfl, members_resetPoints _ _ _ _, rfl, fun a n => ?_⟩
  rw [← authorized_iff, ← authorized_iff, authorized_resetPoints]
  exact Iff.rfl

/-- **C105**: all registered members that have not voted can vote valid, in any order; the data stays, and the pool can still
run. -/
theorem C105_all_vote (gov : Addr) (id : Nat) (p : Pool.Pool) (l : List (Addr × Addr)) (c : Chain) (hp : CanRun c id p)
    (h0 : (c.proposal id).storageId ≠ 0) (hl : (l.map (·.1)).Nodup) (hn : ∀ e ∈ l, Registered c id e.1 e.2)
    (hv : ∀ e ∈ l, e.1 ∉ (c.proposal id).valid ∧ e.1 ∉ (c.proposal id).invalid) :
    ∃ c', voteAll gov id (c.proposal id).storageId l c = .ok c' ∧ c'.data id = c.data id ∧
      (c'.proposal id).valid = (c.proposal id).valid ++ l.map (·.1) ∧ CanRun c' id p ∧
      ((MostIn c id ((c.proposal id).valid ++ l.map (·.1))) → MostIn c' id (c'.proposal id).valid) := by
  induction l generalizing c with
  | nil => exact ⟨c, rfl, rfl, by simp, hp, fun h => by simpa using h⟩
  | cons e l ih =>
    rw [List.map_cons, List.nodup_cons] at hl
    obtain ⟨d, he, hd, hval, -⟩ := C105_vote gov c p ⟨e.2, e.1, id, (c.proposal id).storageId, .valid⟩ hp (hn e (by simp)) h0 rfl
      (Or.inl rfl) (hv e (by simp)).1 (hv e (by simp)).2
    have hd : d.data id = c.data id := hd
    have hval : (d.proposal id).valid = (c.proposal id).valid ++ [e.1] := hval rfl
    have hinv : (d.proposal id).invalid = (c.proposal id).invalid := by
      obtain ⟨-, q, hq, rfl⟩ := vote_ok he
      cases hq
      show ((c.setProposal id _).proposal id).invalid = _
      rw [proposal_set, if_pos rfl]
    obtain ⟨k1, k2, k3, k4, k5⟩ := vote_keeps he id
    have es : (d.proposal id).storageId = (c.proposal id).storageId := congrArg Data.storageId hd
    have hp' : CanRun d id p := by
      obtain ⟨q, hq⟩ := runError_none_iff.1 (k1.trans (runError_none_iff.2 ⟨p, hp⟩))
      have := hq.found
      rw [k2, hp.found] at this; cases this; exact hq
    obtain ⟨c', h1, h2, h3, h4, h5⟩ := ih d hp' (by rw [es]; exact h0) hl.2 (fun x hx => (k5 _ _).2 (hn x (by simp [hx])))
      (fun x hx => by
        rw [hval, hinv]
        refine ⟨?_, (hv x (by simp [hx])).2⟩
        rw [List.mem_append, not_or]
        refine ⟨(hv x (by simp [hx])).1, fun hz => hl.1 ?_⟩
        rw [← List.mem_singleton.1 hz]
        exact List.mem_map_of_mem hx)
    refine ⟨c', ?_, h2.trans hd, by rw [h3, hval]; simp, h4, fun h => h5 ?_⟩
    · rw [voteAll, he]
      rw [es] at h1; exact h1
    · obtain ⟨y, y1, y2, y3⟩ := h
      refine ⟨y, y1, fun a ha => ⟨?_, ?_⟩, by rw [k3, k4]; exact y3⟩
      · have := mem_members.2 (y2 a ha).1
        rw [← k3] at this
        exact mem_members.1 this
      · rw [hval]
        have := (y2 a ha).2
        simp only [List.map_cons, List.mem_append, List.mem_cons] at this ⊢
        tauto

/-- **C105**: as soon as more than half of the stake has voted valid, the next proposal is accepted; it finalizes the bundle
before, as the next bundle of the pool with exactly the data that was voted on, and it is somebody's turn again. -/
theorem C105_finalized (gov : Addr) (c : Chain) (hr : Reachable gov c) (hc : c.crashed = false)
    (p : Pool.Pool) (m : SubmitMsg) (hm : MaySubmit c p m) (h0 : (c.proposal m.pool).storageId ≠ 0)
    (hv : MostIn c m.pool (c.proposal m.pool).valid) (hy : CanPay c m.pool) :
    ∃ c' f, exec gov c (.submit m) = .ok c' ∧ c'.bundle m.pool p.totalBundles = some f ∧ HasData f (c.data m.pool) ∧
      f.uploader = (c.proposal m.pool).uploader ∧ c'.data m.pool = m.data ∧ HasTurn c' m.pool := by
  obtain ⟨c', he⟩ := submit_decides hr hm h0 (Or.inl ⟨hv, hy⟩)
  obtain ⟨x, hx, h⟩ := C24_submit gov c c' hr m he
  rcases h with ⟨h, -⟩ | ⟨-, s, -, hver, hnew, -, hj⟩
  · exact absurd h h0
  have hs : s = .valid := (verdict_most hver).1 hv
  subst hs
  have hb : NewBundle m.pool c c' := hnew.1 rfl
  have est : c.step gov (.submit m) = c' := step_of_exec hc he
  obtain ⟨i, hi, hi'⟩ := hb
  obtain ⟨f, hf⟩ := Option.ne_none_iff_exists'.1 hi'
  obtain ⟨q, hq, rfl, -, e1, e0, e2, e7, e3, e4, e5, e6, -⟩ := C23_new gov c hr (.submit m) m.pool i f hi (by rw [est]; exact hf)
  rw [hm.run.found] at hq; cases hq
  refine ⟨c', f, he, hf, ⟨e1, e6, e3, e4, e5, by rw [e7, e2]; rfl⟩, e0, ?_⟩
  rcases C80_submit gov c c' hr m he with ⟨-, ⟨pl, n, -, e⟩, ht, -⟩ | ⟨-, h, -⟩
  · refine ⟨by unfold Chain.data; rw [e]; rfl, ?_⟩
    cases hnx : (c'.proposal m.pool).nextUploader with
    | some a =>
      obtain ⟨g1, g2⟩ := submit_next hr he hnx (Or.inr ⟨_, hi, hi'⟩)
      obtain ⟨v, hv⟩ := member_some.1 g1
      exact ⟨a, v.valaddress, hnx, ⟨v, hv, rfl⟩, g2⟩
    | none =>
      exfalso
      obtain ⟨l, l1, l2, l3⟩ := hv
      obtain ⟨l', g1, g2, -⟩ := C24_stake gov c hr (.submit m) rfl
      have el : l' = x := by rw [est, hx] at g1; exact (List.append_cancel_left g1).symm
      subst el
      rw [est] at g2
      have hz : ∀ a ∈ l, c.del.amount a = 0 := by
        intro a ha
        obtain ⟨k1, k2⟩ := l2 a ha
        obtain ⟨v, hv⟩ := member_some.1 k1
        have hni : a ∉ (c.proposal m.pool).invalid := fun hi => by
          have hnd := (hr.good.bun.prop m.pool).nodup
          unfold voters at hnd
          rw [List.append_assoc, List.nodup_append] at hnd
          exact hnd.2.2 a k2 a (by simp [hi]) rfl
        have hfa : fault (c.proposal m.pool) .valid a = none := by unfold fault; rw [if_neg hni]
        have hma : missed (c.proposal m.pool) a = 0 := by unfold missed; rw [if_pos (Or.inl k2)]
        have hmem : c'.member m.pool a = true := by
          refine member_some.2 ⟨renew (some m.staker) a v, ?_⟩
          rw [hj.member a, hfa, if_neg (by simp), hv, hma]
          rfl
        have hns : a ∉ l'.map (·.1) := by
          intro hn
          obtain ⟨⟨b, q⟩, hb, rfl⟩ := List.mem_map.1 hn
          obtain ⟨-, ⟨t, ht, -⟩ | ⟨-, ⟨h0, -⟩, -⟩⟩ := (hj.exactly b q).1 hb
          · rw [hfa] at ht; cases ht
          · have hma : missed (c.proposal m.pool) b = 0 := hma
            omega
        rw [← g2 a hns]
        exact ht.nobody hnx a hmem
      have : (l.map c.del.amount).sum = 0 := by
        rw [List.sum_eq_zero_iff]
        intro n hn
        obtain ⟨a, ha, rfl⟩ := List.mem_map.1 hn
        exact hz a ha
      omega
  · exact absurd ⟨_, hi, hi'⟩ h

/-- **C105**: as soon as half of the stake has voted invalid, the next proposal drops the bundle before, and the sender
keeps the turn. -/
theorem C105_refused (gov : Addr) (c : Chain) (hr : Reachable gov c) (hc : c.crashed = false)
    (p : Pool.Pool) (m : SubmitMsg) (hm : MaySubmit c p m) (h0 : (c.proposal m.pool).storageId ≠ 0)
    (hv : HalfIn c m.pool (c.proposal m.pool).invalid) :
    ∃ c', exec gov c (.submit m) = .ok c' ∧ (∀ i, c'.bundle m.pool i = c.bundle m.pool i) ∧
      (c'.proposal m.pool).storageId = 0 ∧ (c'.proposal m.pool).nextUploader = some m.staker := by
  obtain ⟨c', he⟩ := submit_decides hr hm h0 (Or.inr hv)
  obtain ⟨x, hx, h⟩ := C24_submit gov c c' hr m he
  rcases h with ⟨h, -⟩ | ⟨-, s, -, hver, hnew, -, hj⟩
  · exact absurd h h0
  have hs : s = .invalid := (verdict_most hver).2 hv
  subst hs
  have hb : ¬ NewBundle m.pool c c' := fun h => by cases hnew.2 h
  rcases C80_submit gov c c' hr m he with ⟨h | h, -⟩ | ⟨-, -, e⟩
  · exact absurd h h0
  · exact absurd h hb
  · refine ⟨c', he, fun i => ?_, by rw [e], by rw [e]⟩
    cases h1 : c.bundle m.pool i with
    | some f =>
      have := bundle_kept hr (.submit m) h1
      rw [step_of_exec hc he] at this; exact this
    | none =>
      by_contra h2
      exact hb ⟨i, h1, h2⟩

/-! ## C106 -/

/-- **C106** (part): an accepted claim, an accepted skip, and an accepted submission that is not refused (because the bundle
before is invalid) give the turn to a member of the pool.  Missing: the refused submission, and the end of a block; both may
leave the turn with somebody that they have just removed from the pool (`C106_refused_false`, `C106_timeout_false`). -/
theorem C106_member_partial (gov : Addr) (c c' : Chain) (hr : Reachable gov c) (op : Op) (he : exec gov c op = .ok c') (id : Nat)
    (h : (∃ n a, op = .claim n a id) ∨ (∃ m, op = .skip m ∧ m.pool = id) ∨
      (∃ m, op = .submit m ∧ m.pool = id ∧ ((c.proposal id).storageId = 0 ∨ NewBundle id c c')))
    (a : Addr) (ha : (c'.proposal id).nextUploader = some a) : c'.member id a = true := by
  rcases h with ⟨n, b, rfl⟩ | ⟨m, rfl, rfl⟩ | ⟨m, rfl, rfl, hn⟩
  · obtain ⟨-, h2, -, rfl⟩ := claim_ok he
    rw [proposal_set, if_pos rfl] at ha
    cases ha
    obtain ⟨v, hv, -⟩ := h2
    exact member_some.2 ⟨v, hv⟩
  · have hx : c.skip m = .ok c' := he
    have s0 := (resetPoints_fixed c m.pool m.staker).still
    obtain ⟨y, v, ht, rfl⟩ := skip_cases hx
    have key : ∀ z, z = (y.setProgress m.pool (y.choice m.pool [m.staker]).2).skipOutcome m.pool (c.proposal m.pool) v
        (y.choice m.pool [m.staker]).1 → z.st = y.st ∧
        (z.proposal m.pool).nextUploader = (y.choice m.pool [m.staker]).1 := by
      rintro z rfl
      unfold skipOutcome
      split
      · refine ⟨?_, ?_⟩
        · show (Chain.finalize _ m.pool v).st = _
          rw [finalize_vals]; rfl
        · rw [proposal_set, if_pos rfl]; rfl
      · refine ⟨rfl, ?_⟩
        unfold drop; rw [proposal_set, if_pos rfl]; rfl
      · refine ⟨rfl, ?_⟩
        rw [proposal_set, if_pos rfl]
    generalize (y.setProgress m.pool (y.choice m.pool [m.staker]).2).skipOutcome m.pool (c.proposal m.pool) v
        (y.choice m.pool [m.staker]).1 = z at key ha ⊢
    obtain ⟨e1, e2⟩ := key z rfl
    rw [e2] at ha
    rw [member_eq e1]
    exact mem_members.1 ((Bundles.C27_member _ _ (y.bun.progressOf m.pool) [m.staker]).2 a ha).1
  · exact (submit_next hr he ha hn).1

/-- staker 1 has the turn and voted valid on bad data; half of the stake voted invalid -/
def Sample.fooled : Chain := Sample.run Sample.ready [.claim 14 4 0, .beginBlock 60 0 0 false,
  .submit { Sample.bundle 4 9 0 with dataHash := 2 }, Sample.votes 1 9 .valid, Sample.votes 2 9 .invalid,
  Sample.votes 3 9 .invalid, .beginBlock 60 0 0 false]

/-- **C106 is false**: the submission of staker 1 drops the bad data, slashes staker 1 for its vote, removes it from the pool,
and leaves it the turn. -/
theorem C106_refused_false : ∃ c c' m, Reachable Sample.gov c ∧ exec Sample.gov c (.submit m) = .ok c' ∧
    c.member m.pool m.staker = true ∧ (c'.proposal m.pool).nextUploader = some m.staker ∧ c'.member m.pool m.staker = false := by
  have h : (exec Sample.gov Sample.fooled (.submit (Sample.bundle 1 7 10))).toOption.map (fun c' =>
      decide ((c'.proposal 0).nextUploader = some 1 ∧ c'.member 0 1 = false)) = some true := by decide +kernel
  cases he : exec Sample.gov Sample.fooled (.submit (Sample.bundle 1 7 10)) with
  | error e => rw [he] at h; cases h
  | ok c' =>
    rw [he] at h
    have h : decide ((c'.proposal 0).nextUploader = some 1 ∧ c'.member 0 1 = false) = true := Option.some.inj h
    have h := of_decide_eq_true h
    exact ⟨Sample.fooled, c', Sample.bundle 1 7 10, Sample.run_reachable Sample.reach_ready _ (by decide +kernel), he,
      by decide +kernel, h.1, h.2⟩

/-- **C106 is false**: the end of a block removes a staker that let the upload timeout pass too often, after choosing it as the
next uploader. -/
theorem C106_timeout_false : ∃ c a, Reachable Sample.gov c ∧ c.member 0 a = true ∧
    ((c.step Sample.gov .endBlock).proposal 0).nextUploader = some a ∧ (c.step Sample.gov .endBlock).member 0 a = false :=
  ⟨Sample.run Sample.ready [.bundlesParams Sample.gov { maxPoints := some 1 }, .claim 11 1 0, .beginBlock 100000 0 0 false], 1,
    Sample.run_reachable Sample.reach_ready _ (by decide +kernel), by decide +kernel, by decide +kernel, by decide +kernel⟩

/-! ## The hypotheses are met -/

/-- `MaySubmit` for the sample pool, from facts that can be computed -/
theorem Sample.may {c : Chain} {m : SubmitMsg} (h1 : c.runError m.pool = none)
    (h2 : c.st.authorized m.pool m.staker m.creator = true) (h3 : (c.proposal m.pool).nextUploader = some m.staker)
    (h4 : ((c.pool.pools.get? m.pool).map fun p => decide (((c.proposal m.pool).updatedAt + p.uploadInterval) % 2 ^ 64 ≤ c.now ∧
      m.fromIndex = (p.currentIndex + (c.proposal m.pool).bundleSize) % 2 ^ 64 ∧ m.storageId ≠ 0 ∧ (m.fromKey ≠ 0 ∧ m.toKey ≠ 0) ∧
      (0 < m.bundleSize ∧ m.bundleSize ≤ p.maxBundleSize))) = some true) : ∃ p, MaySubmit c p m := by
  obtain ⟨p, hp⟩ := runError_none_iff.1 h1
  rw [hp.found] at h4
  simp only [Option.map_some, Option.some.injEq, decide_eq_true_eq] at h4
  obtain ⟨g1, g2, g3, g4, g5⟩ := h4
  exact ⟨p, hp, authorized_iff.1 h2, h3, g1, g2, g3, g4, g5⟩

/-- a round: staker 1 claims and proposes, stakers 2 and 3 vote, and a minute later the bundle is finalized -/
example : (∃ p, CanRun Sample.ready 0 p) ∧ Registered Sample.ready 0 1 11 ∧ (Sample.ready.proposal 0).nextUploader = none :=
  ⟨runError_none_iff.1 (by decide +kernel), authorized_iff.1 (by decide +kernel), by decide +kernel⟩
example : ∃ p, MaySubmit (Sample.run Sample.ready [.claim 11 1 0, .beginBlock 60 0 0 false]) p (Sample.bundle 1 7 0) :=
  Sample.may (by decide +kernel) (by decide +kernel) (by decide +kernel) (by decide +kernel)
example : (∃ p, CanRun Sample.proposed 0 p) ∧ (Sample.proposed.proposal 0).storageId ≠ 0 ∧
    (∀ e ∈ [((2 : Addr), (12 : Addr)), (3, 13)], Registered Sample.proposed 0 e.1 e.2) ∧
    (∀ e ∈ [((2 : Addr), (12 : Addr)), (3, 13)], e.1 ∉ (Sample.proposed.proposal 0).valid ∧
      e.1 ∉ (Sample.proposed.proposal 0).invalid) ∧
    MostIn Sample.proposed 0 ((Sample.proposed.proposal 0).valid ++ [2, 3]) := by
  refine ⟨runError_none_iff.1 (by decide +kernel), by decide +kernel, fun e he => ?_, by decide +kernel,
    [1, 2, 3], by decide, by decide +kernel, by decide +kernel⟩
  have : ∀ e ∈ [((2 : Addr), (12 : Addr)), (3, 13)], Sample.proposed.st.authorized 0 e.1 e.2 = true := by decide +kernel
  exact authorized_iff.1 (this e he)
example : (∃ p, MaySubmit Sample.later p (Sample.bundle 1 8 10)) ∧ Sample.later.crashed = false ∧
    (Sample.later.proposal 0).storageId ≠ 0 ∧ MostIn Sample.later 0 (Sample.later.proposal 0).valid ∧ CanPay Sample.later 0 :=
  ⟨Sample.may (by decide +kernel) (by decide +kernel) (by decide +kernel) (by decide +kernel), by decide +kernel, by decide +kernel,
    ⟨[1, 2, 3], by decide, by decide +kernel, by decide +kernel⟩, by decide +kernel, by decide +kernel,
    (Funders.listed_iff _ _).1 (by decide +kernel)⟩
/-- a bundle that is refused -/
example : (∃ p, MaySubmit Sample.lies p (Sample.bundle 1 7 10)) ∧ Sample.lies.crashed = false ∧
    (Sample.lies.proposal 0).storageId ≠ 0 ∧ HalfIn Sample.lies 0 (Sample.lies.proposal 0).invalid :=
  ⟨Sample.may (by decide +kernel) (by decide +kernel) (by decide +kernel) (by decide +kernel), by decide +kernel, by decide +kernel,
    ⟨[1, 2], by decide, by decide +kernel, by decide +kernel, by decide +kernel⟩⟩

end Verif.Chain
