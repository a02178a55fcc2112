import Verif.Chain.Micro
import Verif.Bundles.RRProps

/-!
# Every operation is a sequence of small steps
-/

set_option linter.dupNamespace false
namespace Verif.Chain
open Verif
open Verif.Bundles (Proposal VoteDist Status Reward)

/-- what has to hold before an operation: members are stakers, an empty proposal has no votes, delegations are not
astronomical -/
structure Sound (c : Chain) : Prop where
  mem : ∀ id a, c.member id a = true → c.st.stakers.has a = true
  votes : ∀ id, (c.proposal id).storageId = 0 → (c.proposal id).valid = []
  amt : ∀ a, c.del.amount a < 2 ^ 64 - 1

/-- members are stakers -/
def Mem (c : Chain) : Prop := ∀ id a, c.member id a = true → c.st.stakers.has a = true

theorem Still.mem {c c' : Chain} (h : Still c c') (hm : Mem c) : Mem c' :=
  fun id a x => by rw [h.stakers]; exact hm id a (h.member id a x)

theorem Still.proposal {c c' : Chain} (h : Still c c') (id : Nat) : c'.proposal id = c.proposal id := by
  unfold Chain.proposal; rw [h.bun]

theorem mem_members {c : Chain} {id : Nat} {a : Addr} : a ∈ c.members id ↔ c.member id a = true := by
  unfold Chain.members Chain.member
  rw [Stakers.mem_stakersOf, Stakers.has_iff]

theorem Mem.named_choice {c : Chain} (h : Mem c) (id : Nat) (ex : List Addr) : Micro.Named c (c.choice id ex).1 :=
  fun a ha => h id a (mem_members.1 ((Bundles.C27_member _ _ _ _).2 a ha).1)

theorem Mem.named_choiceFrom {c : Chain} (h : Mem c) (id : Nat) (l : List Addr) :
    Micro.Named c (c.choiceFrom id l).1 :=
  fun a ha => h id a (mem_members.1 ((Bundles.C27_member _ _ _ _).2 a ha).1)

namespace Chain
variable (gov : Addr)

/-! ## points and slashes -/

theorem slash_q (c : Chain) (a : Addr) (t : Delegation.SlashType) : QSteps gov c (c.slash a t) :=
  QSteps.one (c := c) (.slash a t) trivial

theorem kick_q (c : Chain) (id : Nat) (a : Addr) : QSteps gov c (c.kick id a) :=
  QSteps.one (c := c) (.kick id a) trivial

theorem incPoints_q (c : Chain) (id : Nat) (a : Addr) : QSteps gov c (c.incPoints id a) :=
  QSteps.one (c := c) (.inc id a) trivial

theorem resetPoints_q (c : Chain) (id : Nat) (a : Addr) : QSteps gov c (c.resetPoints id a) :=
  QSteps.one (c := c) (.reset id a) trivial

theorem slashAndRemove_q (c : Chain) (id : Nat) (a : Addr) (t : Delegation.SlashType) :
    QSteps gov c (c.slashAndRemove id a t) := (slash_q gov c a t).trans (kick_q gov _ id a)

theorem addPoint_q (c : Chain) (id : Nat) (a : Addr) : QSteps gov c (c.addPoint id a) := by
  unfold addPoint
  split
  · exact (incPoints_q gov c id a).trans (slashAndRemove_q gov _ id a .timeout)
  · exact incPoints_q gov c id a

theorem pointLoop_q (id : Nat) (vs l : List Addr) (c : Chain) : QSteps gov c (pointLoop id vs l c) := by
  induction l generalizing c with
  | nil => exact .refl _
  | cons a l ih =>
    unfold pointLoop
    split
    · exact ih c
    · exact (addPoint_q gov c id a).trans (ih _)

theorem nonVoters_q (c : Chain) (id : Nat) : QSteps gov c (c.nonVoters id) := pointLoop_q gov id _ _ c

theorem slashInvalid_q (id : Nat) (l : List Addr) (c : Chain) : QSteps gov c (slashInvalid id l c) := by
  induction l generalizing c with
  | nil => exact .refl _
  | cons a l ih => exact (slashAndRemove_q gov c id a .vote).trans (ih _)

theorem slashValid_q (id : Nat) (u : Option Addr) (l : List Addr) (c : Chain) : QSteps gov c (slashValid id u l c) := by
  induction l generalizing c with
  | nil => exact .refl _
  | cons a l ih => exact (slashAndRemove_q gov c id a _).trans (ih _)

theorem pointLate_q (c : Chain) (id : Nat) (late : Option Addr) : QSteps gov c (c.pointLate id late) := by
  unfold pointLate
  split
  · exact .refl _
  · split
    · exact addPoint_q gov c id _
    · exact .refl _

theorem kickAll_q (id : Nat) (l : List Addr) (c : Chain) : QSteps gov c (kickAll id l c) := by
  induction l generalizing c with
  | nil => exact .refl _
  | cons a l ih => exact (kick_q gov c id a).trans (ih _)

/-! ## payments -/

theorem kept_send {b b' : Bank} {s t : Acct} {x : Coins} (h : b.send s t x = .ok b')
    (hs : ∀ m, s = .mod m → m ≠ .delegation ∧ m ≠ .stakers ∧ m ≠ .funders)
    (ht : ∀ m, t = .mod m → m ≠ .delegation ∧ m ≠ .stakers ∧ m ≠ .funders)
    (hp : Micro.Payer s) (hu' : ∀ a, t ≠ .user a := by rintro a ⟨⟩) : Micro.Kept b b' := by
  have hu : ∀ a, s ≠ .user a := by
    rintro a rfl
    rcases hp with h | h | ⟨_, h⟩ <;> cases h
  refine ⟨fun a => Bank.send_ne h (hu a).symm (hu' a).symm, Bank.send_ne h ?_ ?_, Bank.send_ne h ?_ ?_, Bank.send_ne h ?_ ?_,
    Conserved.send h, OnlySpends.send h hp⟩ <;> intro e
  · exact (hs _ e.symm).1 rfl
  · exact (ht _ e.symm).1 rfl
  · exact (hs _ e.symm).2.1 rfl
  · exact (ht _ e.symm).2.1 rfl
  · exact (hs _ e.symm).2.2 rfl
  · exact (ht _ e.symm).2.2 rfl

theorem Kept.refl (b : Bank) : Micro.Kept b b := ⟨fun _ => rfl, rfl, rfl, rfl, Conserved.refl b, OnlySpends.refl _ b⟩

theorem kept_orKeep {b : Bank} {s t : Acct} {x : Coins}
    (hs : ∀ m, s = .mod m → m ≠ .delegation ∧ m ≠ .stakers ∧ m ≠ .funders)
    (ht : ∀ m, t = .mod m → m ≠ .delegation ∧ m ≠ .stakers ∧ m ≠ .funders)
    (hp : Micro.Payer s) (hu' : ∀ a, t ≠ .user a := by rintro a ⟨⟩) :
    Micro.Kept b (b.orKeep (b.send s t x)) := by
  cases h : b.send s t x with
  | error e => exact Kept.refl b
  | ok b' => exact kept_send h hs ht hp hu'

theorem orKeep_ne {b : Bank} {s t a : Acct} {x : Coins} (hs : a ≠ s) (ht : a ≠ t) :
    (b.orKeep (b.send s t x)) a = b a := by
  cases h : b.send s t x with
  | error e => rfl
  | ok b' => exact Bank.send_ne h hs ht

theorem pay_q (c : Chain) (b : Bank) (h : Bool) (hk : Micro.Kept c.b b)
    (hf : b (.mod .feeCollector) = c.b (.mod .feeCollector)) : QSteps gov c { c with b := b, halted := h } :=
  QSteps.one (c := c) (.pay b h) hk hf

/-- a result, if it is one -/
def Both (P : Chain → Prop) : Except Chain Chain → Prop
  | .ok c => P c
  | .error c => P c

theorem payDelegators_q (c : Chain) (u : Addr) (r : Reward) : Both (QSteps gov c) (c.payDelegators u r) := by
  unfold payDelegators
  cases h : Delegation.payoutRewards c.dw .pool u r.delegation with
  | error e => exact .refl _
  | ok w =>
    have := QSteps.one (gov := gov) (c := c) (.payout u r.delegation) trivial
    have e : (Quiet.payout u r.delegation).micro.run gov c = c.withDel w := by
      show c.withDel (Delegation.orElse c.dw (Delegation.payoutRewards c.dw .pool u r.delegation)) = _
      rw [h]; rfl
    rw [e] at this
    exact this

theorem Both.trans {c c' : Chain} (h : QSteps gov c c') {r : Except Chain Chain} (hr : Both (QSteps gov c') r) :
    Both (QSteps gov c) r := by
  cases r with
  | error x => exact h.trans hr
  | ok x => exact h.trans hr

theorem payUploader_q (c : Chain) (u : Addr) (r : Reward) : Both (QSteps gov c) (c.payUploader u r) := by
  unfold payUploader
  cases h : Stakers.increaseRewards c.sw .pool u (r.commission.add r.storage) with
  | error e => exact .refl _
  | ok w =>
    have := QSteps.one (gov := gov) (c := c) (.reward u (r.commission.add r.storage)) trivial
    have e : (Quiet.reward u (r.commission.add r.storage)).micro.run gov c = c.withSt w := by
      show c.withSt (Stakers.orElse c.sw (Stakers.increaseRewards c.sw .pool u (r.commission.add r.storage))) = _
      rw [h]; rfl
    rw [e] at this
    exact Both.trans gov this (payDelegators_q gov _ u r)

theorem payReward_q (c : Chain) (u : Option Addr) (r : Reward) : Both (QSteps gov c) (c.payReward u r) := by
  unfold payReward
  cases h : c.b.send (.mod .pool) (.mod .treasury) r.treasury with
  | error e => exact .refl _
  | ok b =>
    have hk : Micro.Kept c.b b := kept_send h (by rintro m ⟨⟩; decide) (by rintro m ⟨⟩; decide) (Or.inl rfl)
    have h1 : QSteps gov c { c with b := b } := pay_q gov c b c.halted hk (Bank.send_ne h (by decide) (by decide))
    cases u with
    | none => exact h1
    | some u => exact Both.trans gov h1 (payUploader_q gov _ u r)

/-! ## the tally -/

/-- every state an answer carries -/
def Out.All (P : Chain → Prop) : Out → Prop
  | .done c _ => P c
  | .failed c => P c
  | .panicked => True

theorem Out.All.trans {gov : Addr} {c c' : Chain} (h : QSteps gov c c') {o : Out} (ho : o.All (QSteps gov c')) :
    o.All (QSteps gov c) := by
  cases o with
  | done x v => exact h.trans ho
  | failed x => exact h.trans ho
  | panicked => trivial

theorem tallyPay_q (c : Chain) (id : Nat) (p : Proposal) (v : VoteDist) (total : Coins) :
    (c.tallyPay id p v total).All (QSteps gov c) := by
  unfold tallyPay
  split
  · trivial
  · rename_i r hr
    have := payReward_q gov c p.uploader r
    split
    · rename_i c' h; rw [h] at this; exact this
    · rename_i c' h; rw [h] at this; exact QSteps.trans this (slashInvalid_q gov id p.invalid c')

theorem tallyInflation_q (c : Chain) (id : Nat) (p : Proposal) (v : VoteDist) (charged : Coins) :
    (c.tallyInflation id p v charged).All (QSteps gov c) := by
  unfold tallyInflation
  split
  · trivial
  · rename_i r hr
    have hk : Micro.Kept c.b r.2.1 ∧ r.2.1 (.mod .feeCollector) = c.b (.mod .feeCollector) := by
      unfold Pool.chargeInflationPool at hr
      split at hr
      · cases hr
      · split at hr
        · cases hr
        · cases hr
          exact ⟨kept_orKeep (by rintro m ⟨⟩) (by rintro m ⟨⟩; decide) (Or.inr (Or.inr ⟨_, rfl⟩)),
            orKeep_ne (by rintro ⟨⟩) (by rintro ⟨⟩)⟩
    exact Out.All.trans (pay_q gov c r.2.1 _ hk.1 hk.2) (tallyPay_q gov _ id p v _)

theorem tallyValid_q (c : Chain) (id : Nat) (p : Proposal) (v : VoteDist) :
    (c.tallyValid id p v).All (QSteps gov c) := by
  unfold tallyValid
  split
  · exact QSteps.refl c
  · rename_i r hr
    have := QSteps.one (gov := gov) (c := c) (.charge id) trivial
    have e : (Quiet.charge id).micro.run gov c = c.withFund ⟨r.2.1, r.2.2⟩ := by
      show c.withFund (Funders.orElseC c.fw (Funders.chargeFundersOfPool c.fund c.b id)) = _
      rw [hr]; rfl
    rw [e] at this
    exact Out.All.trans this (tallyInflation_q gov _ id p v _)

theorem tallyOutcome_q (c : Chain) (id : Nat) (p : Proposal) (v : VoteDist) :
    (c.tallyOutcome id p v).All (QSteps gov c) := by
  unfold tallyOutcome
  split
  · exact tallyValid_q gov c id p v
  · exact slashValid_q gov id _ _ c
  · exact QSteps.refl c

theorem tally_q (c : Chain) (id : Nat) (p : Proposal) : (c.tally id p).All (QSteps gov c) :=
  Out.All.trans (nonVoters_q gov c id) (tallyOutcome_q gov _ id p _)

/-- the vote distribution a tally answers -/
theorem tally_dist {c c' : Chain} {id : Nat} {p : Proposal} {v : VoteDist} (h : c.tally id p = .done c' v) :
    v = (c.nonVoters id).dist id := by
  unfold tally at h
  generalize (c.nonVoters id).dist id = w at h ⊢
  generalize c.nonVoters id = x at h
  unfold tallyOutcome at h
  split at h
  · unfold tallyValid at h
    split at h
    · cases h
    · unfold tallyInflation at h
      split at h
      · cases h
      · unfold tallyPay at h
        split at h
        · cases h
        · split at h
          · cases h
          · injection h with _ h; exact h.symm
  · injection h with _ h; exact h.symm
  · injection h with _ h; exact h.symm

theorem decide_valid {x i t : Nat} (hd : Bundles.decideStatus x i t = .valid) : t < 2 * x := by
  unfold Bundles.decideStatus at hd
  split at hd
  · cases hd
  · split at hd
    · rename_i hlt
      have := Nat.mod_le (x * 2) twoPow64
      omega
    · split at hd <;> cases hd

/-- the proposal is valid only if more than half of the voting power is for it -/
theorem dist_valid {c : Chain} {id : Nat} (h : (c.dist id).status = .valid) :
    (c.dist id).total < 2 * (c.dist id).valid ∧ (c.proposal id).valid ≠ [] := by
  unfold dist at h ⊢
  unfold proposal Bundles.State.proposal
  cases hp : c.bun.proposals.get? id with
  | none => rw [hp] at h; cases h
  | some p =>
    rw [hp] at h
    have h1 : Bundles.power c.del.amount (c.members id) < 2 * Bundles.power c.del.amount (p.valid.filter (c.member id)) :=
      decide_valid h
    refine ⟨h1, ?_⟩
    intro e
    have e' : p.valid = [] := e
    rw [e'] at h1
    have : Bundles.power c.del.amount (List.filter (c.member id) []) = 0 := rfl
    omega

/-! ## messages of x/bundles -/

variable {gov}

theorem named_still {c c' : Chain} (h : Still c c') {o : Option Addr} (hn : Micro.Named c o) : Micro.Named c' o :=
  fun a ha => by rw [h.stakers]; exact hn a ha

theorem has_still {c c' : Chain} (h : Still c c') {id : Nat} (hp : c.pool.pools.has id = true) :
    c'.pool.pools.has id = true := by rw [h.pool]; exact hp

theorem finalize_has (c : Chain) (id : Nat) (v : VoteDist) (j : Nat) (hj : c.pool.pools.has j = true) :
    (c.finalize id v).pool.pools.has j = true := by
  unfold finalize
  split
  · exact hj
  · rename_i pl hpl
    show (Pool.incrementBundleInformation c.pool id _ _ _).pools.has j = true
    unfold Pool.incrementBundleInformation
    rw [hpl]
    show (c.pool.pools.set _ _).has j = true
    rw [Stakers.has_set, hj]; simp

theorem finalize_st (c : Chain) (id : Nat) (v : VoteDist) : (c.finalize id v).st = c.st := by
  unfold finalize; split <;> rfl

theorem finalize_proposal (c : Chain) (id : Nat) (v : VoteDist) (j : Nat) :
    (c.finalize id v).proposal j = c.proposal j := by
  unfold finalize; split <;> rfl

theorem finalize_now (c : Chain) (id : Nat) (v : VoteDist) : (c.finalize id v).now = c.now := by
  unfold finalize; split <;> rfl

/-- a tally, with what it says about the vote -/
theorem tally_facts {c c' : Chain} {id : Nat} {p : Proposal} {v : VoteDist} (h : c.tally id p = .done c' v) :
    QSteps gov c c' ∧ (v.status = .valid → v.total < 2 * v.valid ∧ (c.proposal id).valid ≠ []) := by
  have h1 := tally_q gov c id p
  rw [h] at h1
  refine ⟨h1, fun hv => ?_⟩
  have e := tally_dist h
  rw [e] at hv ⊢
  have := dist_valid hv
  rw [(nonVoters_q gov c id).still.proposal id] at this
  exact this

theorem pool_has {c : Chain} {id : Nat} {p : Pool.Pool} (h : c.pool.pools.get? id = some p) :
    c.pool.pools.has id = true := (Stakers.has_iff _ _).2 ⟨p, h⟩

theorem registered_staker {c : Chain} (hm : Mem c) {id : Nat} {a b : Addr} (h : Registered c id a b) :
    c.st.stakers.has a = true := by
  obtain ⟨v, hv, -⟩ := h
  exact hm id a ((Stakers.has_iff _ _).2 ⟨v, hv⟩)

theorem submitFirst_steps {c : Chain} (hm : Mem c) {m : SubmitMsg} (hp : c.pool.pools.has m.pool = true)
    (hs : c.st.stakers.has m.staker = true) (h0 : m.storageId ≠ 0) (hb : 0 < m.bundleSize) :
    JSteps gov c (c.submitFirst m) :=
  (JSteps.one (c := c) (.progress m.pool (c.choice m.pool []).2) ⟨_, rfl⟩).tail (.register m (c.choice m.pool []).1)
    ⟨hp, hs, hm.named_choice m.pool [], h0, hb⟩

theorem submitNext_steps {c : Chain} (hm : Mem c) {m : SubmitMsg} {p : Proposal} {v : VoteDist}
    (hp : c.pool.pools.has m.pool = true) (hs : c.st.stakers.has m.staker = true) (h0 : m.storageId ≠ 0)
    (hb : 0 < m.bundleSize) (hf : (c.proposal m.pool).storageId ≠ 0) (hv : v.total < 2 * v.valid) :
    JSteps gov c (c.submitNext m p v) := by
  have h1 := (JSteps.one (gov := gov) (c := c) (.progress m.pool (c.choiceFrom m.pool p.valid).2) ⟨_, rfl⟩).tail
    (.finalize m.pool v) ⟨hp, hf, hv⟩
  refine h1.tail (.register m (c.choiceFrom m.pool p.valid).1) ⟨?_, ?_, ?_, h0, hb⟩
  · exact finalize_has _ _ _ _ hp
  · show (finalize _ _ _).st.stakers.has _ = true
    rw [finalize_st]; exact hs
  · intro a ha
    show (finalize _ _ _).st.stakers.has _ = true
    rw [finalize_st]; exact hm.named_choiceFrom m.pool p.valid a ha

theorem submit_steps {c c' : Chain} (hm : Mem c) {m : SubmitMsg} (h : c.submit m = .ok c') : JSteps gov c c' := by
  obtain ⟨h1, h2, h3⟩ := submit_ok h
  obtain ⟨p, hp, hr, hn, -, -⟩ := canPropose_none h1
  obtain ⟨q, hq, hs0, hb, -, -, -, -⟩ := submitArgs_none h2
  have hst := registered_staker hm hr
  have hpool := pool_has hp.found
  have q0 := resetPoints_q gov c m.pool m.staker
  have s0 := q0.still
  refine q0.jsteps.trans ?_
  have hm0 := s0.mem hm
  have hp0 := has_still s0 hpool
  have hst0 : (c.resetPoints m.pool m.staker).st.stakers.has m.staker = true := by rw [s0.stakers]; exact hst
  have hn0 : ((c.resetPoints m.pool m.staker).proposal m.pool).nextUploader = some m.staker := by
    rw [s0.proposal]; exact hn
  generalize c.resetPoints m.pool m.staker = x at *
  unfold submitGo at h3
  split at h3
  · cases h3
    exact submitFirst_steps hm0 hp0 hst0 hs0 hb
  · rename_i hsto
    cases ht : x.tally m.pool (x.proposal m.pool) with
    | panicked => rw [ht] at h3; cases h3
    | failed y => rw [ht] at h3; cases h3
    | done y v =>
      rw [ht] at h3
      obtain ⟨q1, hv⟩ := tally_facts (gov := gov) ht
      have s1 := q1.still
      refine q1.jsteps.trans ?_
      have hst1 : y.st.stakers.has m.staker = true := by rw [s1.stakers]; exact hst0
      unfold submitTallied at h3
      split at h3
      · cases h3
      · cases h3
      · rename_i z w heq
        injection heq with e1 e2
        subst e1; subst e2
        split at h3
        · rename_i hval
          cases h3
          exact submitNext_steps (s1.mem hm0) (has_still s1 hp0) hst1 hs0 hb (by rw [s1.proposal]; exact hsto)
            (hv hval).1
        · cases h3
          refine JSteps.one (c := y) (.blank m.pool (x.proposal m.pool).nextUploader) ⟨has_still s1 hp0, ?_⟩
          intro a ha
          rw [hn0] at ha
          cases ha
          exact hst1
        · cases h3

theorem vote_steps {c c' : Chain} (hm : Mem c) {m : VoteMsg} (h : c.vote m = .ok c') : JSteps gov c c' := by
  obtain ⟨h1, p, hp, rfl⟩ := vote_ok h
  obtain ⟨⟨pl, hpl⟩, hr, h0, -, hv, hi⟩ := canVote_none h1
  have := JSteps.one (gov := gov) (c := c) (.cast m.pool m.staker m.vote)
    ⟨pool_has hpl.found, registered_staker hm hr, h0, hv, hi⟩
  have e : (Micro.cast m.pool m.staker m.vote).run gov c = c.setProposal m.pool p := by
    show c.setProposal m.pool (Micro.castOr _ _ _) = _
    unfold Micro.castOr; rw [hp]
  rw [e] at this
  exact this.trans (resetPoints_q gov _ _ _).jsteps

theorem skipOutcome_steps {c : Chain} {id : Nat} {v : VoteDist} {next : Option Addr}
    (hp : c.pool.pools.has id = true) (hn : Micro.Named c next)
    (hv : v.status = .valid → v.total < 2 * v.valid ∧ (c.proposal id).storageId ≠ 0) :
    JSteps gov c (c.skipOutcome id (c.proposal id) v next) := by
  unfold skipOutcome
  split
  · rename_i hs
    have h1 := JSteps.one (gov := gov) (c := c) (.finalize id v) ⟨hp, (hv hs).2, (hv hs).1⟩
    refine h1.snoc (.blank id next) ⟨finalize_has c id v id hp, ?_⟩ ?_
    · intro a ha
      show (c.finalize id v).st.stakers.has a = true
      rw [finalize_st]; exact hn a ha
    · show (c.finalize id v).setProposal id (Proposal.blank next (c.finalize id v).now) = _
      rw [finalize_now]
  · exact JSteps.one (c := c) (.blank id next) ⟨hp, hn⟩
  · exact JSteps.one (c := c) (.next id next c.now) ⟨hp, hn, Or.inr rfl⟩

theorem skip_steps {c c' : Chain} (hs : Sound c) {m : SkipMsg} (h : c.skip m = .ok c') : JSteps gov c c' := by
  have hm : Mem c := hs.mem
  obtain ⟨h1, h3⟩ := skip_ok h
  obtain ⟨p, hp, hr, hn, -, -⟩ := canPropose_none h1
  have hpool := pool_has hp.found
  have q0 := resetPoints_q gov c m.pool m.staker
  have s0 := q0.still
  refine q0.jsteps.trans ?_
  have hm0 := s0.mem hm
  have hp0 := has_still s0 hpool
  have hp1 := s0.proposal m.pool
  have hv0 : (c.proposal m.pool).storageId = 0 → (c.proposal m.pool).valid = [] := hs.votes m.pool
  rw [← hp1] at h3 hv0
  generalize c.resetPoints m.pool m.staker = x at *
  cases ht : x.tally m.pool (x.proposal m.pool) with
  | panicked => rw [ht] at h3; cases h3
  | failed y => rw [ht] at h3; cases h3
  | done y v =>
    rw [ht] at h3
    obtain ⟨q1, hv⟩ := tally_facts (gov := gov) ht
    have s1 := q1.still
    refine q1.jsteps.trans ?_
    unfold skipTallied at h3
    cases h3
    have h4 := JSteps.one (gov := gov) (c := y) (.progress m.pool (y.choice m.pool [m.staker]).2) ⟨_, rfl⟩
    refine h4.trans ?_
    have e : x.proposal m.pool = (y.setProgress m.pool (y.choice m.pool [m.staker]).2).proposal m.pool :=
      (s1.proposal m.pool).symm
    rw [e]
    refine skipOutcome_steps (has_still s1 hp0) ((s1.mem hm0).named_choice m.pool [m.staker]) ?_
    intro hval
    refine ⟨(hv hval).1, ?_⟩
    show ((y.setProgress m.pool (y.choice m.pool [m.staker]).2).proposal m.pool).storageId ≠ 0
    rw [← e]
    intro h0
    exact (hv hval).2 (hv0 h0)

theorem claim_steps {c c' : Chain} (hm : Mem c) {a b : Addr} {id : Nat} (h : c.claim a b id = .ok c') :
    JSteps gov c c' := by
  obtain ⟨⟨p, hp⟩, hr, -, rfl⟩ := claim_ok h
  refine JSteps.one (c := c) (.next id (some b) c.now) ⟨pool_has hp.found, ?_, Or.inr rfl⟩
  intro x hx
  cases hx
  exact registered_staker hm hr

/-! ## end block -/

/-- what an end block of x/bundles keeps -/
structure Tame (c c' : Chain) : Prop where
  now : c'.now = c.now
  crashed : c'.crashed = c.crashed
  pool : ∀ id, c.pool.pools.has id = true → c'.pool.pools.has id = true
  stakers : ∀ a, c'.st.stakers.has a = c.st.stakers.has a
  member : ∀ id a, c'.member id a = true → c.member id a = true

theorem Tame.refl (c : Chain) : Tame c c := ⟨rfl, rfl, fun _ h => h, fun _ => rfl, fun _ _ h => h⟩
theorem Tame.trans {c c' c'' : Chain} (h : Tame c c') (h' : Tame c' c'') : Tame c c'' :=
  ⟨h'.now.trans h.now, h'.crashed.trans h.crashed, fun id x => h'.pool id (h.pool id x),
   fun a => (h'.stakers a).trans (h.stakers a), fun id a x => h.member id a (h'.member id a x)⟩
theorem Still.tame {c c' : Chain} (h : Still c c') : Tame c c' :=
  ⟨h.now, h.crashed, fun _ x => by rw [h.pool]; exact x, h.stakers, h.member⟩
theorem Tame.mem {c c' : Chain} (h : Tame c c') (hm : Mem c) : Mem c' :=
  fun id a x => by rw [h.stakers]; exact hm id a (h.member id a x)
theorem tame_bun (c : Chain) (s : Bundles.State) : Tame c { c with bun := s } :=
  ⟨rfl, rfl, fun _ h => h, fun _ => rfl, fun _ _ h => h⟩
theorem tame_finalize (c : Chain) (id : Nat) (v : VoteDist) : Tame c (c.finalize id v) := by
  refine ⟨finalize_now c id v, ?_, fun j hj => finalize_has c id v j hj, fun a => by rw [finalize_st],
    fun i a h => ?_⟩
  · unfold finalize; split <;> rfl
  · unfold member at h ⊢; rw [finalize_st] at h; exact h

theorem visitStopped_steps {c : Chain} {id : Nat} (hp : c.pool.pools.has id = true) (e : RunErr) :
    JSteps gov c (c.visitStopped id e) ∧ Tame c (c.visitStopped id e) := by
  unfold visitStopped
  split
  · exact ⟨JSteps.one (c := c) (.blank id none) ⟨hp, fun _ h => by cases h⟩, tame_bun _ _⟩
  · split
    · exact ⟨JSteps.one (c := c) (.next id none (c.proposal id).updatedAt) ⟨hp, (fun _ h => by cases h), Or.inl rfl⟩,
        tame_bun _ _⟩
    · exact ⟨.refl _, Tame.refl _⟩

theorem visitNoQuorum_steps {c : Chain} {id : Nat} (hm : Mem c) (hp : c.pool.pools.has id = true) :
    JSteps gov c (c.visitNoQuorum id) ∧ Tame c (c.visitNoQuorum id) := by
  have q := nonVoters_q gov c id
  have s := q.still
  unfold visitNoQuorum
  generalize c.nonVoters id = x at *
  refine ⟨?_, (Still.tame s).trans ((tame_bun x _).trans (tame_bun _ _))⟩
  refine q.jsteps.trans ?_
  exact (JSteps.one (gov := gov) (c := x) (.progress id (x.choice id []).2) ⟨_, rfl⟩).tail (.blank id (x.choice id []).1)
    ⟨has_still s hp, (s.mem hm).named_choice id []⟩

theorem visitValid_steps {c : Chain} {id : Nat} (hm : Mem c) (hp : c.pool.pools.has id = true) (p : Proposal)
    {v : VoteDist} (hs : (c.proposal id).storageId ≠ 0) (hv : v.total < 2 * v.valid) :
    JSteps gov c (c.visitValid id p v) ∧ Tame c (c.visitValid id p v) := by
  unfold visitValid
  refine ⟨?_, (tame_bun c _).trans ((tame_finalize _ _ _).trans (tame_bun _ _))⟩
  have h1 := (JSteps.one (gov := gov) (c := c) (.progress id (c.choiceFrom id p.valid).2) ⟨_, rfl⟩).tail
    (.finalize id v) ⟨hp, hs, hv⟩
  refine h1.snoc (.blank id (c.choiceFrom id p.valid).1) ⟨finalize_has _ _ _ _ hp, ?_⟩ ?_
  · intro a ha
    show (finalize _ _ _).st.stakers.has _ = true
    rw [finalize_st]; exact hm.named_choiceFrom id p.valid a ha
  · show (finalize _ _ _).setProposal id (Proposal.blank _ (finalize _ _ _).now) = _
    rw [finalize_now]; rfl

theorem visitOther_steps {c : Chain} {id : Nat} (hm : Mem c) (hp : c.pool.pools.has id = true) :
    JSteps gov c (c.visitOther id) ∧ Tame c (c.visitOther id) :=
  ⟨(JSteps.one (gov := gov) (c := c) (.progress id (c.choice id []).2) ⟨_, rfl⟩).tail (.blank id (c.choice id []).1)
    ⟨hp, hm.named_choice id []⟩, (tame_bun c _).trans (tame_bun _ _)⟩

theorem visitTimeout_steps {c c' : Chain} {id interval : Nat} (hm : Mem c) (hp : c.pool.pools.has id = true)
    (h : c.visitTimeout id interval = some c') : JSteps gov c c' ∧ Tame c c' := by
  unfold visitTimeout at h
  split at h
  · cases h; exact ⟨.refl _, Tame.refl _⟩
  · split at h
    · rename_i hsto
      cases ht : c.tally id (c.proposal id) with
      | panicked => rw [ht] at h; cases h
      | failed y =>
        rw [ht] at h
        cases h
        have := tally_q gov c id (c.proposal id)
        rw [ht] at this
        exact ⟨QSteps.jsteps this, Still.tame (QSteps.still this)⟩
      | done y v =>
        rw [ht] at h
        cases h
        obtain ⟨q1, hv⟩ := tally_facts (gov := gov) ht
        have s1 := q1.still
        have hx : JSteps gov y (if v.status = .valid then y.visitValid id (c.proposal id) v else y.visitOther id) ∧
            Tame y (if v.status = .valid then y.visitValid id (c.proposal id) v else y.visitOther id) := by
          split
          · rename_i hval
            exact visitValid_steps (s1.mem hm) (has_still s1 hp) _ (by rw [s1.proposal]; exact hsto) (hv hval).1
          · exact visitOther_steps (s1.mem hm) (has_still s1 hp)
        have q2 := pointLate_q gov (if v.status = .valid then y.visitValid id (c.proposal id) v else y.visitOther id) id
          (c.proposal id).nextUploader
        exact ⟨(q1.jsteps.trans hx.1).trans q2.jsteps, (Still.tame s1).trans (hx.2.trans (Still.tame q2.still))⟩
    · cases h
      unfold visitEmpty
      have h1 := (JSteps.one (gov := gov) (c := c) (.progress id (c.choice id []).2) ⟨_, rfl⟩).tail
        (.next id (c.choice id []).1 c.now) ⟨hp, hm.named_choice id [], Or.inr rfl⟩
      have q2 := pointLate_q gov ((c.setProgress id (c.choice id []).2).setProposal id
        { c.proposal id with nextUploader := (c.choice id []).1, updatedAt := c.now }) id (c.proposal id).nextUploader
      exact ⟨h1.trans q2.jsteps, ((tame_bun c _).trans (tame_bun _ _)).trans (Still.tame q2.still)⟩

theorem visit_steps {c c' : Chain} {id interval : Nat} (hm : Mem c) (hp : c.pool.pools.has id = true)
    (h : c.visit id interval = some c') : JSteps gov c c' ∧ Tame c c' := by
  unfold visit at h
  split at h
  · cases h; exact visitStopped_steps hp _
  · unfold visitRunning at h
    split at h
    · cases h; exact ⟨.refl _, Tame.refl _⟩
    · split at h
      · cases h; exact visitNoQuorum_steps hm hp
      · exact visitTimeout_steps hm hp h

theorem visits_steps (l : List (Nat × Pool.Pool)) {c c' : Chain} (hm : Mem c)
    (hp : ∀ e ∈ l, c.pool.pools.has e.1 = true) (h : visits l c = some c') : JSteps gov c c' ∧ Tame c c' := by
  induction l generalizing c with
  | nil => cases h; exact ⟨.refl _, Tame.refl _⟩
  | cons e l ih =>
    unfold visits at h
    split at h
    · cases h
    · rename_i x hx
      obtain ⟨h1, t1⟩ := visit_steps (gov := gov) hm (hp e (by simp)) hx
      obtain ⟨h2, t2⟩ := ih (t1.mem hm) (fun e' he' => t1.pool _ (hp e' (by simp [he']))) h
      exact ⟨h1.trans h2, t1.trans t2⟩

theorem endBlock_steps {c : Chain} (hm : Mem c) : JSteps gov c c.endBlock := by
  unfold endBlock
  have h1 : JSteps gov c c.upgradePools := JSteps.one (c := c) (.pool .endBlock) trivial
  split
  · rename_i c' h
    refine h1.trans (visits_steps (gov := gov) _ (c := c.upgradePools) hm ?_ h).1
    intro e he
    exact (Stakers.has_iff _ _).2 ⟨e.2, (Map.mem_iff _ _ _).1 he⟩
  · exact JSteps.one (c := c) .crash trivial

/-! ## begin block -/

theorem Kept.trans {b b' b'' : Bank} (h : Micro.Kept b b') (h' : Micro.Kept b' b'') : Micro.Kept b b'' :=
  ⟨fun a => (h'.user a).trans (h.user a), h'.del.trans h.del, h'.st.trans h.st, h'.fund.trans h.fund,
    h.sum.trans h'.sum, h.low.trans h'.low⟩

theorem inflTransfers_eq (l : List (Nat × Nat)) {c c' : Chain} (h : inflTransfers l c = some c') :
    ∃ b hl, c' = { c with b := b, halted := hl } ∧ Micro.Kept c.b b := by
  induction l generalizing c with
  | nil => injection h with h; subst h; exact ⟨c.b, c.halted, rfl, Kept.refl _⟩
  | cons t l ih =>
    unfold inflTransfers at h
    split at h
    · cases h
    · rename_i x hx
      unfold inflTransfer at hx
      split at hx
      · cases hx
        obtain ⟨b, hl, e, hk⟩ := ih h
        exact ⟨b, hl, e, Kept.trans (kept_orKeep (by rintro m ⟨⟩; decide) (by rintro m ⟨⟩) (Or.inr (Or.inl rfl))) hk⟩
      · cases hx

theorem splitInflation_eq {c c' : Chain} {pr te : Nat} (h : c.splitInflation pr te = some c') :
    ∃ b hl, c' = { c with b := b, halted := hl } ∧ Micro.Kept c.b b := inflTransfers_eq _ h

theorem block_steps (c : Chain) {b : Bank} (hl : Bool) (hk : Micro.Kept c.b b) (dt : Nat) (r : Bool) :
    Steps gov c (queues { c.newBlock dt r with b := b, halted := hl } r) :=
  (Steps.one (gov := gov) (c := c) (.pay b hl) hk).tail (.block dt r) trivial

theorem crash_steps (c : Chain) : Steps gov c { c with crashed := true } := Steps.one (c := c) .crash trivial

theorem block_steps' {c c' : Chain} {dt : Nat} {r : Bool}
    (h : ∃ b hl, c' = { c.newBlock dt r with b := b, halted := hl } ∧ Micro.Kept c.b b) :
    Steps gov c (c'.queues r) := by
  obtain ⟨b, hl, rfl, hk⟩ := h
  exact block_steps c hl hk dt r

theorem afterSplit_steps {c : Chain} {dt : Nat} {r : Bool} {o : Option Chain}
    (h : ∀ c', o = some c' → ∃ b hl, c' = { c.newBlock dt r with b := b, halted := hl } ∧ Micro.Kept c.b b) :
    Steps gov c (c.afterSplit r o) := by
  cases o with
  | some c' => exact block_steps' (h c' rfl)
  | none => exact crash_steps c

theorem beginBlock_steps (c : Chain) (dt pr te : Nat) (r : Bool) : Steps gov c (c.beginBlock dt pr te r) :=
  afterSplit_steps (dt := dt) (fun _ ho => splitInflation_eq ho)

/-! ## the other messages -/

theorem map_ok {α β : Type} {r : Except String α} {f : α → β} {y : β} (h : r.map f = .ok y) :
    ∃ x, r = .ok x ∧ y = f x := by
  cases r with
  | error e => cases h
  | ok x => injection h with h; exact ⟨x, rfl, h.symm⟩

theorem st_steps {c : Chain} (op : Stakers.Op) (ho : Micro.StOk op) {s : Stakers.State}
    (h : (Stakers.Sys.step gov ⟨c.sw, c.now⟩ op).w = ⟨s, c.b⟩) : Steps gov c { c with st := s } := by
  have := Steps.one (gov := gov) (c := c) (.st op) ho
  have e : (Micro.st op).run gov c = { c with st := s } := by
    show c.withSt _ = _
    rw [h]; rfl
  rw [e] at this
  exact this

theorem del_steps {c : Chain} (act : Delegation.Act) (ho : Micro.DelOk c act) {w : Delegation.World}
    (h : ((⟨c.dw, c.now⟩ : Delegation.Sys).step gov act).w = w) : Steps gov c (c.withDel w) := by
  have := Steps.one (gov := gov) (c := c) (.del act) ho
  have e : (Micro.del act).run gov c = c.withDel w := by
    show c.withDel _ = _
    rw [h]
  rw [e] at this
  exact this

theorem pool_steps {c : Chain} (op : Pool.Op) (ho : Micro.PoolOk c op) {s : Pool.State}
    (h : Pool.step gov c.pool c.now op = s) : Steps gov c { c with pool := s } := by
  have := Steps.one (gov := gov) (c := c) (.pool op) ho
  have e : (Micro.pool op).run gov c = { c with pool := s } := by
    show ({ c with pool := Pool.step gov c.pool c.now op } : Chain) = _
    rw [h]
  rw [e] at this
  exact this

theorem fund_steps {c : Chain} (op : Funders.Op) (ho : Micro.FundOk c op) {w : Funders.World}
    (h : Funders.step gov c.fw op = w) : Steps gov c { c with fund := w.s, b := w.b } := by
  have := Steps.one (gov := gov) (c := c) (.fund op) ho
  have e : (Micro.fund op).run gov c = { c with fund := w.s, b := w.b } := by
    show c.withFund _ = _
    rw [h]; rfl
  rw [e] at this
  exact this

theorem createStaker_steps {c c' : Chain} {a : Addr} {k : Dec} {n : Nat} (h : c.createStaker a k n = .ok c') :
    Steps gov c c' := by
  unfold createStaker at h
  split at h
  · cases h
  · rename_i s hs
    split at h
    · cases h
    · rename_i w hw
      cases h
      have h1 : Steps gov c { c with st := s } :=
        st_steps (.createStaker a k true) trivial (by
          show Stakers.orElseS _ (Stakers.createStaker c.st a k true) = _
          rw [hs]; rfl)
      have hh : s.stakers.has a = true := by
        unfold Stakers.createStaker at hs
        split at hs
        · cases hs
        · split at hs
          · cases hs
          · split at hs
            · cases hs
            · cases hs
              show (c.st.stakers.set a _).has a = true
              rw [Stakers.has_set]; simp
      have h2 : Steps gov { c with st := s } (({ c with st := s } : Chain).withDel w) :=
        del_steps (c := { c with st := s }) (.delegate true a a n) (show true = s.stakers.has a from hh.symm) (by
          show Delegation.orElse _ (Delegation.delegateMsg c.dw true a a n) = _
          rw [hw]; rfl)
      exact h1.trans h2

theorem kickAll_pool (id : Nat) (l : List Addr) (c : Chain) (s : Pool.State) :
    kickAll id l { c with pool := s } = { kickAll id l c with pool := s } := by
  induction l generalizing c with
  | nil => rfl
  | cons a l ih => exact ih (c.kick id a)

theorem kickAll_member (id : Nat) (l : List Addr) (c : Chain) (j : Nat) (a : Addr) :
    (kickAll id l c).member j a = true ↔ c.member j a = true ∧ ¬ (j = id ∧ a ∈ l) := by
  induction l generalizing c with
  | nil => simp [kickAll]
  | cons x l ih =>
    show (kickAll id l (c.kick id x)).member j a = true ↔ _
    rw [ih]
    have e : (c.kick id x).member j a = (decide ((j, a) ≠ (id, x)) && c.member j a) := by
      show (c.st.kick c.now id x).vals.has (j, a) = _
      rw [Stakers.kick_vals, Stakers.has_del]; rfl
    rw [e]
    simp only [Bool.and_eq_true, decide_eq_true_eq, ne_eq, Prod.mk.injEq, List.mem_cons]
    tauto

theorem kickAll_empty (id : Nat) (c : Chain) : (kickAll id (c.members id) c).members id = [] := by
  apply List.eq_nil_iff_forall_not_mem.2
  intro a ha
  rw [mem_members, kickAll_member] at ha
  exact ha.2 ⟨rfl, mem_members.2 ha.1⟩

theorem kickAll_pool_eq (id : Nat) (l : List Addr) (c : Chain) :
    (kickAll id l c).pool = c.pool := by
  induction l generalizing c with
  | nil => rfl
  | cons a l ih => exact (ih _).trans rfl

theorem disablePool_steps {c c' : Chain} {a : Addr} {id : Nat} (h : disablePool gov c a id = .ok c') :
    Steps gov c c' := by
  unfold disablePool at h
  split at h
  · cases h
  · rename_i s hs
    have h2 := kickAll_q gov id (c.members id) c
    have h1 : Steps gov (kickAll id (c.members id) c) { kickAll id (c.members id) c with pool := s } :=
      pool_steps (.disable a id) (kickAll_empty id c) (by
        show Pool.orElse _ (Pool.disable gov (kickAll id (c.members id) c).pool a id) = _
        rw [kickAll_pool_eq, hs]; rfl)
    refine h2.steps.trans (h1.trans ?_)
    rw [kickAll_pool] at h
    generalize ({ kickAll id (c.members id) c with pool := s } : Chain) = x at h ⊢
    unfold drain at h
    split at h
    · cases h; exact .refl _
    · split at h
      · cases h
      · split at h
        · cases h
        · rename_i b hb
          cases h
          exact (pay_q gov x b x.halted (kept_send hb (by rintro m ⟨⟩) (by rintro m ⟨⟩; decide) (Or.inr (Or.inr ⟨_, rfl⟩)))
            (Bank.send_ne hb (by rintro ⟨⟩) (by rintro ⟨⟩))).steps

/-- every operation is a sequence of small steps -/
theorem exec_steps {c c' : Chain} (hs : Sound c) {op : Op} (h : exec gov c op = .ok c') : Steps gov c c' := by
  cases op with
  | submit m => exact (submit_steps hs.mem h).steps
  | vote m => exact (vote_steps hs.mem h).steps
  | skip m => exact (skip_steps hs h).steps
  | claim a b id => exact (claim_steps hs.mem h).steps
  | createStaker a k n => exact createStaker_steps h
  | join m =>
    have := Steps.one (gov := gov) (c := c) (.join m) ⟨hs.amt, c', h⟩
    have e : (Micro.join m).run gov c = c' := by
      show c.orElse (c.join m) = c'
      rw [show c.join m = .ok c' from h]; rfl
    rw [e] at this
    exact this
  | leave a id =>
    obtain ⟨s, hr, rfl⟩ := map_ok h
    exact st_steps (.leave a id) trivial (by
      show Stakers.orElseS _ (Stakers.leavePool c.st c.now id a) = _
      rw [hr]; rfl)
  | updateCommission a k =>
    obtain ⟨s, hr, rfl⟩ := map_ok h
    exact st_steps (.updateCommission a k) trivial (by
      show Stakers.orElseS _ (Stakers.updateCommission c.st c.now a k) = _
      rw [hr]; rfl)
  | updateMetadata a i v =>
    obtain ⟨s, hr, rfl⟩ := map_ok h
    exact st_steps (.updateMetadata a i v) trivial (by
      show Stakers.orElseS _ (Stakers.updateMetadata c.st a i v) = _
      rw [hr]; rfl)
  | claimRewards a x =>
    obtain ⟨w, hr, rfl⟩ := map_ok h
    have := Steps.one (gov := gov) (c := c) (.st (.claim a x)) trivial
    have e : (Micro.st (.claim a x)).run gov c = c.withSt w := by
      show c.withSt (Stakers.orElse c.sw (Stakers.claimRewards c.sw a x)) = _
      rw [hr]; rfl
    rw [e] at this
    exact this
  | delegate a st n =>
    obtain ⟨w, hr, rfl⟩ := map_ok h
    exact del_steps (.delegate (c.st.stakers.has st) a st n) rfl (by
      show Delegation.orElse _ (Delegation.delegateMsg c.dw (c.st.stakers.has st) a st n) = _
      rw [hr]; rfl)
  | redelegate m =>
    obtain ⟨w, hr, rfl⟩ := map_ok h
    exact del_steps (.redelegate (c.st.stakers.has m.dst) (!(c.st.valsOf m.dst).isEmpty) m) ⟨rfl, rfl⟩ (by
      show Delegation.orElse _ (Delegation.redelegateMsg c.dw c.now _ _ m) = _
      rw [hr]; rfl)
  | undelegate a st n =>
    obtain ⟨w, hr, rfl⟩ := map_ok h
    exact del_steps (.undelegate a st n) trivial (by
      show Delegation.orElse _ (Delegation.undelegateMsg c.dw c.now a st n) = _
      rw [hr]; rfl)
  | withdraw a st =>
    obtain ⟨w, hr, rfl⟩ := map_ok h
    exact del_steps (.withdraw a st) trivial (by
      show Delegation.orElse _ (Delegation.withdrawMsg c.dw a st) = _
      rw [hr]; rfl)
  | createFunder a =>
    obtain ⟨s, hr, rfl⟩ := map_ok h
    exact fund_steps (.createFunder a) trivial (w := ⟨s, c.b⟩) (by
      show Funders.orElseS _ (Funders.createFunder c.fund a) = _
      rw [hr]; rfl)
  | fund m =>
    obtain ⟨r, hr, rfl⟩ := map_ok h
    exact fund_steps (.fund (c.pool.pools.has m.pool) m) rfl (w := ⟨r.1, r.2⟩) (by
      show Funders.orElse _ (Funders.fundPool c.fund c.b (c.pool.pools.has m.pool) m) = _
      rw [hr]; rfl)
  | defund m =>
    obtain ⟨r, hr, rfl⟩ := map_ok h
    exact fund_steps (.defund m) trivial (w := ⟨r.1, r.2⟩) (by
      show Funders.orElse _ (Funders.defundPool c.fund c.b m) = _
      rw [hr]; rfl)
  | createPool m =>
    have := Steps.one (gov := gov) (c := c) (.createPool m) ⟨c', h⟩
    have e : (Micro.createPool m).run gov c = c' := by
      show c.orElse (createPool gov c m) = c'
      rw [show createPool gov c m = .ok c' from h]; rfl
    rw [e] at this
    exact this
  | updatePool a id u =>
    obtain ⟨s, hr, rfl⟩ := map_ok h
    exact pool_steps (.update a id u) trivial (by
      show Pool.orElse _ (Pool.update gov c.pool a id u) = _
      rw [hr]; rfl)
  | enablePool a id =>
    obtain ⟨s, hr, rfl⟩ := map_ok h
    exact pool_steps (.enable a id) trivial (by
      show Pool.orElse _ (Pool.enable gov c.pool a id) = _
      rw [hr]; rfl)
  | disablePool a id => exact disablePool_steps h
  | scheduleUpgrade m =>
    obtain ⟨s, hr, rfl⟩ := map_ok h
    exact pool_steps (.schedule m) trivial (by
      show Pool.orElse _ (Pool.schedule gov c.pool c.now m) = _
      rw [hr]; rfl)
  | cancelUpgrade a r =>
    obtain ⟨s, hr, rfl⟩ := map_ok h
    exact pool_steps (.cancel a r) trivial (by
      show Pool.orElse _ (Pool.cancel gov c.pool a r) = _
      rw [hr]; rfl)
  | bundlesParams a y =>
    have := Steps.one (gov := gov) (c := c) (.bundlesParams a y) trivial
    have e : (Micro.bundlesParams a y).run gov c = c' := by
      show c.orElse _ = c'
      rw [show (Bundles.updateParams gov c.bun a y).map (fun s => { c with bun := s }) = .ok c' from h]; rfl
    rw [e] at this
    exact this
  | delegationParams a y =>
    obtain ⟨w, hr, rfl⟩ := map_ok h
    exact del_steps (.updateParams a y) trivial (by
      show Delegation.orElse _ (Delegation.updateParams gov c.dw a y) = _
      rw [hr]; rfl)
  | stakersParams a y =>
    obtain ⟨s, hr, rfl⟩ := map_ok h
    exact st_steps (.updateParams a y) trivial (by
      show Stakers.orElseS _ (Stakers.updateParams gov c.st a y) = _
      rw [hr]; rfl)
  | poolParams a y =>
    obtain ⟨s, hr, rfl⟩ := map_ok h
    exact pool_steps (.updateParams a y) trivial (by
      show Pool.orElse _ (Pool.updateParams gov c.pool a y) = _
      rw [hr]; rfl)
  | fundersParams a p =>
    obtain ⟨s, hr, rfl⟩ := map_ok h
    exact fund_steps (.updateParams a p) trivial (w := ⟨s, c.b⟩) (by
      show Funders.orElseS _ (Funders.updateParams gov c.fund a p) = _
      rw [hr]; rfl)
  | beginBlock dt pr te r => injection h with h; exact h ▸ beginBlock_steps c dt pr te r
  | endBlock => injection h with h; exact h ▸ (endBlock_steps hs.mem).steps
  | external b gd gs gf => injection h with h; exact h ▸ Steps.one (c := c) (.external b gd gs gf) trivial

/-- every step of the chain is a sequence of small steps -/
theorem step_steps {c : Chain} (hs : Sound c) (op : Op) : Steps gov c (c.step gov op) := by
  unfold step
  split
  · exact .refl _
  · cases h : exec gov c op with
    | error e => exact .refl _
    | ok c' => exact exec_steps hs h

end Chain
end Verif.Chain
