import Verif.Chain.Votes
import Verif.Chain.Invariant
import Verif.Chain.Supply
import Verif.Chain.SampleReach

/-!
# C98, C99: restarts and the order of votes
-/

set_option linter.dupNamespace false

namespace Verif.Chain
open Verif
open Verif.Bundles (Proposal FBundle VoteDist Status Reward NoOverflow)

/-! ## Specification -/

/-- Specification: the same proposal, except for the order of the vote lists (`R` says which orders count as the same). -/
structure SameProposal (R : List Addr → List Addr → Prop) (p p' : Proposal) : Prop where
  valid : R p.valid p'.valid
  invalid : R p.invalid p'.invalid
  abstain : R p.abstain p'.abstain
  rest : { p with valid := p'.valid, invalid := p'.invalid, abstain := p'.abstain } = p'

/-- Specification: the two nodes store the same on disk.  Nothing is said about the memory stores (the ranking of the
stakers by delegation, the index of the bundles by data index). -/
structure SameStore (R : List Addr → List Addr → Prop) (c c' : Chain) : Prop where
  balances : c.b = c'.b
  time : c.now = c'.now
  pools : c.pool = c'.pool
  funders : c.fund = c'.fund
  stakers : c.st.stakers = c'.st.stakers
  valaccounts : c.st.vals = c'.st.vals ∧ c.st.valIdx = c'.st.valIdx ∧ c.st.counts = c'.st.counts ∧ c.st.active = c'.st.active
  commissionQueue : c.st.changes = c'.st.changes ∧ c.st.changeIdx = c'.st.changeIdx ∧ c.st.cLow = c'.st.cLow ∧
    c.st.cHigh = c'.st.cHigh
  leaveQueue : c.st.leaves = c'.st.leaves ∧ c.st.leaveIdx = c'.st.leaveIdx ∧ c.st.lLow = c'.st.lLow ∧ c.st.lHigh = c'.st.lHigh
  stakersParams : c.st.params = c'.st.params
  delegations : c.del.f1 = c'.del.f1
  unbondings : c.del.queue = c'.del.queue ∧ c.del.low = c'.del.low ∧ c.del.high = c'.del.high
  spells : c.del.spells = c'.del.spells
  delegationParams : c.del.params = c'.del.params
  proposals : ∀ id, (c.bun.proposals.get? id = none ↔ c'.bun.proposals.get? id = none) ∧
    ∀ p p', c.bun.proposals.get? id = some p → c'.bun.proposals.get? id = some p' → SameProposal R p p'
  bundles : c.bun.finalized = c'.bun.finalized
  rotation : c.bun.progress = c'.bun.progress
  bundlesParams : c.bun.params = c'.bun.params
  halted : c.halted = c'.halted ∧ c.del.halted = c'.del.halted
  crashed : c.crashed = c'.crashed

/-- Specification: x/delegation has called for an emergency stop (its account can not pay, see C12), or the node is
down. -/
def Down (c : Chain) : Prop := c.del.halted = true ∨ c.crashed = true

namespace Chain

/-- Specification: the answer to a message: nothing, or an error -/
def answer (gov : Addr) (c : Chain) (op : Op) : Option String :=
  if c.crashed then some "no answer" else match exec gov c op with
    | .ok _ => none
    | .error e => some e

/-- Specification: all answers of a history -/
def answers (gov : Addr) (c : Chain) : List Op → List (Option String)
  | [] => []
  | op :: l => c.answer gov op :: answers gov (c.step gov op) l

/-! ## Proofs -/

theorem Sim.same {R : List Addr → List Addr → Prop} {c c' : Chain} (h : Sim R c c') : SameStore R c c' where
  balances := h.b
  time := h.now
  pools := h.pool
  funders := h.fund
  stakers := h.stakers
  valaccounts := ⟨h.vals, (congrArg (fun x : Chain => x.st.valIdx) h.core :), (congrArg (fun x : Chain => x.st.counts) h.core :),
    (congrArg (fun x : Chain => x.st.active) h.core :)⟩
  commissionQueue := ⟨(congrArg (fun x : Chain => x.st.changes) h.core :), (congrArg (fun x : Chain => x.st.changeIdx) h.core :),
    (congrArg (fun x : Chain => x.st.cLow) h.core :), (congrArg (fun x : Chain => x.st.cHigh) h.core :)⟩
  leaveQueue := ⟨(congrArg (fun x : Chain => x.st.leaves) h.core :), (congrArg (fun x : Chain => x.st.leaveIdx) h.core :),
    (congrArg (fun x : Chain => x.st.lLow) h.core :), (congrArg (fun x : Chain => x.st.lHigh) h.core :)⟩
  stakersParams := (congrArg (fun x : Chain => x.st.params) h.core :)
  delegations := (congrArg (fun x : Chain => x.del.f1) h.core :)
  unbondings := ⟨(congrArg (fun x : Chain => x.del.queue) h.core :), (congrArg (fun x : Chain => x.del.low) h.core :),
    (congrArg (fun x : Chain => x.del.high) h.core :)⟩
  spells := (congrArg (fun x : Chain => x.del.spells) h.core :)
  delegationParams := (congrArg (fun x : Chain => x.del.params) h.core :)
  proposals := by
    intro id
    have hp := h.props id
    cases e1 : c.bun.proposals.get? id <;> cases e2 : c'.bun.proposals.get? id <;> rw [e1, e2] at hp
    · exact ⟨Iff.rfl, fun p p' h1 _ => by cases h1⟩
    · exact hp.elim
    · exact hp.elim
    · rename_i p p'
      refine ⟨by simp, fun q q' h1 h2 => ?_⟩
      cases h1; cases h2
      refine ⟨hp.valid, hp.invalid, hp.abstain, ?_⟩
      have := congrArg (fun x : Proposal => { x with valid := p'.valid, invalid := p'.invalid, abstain := p'.abstain }) hp.rest
      exact this
  bundles := h.finalized
  rotation := h.progress
  bundlesParams := h.params
  halted := ⟨h.halted, (congrArg (fun x : Chain => x.del.halted) h.core :)⟩
  crashed := h.crashed

theorem answer_sim {E : List Addr → List Addr → Prop} (hE : Lists E) {z : Bool} (hS : Slashes E z) (gov : Addr) {c c' : Chain}
    (h : Sim E c c') {op op' : Op} (ho : Op.Same op op') :
    c.answer gov op = c'.answer gov op' ∧ Rel E z (c.step gov op) (c'.step gov op') := by
  have hx := exec_sim hE gov hS h ho
  unfold answer step
  rw [h.crashed]
  by_cases hc : c'.crashed = true
  · rw [if_pos hc, if_pos hc, if_pos hc, if_pos hc]; exact ⟨rfl, Or.inl h⟩
  · rw [if_neg hc, if_neg hc, if_neg hc, if_neg hc]
    cases e1 : exec gov c op <;> cases e2 : exec gov c' op' <;> rw [e1, e2] at hx
    · exact ⟨congrArg some hx, Or.inl h⟩
    · exact hx.elim
    · exact hx.elim
    · exact ⟨rfl, hx⟩

theorem restarts_sim (gov : Addr) : ∀ {ops ops' : List Op}, List.Forall₂ Op.Same ops ops' → ∀ {c c' : Chain}, Sim Eq c c' →
    Sim Eq (c.after gov ops) (c'.after gov ops') ∧ c.answers gov ops = c'.answers gov ops'
  | _, _, .nil, _, _, h => ⟨h, rfl⟩
  | _, _, @List.Forall₂.cons _ _ _ a b _ _ ho hl, c, c', h => by
    obtain ⟨h1, h2⟩ := answer_sim lists_eq slashes_eq gov h ho
    have h2' : Sim Eq (c.step gov a) (c'.step gov b) := by
      rcases h2 with h2 | ⟨hz, _⟩
      · exact h2
      · cases hz
    obtain ⟨k1, k2⟩ := restarts_sim gov hl h2'
    exact ⟨k1, by unfold answers; rw [h1, k2]⟩

/-- C98: two nodes that start from the same state and see the same blocks, but are restarted before different blocks,
store the same and give the same answers to all messages. -/
theorem C98_restarts (gov : Addr) (c : Chain) {ops ops' : List Op} (h : List.Forall₂ Op.Same ops ops') :
    SameStore Eq (c.after gov ops) (c.after gov ops') ∧ c.answers gov ops = c.answers gov ops' := by
  obtain ⟨h1, h2⟩ := restarts_sim gov h (Sim.refl lists_eq c)
  exact ⟨h1.same, h2⟩

/-- C98: they also find the same bundle for every data index, unless data indices overflowed. -/
theorem C98_lookup {gov : Addr} {c c' : Chain} (h : Reachable gov c) (h' : Reachable gov c') (hs : SameStore Eq c c')
    (ho : ∀ pool, NoOverflow c.bun pool) (pool i : Nat) : c.bun.lookup pool i = c'.bun.lookup pool i := by
  have hi : c.bun.index = c'.bun.index := by
    ext1 ⟨p, x⟩
    have h1 := h.good.bun.indexed p (ho p)
    have h2 := h'.good.bun.indexed p (by unfold NoOverflow; rw [← hs.bundles]; exact ho p)
    unfold Bundles.Indexed at h1 h2
    rw [← hs.bundles] at h2
    cases hg : c.bun.index.get? (p, x) with
    | some id => exact ((h2 x id).2 ((h1 x id).1 hg)).symm
    | none =>
      cases hg' : c'.bun.index.get? (p, x) with
      | none => rfl
      | some id => rw [(h1 x id).2 ((h2 x id).1 hg')] at hg; cases hg
  unfold Bundles.State.lookup
  rw [hi, hs.bundles]

/-- C98: and rank every staker that anybody ever delegated to at the same place. -/
theorem C98_ranking {gov : Addr} {c c' : Chain} (h : Reachable gov c) (h' : Reachable gov c') (hs : SameStore Eq c c')
    (k : Nat) (a : Addr) (hd : (c.del.at a).data ≠ none) : c.del.index.get? (k, a) = c'.del.index.get? (k, a) := by
  replace hd : (c.del.at a).data.isSome = true := by
    cases e : (c.del.at a).data with
    | none => exact absurd e hd
    | some d => rfl
  have i1 := (Delegation.Sys.Reachable.winv h.good.mods.del).idx
  have i2 := (Delegation.Sys.Reachable.winv h'.good.mods.del).idx
  have eat : c'.del.at a = c.del.at a := by unfold Delegation.State.at; rw [hs.delegations]
  have eam : c'.del.amount a = c.del.amount a := by unfold Delegation.State.amount; rw [eat]
  have j1 := i1.has a hd
  have j2 := i2.has a (show (c'.del.at a).data.isSome = true by rw [eat]; exact hd)
  replace j1 : c.del.index.get? (Delegation.maxU64 - c.del.amount a, a) = some () := j1
  replace j2 : c'.del.index.get? (Delegation.maxU64 - c'.del.amount a, a) = some () := j2
  rw [eam] at j2
  by_cases e : k = Delegation.maxU64 - c.del.amount a
  · rw [e, j1, j2]
  · have n1 : c.del.index.get? (k, a) = none := by
      cases hg : c.del.index.get? (k, a) with
      | none => rfl
      | some u => exact absurd (i1.only k a hg) e
    have n2 : c'.del.index.get? (k, a) = none := by
      cases hg : c'.del.index.get? (k, a) with
      | none => rfl
      | some u =>
        have := i2.only k a hg
        rw [show (c'.dw.s).amount a = c.del.amount a from eam] at this
        exact absurd this e
    rw [n1, n2]

end Chain

namespace Sample
open Chain

/-- account 1 undelegates nothing from account 50, which is no staker, and the request comes due -/
def phantom : Chain := run ready [.undelegate 1 50 0, .beginBlock 10000000 0 0 false]

theorem reach_phantom : Reachable gov phantom := run_reachable reach_ready _ (by decide +kernel)

/-- C98: without that restriction the ranking does depend on restarts: the row of account 50, to which nobody ever
delegated (see C11), is there until the node is restarted, and not afterwards.  The first state is the one of a node that
was not restarted, the second of one that was. -/
theorem C98_ranking_false : Reachable gov (run phantom [.beginBlock 5 0 0 false]) ∧
    Reachable gov (run phantom [.beginBlock 5 0 0 true]) ∧
    SameStore Eq (run phantom [.beginBlock 5 0 0 false]) (run phantom [.beginBlock 5 0 0 true]) ∧
    (run phantom [.beginBlock 5 0 0 false]).del.index.get? (Delegation.maxU64, 50) = some () ∧
    (run phantom [.beginBlock 5 0 0 true]).del.index.get? (Delegation.maxU64, 50) = none :=
  ⟨run_reachable reach_phantom _ (by decide +kernel), run_reachable reach_phantom _ (by decide +kernel),
   (C98_restarts gov phantom (.cons (.restart 5 0 0 false true) .nil)).1, by decide +kernel, by decide +kernel⟩

/-- a history with a bundle, on a node that is restarted in between and on one that is not -/
example : SameStore Eq (run voted [.beginBlock 60 0 0 false, .submit (bundle 1 8 10), .endBlock])
    (run voted [.beginBlock 60 0 0 true, .submit (bundle 1 8 10), .endBlock]) :=
  (C98_restarts gov voted (.cons (.restart 60 0 0 false true) (.cons (.refl _) (.cons (.refl _) .nil)))).1
example : voted.answers gov [.beginBlock 60 0 0 true, .submit (bundle 1 8 10), .endBlock] = [none, none, none] := by decide +kernel

end Sample

/-! ## votes -/

namespace Chain

theorem step_vote (gov : Addr) {c : Chain} (hc : c.crashed = false) (m : VoteMsg) : c.step gov (.vote m) =
    match c.voteError m with
    | some _ => c
    | none => c.cast m := by
  unfold step
  rw [hc, if_neg (by simp)]
  show c.orElse (c.vote m) = _
  rw [vote_eq']
  cases c.voteError m <;> rfl

theorem answer_vote (gov : Addr) {c : Chain} (hc : c.crashed = false) (m : VoteMsg) :
    c.answer gov (.vote m) = c.voteError m := by
  unfold answer
  rw [hc, if_neg (by simp)]
  show (match c.vote m with | .ok _ => none | .error e => some e) = _
  rw [vote_eq']
  cases c.voteError m <;> rfl

theorem crashed_step_vote (gov : Addr) (c : Chain) (m : VoteMsg) : (c.step gov (.vote m)).crashed = c.crashed := by
  by_cases hc : c.crashed = true
  · unfold step; rw [if_pos hc]
  · rw [Bool.not_eq_true] at hc
    rw [step_vote gov hc]
    cases c.voteError m <;> rfl

theorem voteError_step (gov : Addr) {c : Chain} (hc : c.crashed = false) {m m' : VoteMsg} (hd : Different m m') :
    (c.step gov (.vote m)).voteError m' = c.voteError m' := by
  rw [step_vote gov hc]
  cases c.voteError m with
  | some e => rfl
  | none => exact voteError_cast c hd

theorem step_vote_comm (gov : Addr) (c : Chain) {m m' : VoteMsg} (hd : Different m m') :
    Sim List.Perm ((c.step gov (.vote m)).step gov (.vote m')) ((c.step gov (.vote m')).step gov (.vote m)) := by
  by_cases hc : c.crashed = true
  · have e : ∀ op, c.step gov op = c := fun op => by unfold step; rw [if_pos hc]
    rw [e, e, e]; exact Sim.refl lists_perm c
  · rw [Bool.not_eq_true] at hc
    rw [step_vote gov ((crashed_step_vote gov c m).trans hc) m', step_vote gov ((crashed_step_vote gov c m').trans hc) m,
      voteError_step gov hc hd, voteError_step gov hc (Ne.symm hd), step_vote gov hc m, step_vote gov hc m']
    cases c.voteError m <;> cases c.voteError m'
    · exact cast_comm c hd
    · exact Sim.refl lists_perm _
    · exact Sim.refl lists_perm _
    · exact Sim.refl lists_perm _

theorem step_vote_sim (gov : Addr) {c c' : Chain} (h : Sim List.Perm c c') (m : VoteMsg) :
    Sim List.Perm (c.step gov (.vote m)) (c'.step gov (.vote m)) := by
  have hv := vote_sim lists_perm h m
  unfold step
  rw [h.crashed]
  split
  · exact h
  · show Sim List.Perm (c.orElse (c.vote m)) (c'.orElse (c'.vote m))
    cases e1 : c.vote m <;> cases e2 : c'.vote m <;> rw [e1, e2] at hv
    · exact h
    · exact hv.elim
    · exact hv.elim
    · exact hv

/-- C99: the answer to a vote does not depend on the votes of other stakers (or for other pools) before it. -/
theorem C99_answers (gov : Addr) (c : Chain) (l : List VoteMsg) (m : VoteMsg)
    (h : ∀ m' ∈ l, (m'.pool, m'.staker) ≠ (m.pool, m.staker)) :
    (c.after gov (l.map Op.vote)).answer gov (.vote m) = c.answer gov (.vote m) := by
  induction l generalizing c with
  | nil => rfl
  | cons x l ih =>
    show ((c.step gov (.vote x)).after gov (l.map Op.vote)).answer gov (.vote m) = _
    rw [ih (c.step gov (.vote x)) (fun m' hm' => h m' (List.mem_cons_of_mem _ hm'))]
    by_cases hc : c.crashed = true
    · rw [show c.step gov (.vote x) = c by unfold step; rw [if_pos hc]]
    · rw [Bool.not_eq_true] at hc
      rw [answer_vote gov hc, answer_vote gov ((crashed_step_vote gov c x).trans hc),
        voteError_step gov hc (h x (List.mem_cons_self))]

theorem votes_sim (gov : Addr) {l l' : List VoteMsg} (hp : l.Perm l') :
    l.Pairwise Different → ∀ {c c' : Chain}, Sim List.Perm c c' →
    Sim List.Perm (c.after gov (l.map Op.vote)) (c'.after gov (l'.map Op.vote)) := by
  induction hp with
  | nil => exact fun _ _ _ h => h
  | cons a _ ih => exact fun hd c c' h => ih (List.pairwise_cons.1 hd).2 (step_vote_sim gov h a)
  | swap a b l =>
    intro hd c c' h
    have hba : Different b a := (List.pairwise_cons.1 hd).1 a List.mem_cons_self
    have key : ∀ (l : List VoteMsg) {c c' : Chain}, Sim List.Perm c c' →
        Sim List.Perm (c.after gov (l.map Op.vote)) (c'.after gov (l.map Op.vote)) := by
      intro l
      induction l with
      | nil => exact fun h => h
      | cons x l ih => exact fun h => ih (step_vote_sim gov h x)
    exact key l ((step_vote_comm gov c hba).trans (step_vote_sim gov (step_vote_sim gov h a) b))
  | trans h1 _ ih1 ih2 =>
    intro hd c c' h
    refine (ih1 hd (Sim.refl lists_perm c)).trans (ih2 ?_ h)
    exact (h1.pairwise_iff (fun hab => Ne.symm hab)).1 hd

/-- C99: in whichever order the votes of different stakers come in, the chain stores the same, up to the order of the vote
lists. -/
theorem C99_order (gov : Addr) (c : Chain) {l l' : List VoteMsg} (hp : l.Perm l')
    (hd : l.Pairwise (fun m m' => (m.pool, m.staker) ≠ (m'.pool, m'.staker))) :
    SameStore List.Perm (c.after gov (l.map Op.vote)) (c.after gov (l'.map Op.vote)) :=
  (votes_sim gov hp hd (Sim.refl lists_perm c)).same

theorem later_sim (gov : Addr) (ops : List Op) : ∀ {c c' : Chain}, Sim List.Perm c c' →
    ∃ n ≤ ops.length, c.answers gov (ops.take n) = c'.answers gov (ops.take n) ∧
      (∀ k < n, SameStore List.Perm (c.after gov (ops.take k)) (c'.after gov (ops.take k))) ∧
      ((n = ops.length ∧ SameStore List.Perm (c.after gov ops) (c'.after gov ops)) ∨
        (Down (c.after gov (ops.take n)) ∧ Down (c'.after gov (ops.take n)))) := by
  induction ops with
  | nil => exact fun h => ⟨0, Nat.le_refl _, rfl, fun k hk => absurd hk (Nat.not_lt_zero k), Or.inl ⟨rfl, h.same⟩⟩
  | cons op ops ih =>
    intro c c' h
    obtain ⟨h1, h2⟩ := answer_sim lists_perm slashes_perm gov h (Op.Same.refl op)
    rcases h2 with h2 | ⟨-, h2, h3⟩
    · obtain ⟨n, hn, k1, k2, k3⟩ := ih h2
      refine ⟨n + 1, Nat.succ_le_succ hn, ?_, fun k hk => ?_, ?_⟩
      · rw [List.take_succ_cons]; unfold answers; rw [h1, k1]
      · cases k with
        | zero => exact h.same
        | succ k => exact k2 k (Nat.lt_of_succ_lt_succ hk)
      · rcases k3 with ⟨e, k3⟩ | k3
        · exact Or.inl ⟨by rw [e]; rfl, k3⟩
        · exact Or.inr k3
    · refine ⟨1, Nat.succ_le_succ (Nat.zero_le _), ?_, fun k hk => ?_, Or.inr ⟨?_, ?_⟩⟩
      · rw [List.take_succ_cons, List.take_zero]; unfold answers; rw [h1]; rfl
      · have : k = 0 := by omega
        subst this; exact h.same
      · exact h2
      · exact h3

/-- C99: and it makes no difference for anything that happens later: all messages get the same answers and the chains store
the same (up to the order of vote lists), until the end or until an emergency stop, which both chains reach in the same
step.  (If x/delegation's account can not pay two slashes - see C12 - then which of them fails depends on the order.) -/
theorem C99_later (gov : Addr) (c : Chain) {l l' : List VoteMsg} (hp : l.Perm l')
    (hd : l.Pairwise (fun m m' => (m.pool, m.staker) ≠ (m'.pool, m'.staker))) (ops : List Op) :
    let d := c.after gov (l.map Op.vote)
    let d' := c.after gov (l'.map Op.vote)
    ∃ n ≤ ops.length, d.answers gov (ops.take n) = d'.answers gov (ops.take n) ∧
      (∀ k < n, SameStore List.Perm (d.after gov (ops.take k)) (d'.after gov (ops.take k))) ∧
      ((n = ops.length ∧ SameStore List.Perm (d.after gov ops) (d'.after gov ops)) ∨
        (Down (d.after gov (ops.take n)) ∧ Down (d'.after gov (ops.take n)))) :=
  later_sim gov ops (votes_sim gov hp hd (Sim.refl lists_perm c))

end Chain

namespace Sample
open Chain

/-- a vote of a sample staker -/
def ballot (a : Addr) (v : Vote) : VoteMsg := ⟨a + 10, a, 0, 7, v⟩

/-- three stakers vote on the first bundle in two orders; all are accepted, and the lists differ -/
example : (proposed.answers gov ([ballot 2 .valid, ballot 3 .invalid, ballot 4 .valid].map Op.vote) = [none, none, none]) ∧
    (proposed.answers gov ([ballot 4 .valid, ballot 2 .valid, ballot 3 .invalid].map Op.vote) = [none, none, none]) ∧
    ((proposed.after gov ([ballot 2 .valid, ballot 3 .invalid, ballot 4 .valid].map Op.vote)).proposal 0).valid = [1, 2, 4] ∧
    ((proposed.after gov ([ballot 4 .valid, ballot 2 .valid, ballot 3 .invalid].map Op.vote)).proposal 0).valid = [1, 4, 2] ∧
    ([ballot 2 .valid, ballot 3 .invalid, ballot 4 .valid].Pairwise (fun m m' => (m.pool, m.staker) ≠ (m'.pool, m'.staker))) := by
  decide +kernel

/-- the order of two votes of one staker does matter -/
example : (proposed.after gov [.vote (ballot 2 .abstain), .vote (ballot 2 .valid)]).proposal 0 ≠
    (proposed.after gov [.vote (ballot 2 .valid), .vote (ballot 2 .abstain)]).proposal 0 ∨
    proposed.answers gov [.vote (ballot 2 .abstain), .vote (ballot 2 .valid)] ≠
    proposed.answers gov [.vote (ballot 2 .valid), .vote (ballot 2 .abstain)] := by
  right; decide +kernel

end Sample

end Verif.Chain
