import Verif.Chain.AlikeRun
import Verif.Chain.Points

/-!
# Votes in any order

Votes of different stakers do not depend on each other, and in whichever order they come in, the chains are alike.
-/

set_option linter.dupNamespace false

namespace Verif
open Verif

namespace Map
variable {K V W : Type} [DecidableEq K] [KeyOrd K]

/-- the keys only -/
def units (m : Map K V) : Map K Unit :=
  ⟨m.toList.map (fun e => (e.1, ())), by unfold SortedL; rw [List.pairwise_map]; exact m.sorted⟩

omit [DecidableEq K] in
theorem units_keys (m : Map K V) : m.units.keys = m.keys := by
  unfold units keys
  rw [List.map_map]; rfl

theorem keys_congr {m : Map K V} {m' : Map K W} (h : ∀ k, (m.get? k).isSome = (m'.get? k).isSome) : m.keys = m'.keys := by
  have key : ∀ {V : Type} (m : Map K V) (k : K), (m.units.get? k) = (m.get? k).map (fun _ => ()) := by
    intro V m k
    show getL k (m.toList.map (fun e => (e.1, ()))) = (getL k m.toList).map (fun _ => ())
    generalize m.toList = l
    induction l with
    | nil => rfl
    | cons e l ih =>
      obtain ⟨j, v⟩ := e
      rw [List.map_cons]
      unfold getL
      split
      · rfl
      · exact ih
  have : m.units = m'.units := by
    ext1 k
    rw [key, key]
    have := h k
    cases e1 : m.get? k <;> cases e2 : m'.get? k <;> rw [e1, e2] at this
    · rfl
    · cases this
    · cases this
    · rfl
  rw [← units_keys m, ← units_keys m', this]

end Map
end Verif

namespace Verif.Chain
open Verif
open Verif.Bundles (Proposal FBundle VoteDist Status Reward)

namespace Chain

variable {c c' : Chain}

theorem members_resetPoints (c : Chain) (p : Nat) (a : Addr) (id : Nat) : (c.resetPoints p a).members id = c.members id := by
  have : (c.resetPoints p a).st.vals.keys = c.st.vals.keys := by
    refine Map.keys_congr fun k => ?_
    rw [resetPoints_get]
    split
    · cases c.st.vals.get? k <;> rfl
    · rfl
  show (((c.resetPoints p a).st.vals.keys).filter _).map _ = _
  rw [this]; rfl

theorem runError_resetPoints (c : Chain) (p : Nat) (a : Addr) (id : Nat) : (c.resetPoints p a).runError id = c.runError id := by
  unfold runError totalOf highestOf maxDelegation totalOf
  rw [members_resetPoints]
  rfl

theorem authorized_resetPoints (c : Chain) (p : Nat) (a : Addr) (id : Nat) (s v : Addr) :
    (c.resetPoints p a).st.authorized id s v = c.st.authorized id s v := by
  unfold Stakers.State.authorized
  rw [resetPoints_get]
  by_cases e : (id, s) = (p, a)
  · rw [if_pos e]
    cases c.st.vals.get? (id, s) <;> rfl
  · rw [if_neg e]

theorem resetPoints_comm (s : Stakers.State) {p q : Nat} {a b : Addr} (h : (p, a) ≠ (q, b)) :
    (s.resetPoints p a).resetPoints q b = (s.resetPoints q b).resetPoints p a := by
  have h' : (a, p) ≠ (b, q) := fun e => h (by rw [Prod.mk.injEq] at e ⊢; exact ⟨e.2, e.1⟩)
  unfold Stakers.State.resetPoints
  cases e1 : s.vals.get? (p, a) with
  | none =>
    cases e2 : s.vals.get? (q, b) with
    | none => simp only [e1]
    | some w =>
      have : (s.setVal q b { w with points := 0 }).vals.get? (p, a) = none := by
        show (s.vals.set (q, b) _).get? (p, a) = none
        rw [Map.get?_set_ne _ _ h, e1]
      simp only [this]
  | some v =>
    have k1 : (s.setVal p a { v with points := 0 }).vals.get? (q, b) = s.vals.get? (q, b) :=
      Map.get?_set_ne _ _ (Ne.symm h)
    cases e2 : s.vals.get? (q, b) with
    | none => rw [e2] at k1; simp only [k1, e1]
    | some w =>
      have k2 : (s.setVal q b { w with points := 0 }).vals.get? (p, a) = s.vals.get? (p, a) := Map.get?_set_ne _ _ h
      rw [e2] at k1
      rw [e1] at k2
      simp only [k1, k2]
      unfold Stakers.State.setVal
      simp only [Stakers.State.mk.injEq, and_true, true_and]
      exact ⟨Map.set_comm _ _ _ h, Map.set_comm _ _ _ h'⟩

/-- the vote lists after a vote -/
def put (p : Proposal) (a : Addr) : Vote → Proposal
  | .unspecified => p
  | .valid => { p with abstain := p.abstain.erase a, valid := p.valid ++ [a] }
  | .invalid => { p with abstain := p.abstain.erase a, invalid := p.invalid ++ [a] }
  | .abstain => { p with abstain := p.abstain ++ [a] }

/-- why a vote is refused -/
def refusal (p : Proposal) (a : Addr) : Vote → Option String
  | .unspecified => some "invalid vote"
  | .abstain => if a ∈ p.abstain then some "already voted abstain" else none
  | _ => none

theorem castVote_eq (p : Proposal) (a : Addr) (v : Vote) : castVote p a v =
    match refusal p a v with
    | some e => .error e
    | none => .ok (put p a v) := by
  cases v with
  | unspecified => rfl
  | valid => rfl
  | invalid => rfl
  | abstain =>
    show (if a ∈ p.abstain then _ else _) = match (if a ∈ p.abstain then _ else _ : Option String) with | some e => _ | none => _
    split <;> rfl

/-- what one vote writes -/
theorem put_lists (p : Proposal) (a : Addr) (v : Vote) : noVotes (put p a v) = noVotes p ∧
    ∀ b, b ≠ a → (b ∈ (put p a v).valid ↔ b ∈ p.valid) ∧ (b ∈ (put p a v).invalid ↔ b ∈ p.invalid) ∧
      (b ∈ (put p a v).abstain ↔ b ∈ p.abstain) := by
  cases v with
  | unspecified => exact ⟨rfl, fun _ _ => ⟨Iff.rfl, Iff.rfl, Iff.rfl⟩⟩
  | valid => exact ⟨rfl, fun b hb => ⟨by simp [put, hb], Iff.rfl, List.mem_erase_of_ne hb⟩⟩
  | invalid => exact ⟨rfl, fun b hb => ⟨Iff.rfl, by simp [put, hb], List.mem_erase_of_ne hb⟩⟩
  | abstain => exact ⟨rfl, fun b hb => ⟨Iff.rfl, Iff.rfl, by simp [put, hb]⟩⟩

theorem refusal_put (p : Proposal) {a b : Addr} (h : b ≠ a) (v w : Vote) : refusal (put p a v) b w = refusal p b w := by
  cases w with
  | unspecified => rfl
  | valid => rfl
  | invalid => rfl
  | abstain =>
    unfold refusal
    simp only [((put_lists p a v).2 b h).2.2]

theorem erase_append (l : List Addr) {a b : Addr} (h : a ≠ b) : (l ++ [b]).erase a = l.erase a ++ [b] := by
  by_cases ha : a ∈ l
  · exact List.erase_append_left _ ha
  · rw [List.erase_of_not_mem ha, List.erase_of_not_mem (by simp [ha, h])]

theorem snoc_swap (l : List Addr) (a b : Addr) : (l ++ [a] ++ [b]).Perm (l ++ [b] ++ [a]) := by
  rw [List.append_assoc, List.append_assoc]
  exact (List.Perm.swap b a []).append_left l

/-- two votes for the same bundle -/
theorem put_comm (p : Proposal) {a b : Addr} (h : a ≠ b) (v w : Vote) :
    PropSim List.Perm (put (put p a v) b w) (put (put p b w) a v) := by
  have e1 := List.erase_comm (l := p.abstain) a b
  have e2 := erase_append p.abstain h
  have e3 := erase_append p.abstain (Ne.symm h)
  cases v <;> cases w <;> refine ⟨rfl, ?_, ?_, ?_⟩ <;> simp only [put] <;>
    first
    | exact .refl _
    | exact snoc_swap _ _ _
    | (rw [e1])
    | (rw [e2])
    | (rw [e3])

/-- two votes by different stakers -/
def Different (m m' : VoteMsg) : Prop := (m.pool, m.staker) ≠ (m'.pool, m'.staker)

theorem vote_eq (c : Chain) (m : VoteMsg) : c.vote m =
    match c.canVote m.pool m.staker m.creator m.storageId with
    | some e => .error e
    | none => match refusal (c.proposal m.pool) m.staker m.vote with
      | some e => .error e
      | none => .ok ((c.setProposal m.pool (put (c.proposal m.pool) m.staker m.vote)).resetPoints m.pool m.staker) := by
  unfold vote
  rw [castVote_eq]
  cases c.canVote m.pool m.staker m.creator m.storageId with
  | some e => rfl
  | none => cases refusal (c.proposal m.pool) m.staker m.vote <;> rfl

/-- the state after a vote -/
def cast (c : Chain) (m : VoteMsg) : Chain :=
  (c.setProposal m.pool (put (c.proposal m.pool) m.staker m.vote)).resetPoints m.pool m.staker

/-- why a vote message is refused -/
def voteError (c : Chain) (m : VoteMsg) : Option String :=
  (c.canVote m.pool m.staker m.creator m.storageId).or (refusal (c.proposal m.pool) m.staker m.vote)

theorem vote_eq' (c : Chain) (m : VoteMsg) : c.vote m =
    match c.voteError m with
    | some e => .error e
    | none => .ok (c.cast m) := by
  rw [vote_eq]
  unfold voteError
  cases c.canVote m.pool m.staker m.creator m.storageId with
  | some e => rfl
  | none => cases refusal (c.proposal m.pool) m.staker m.vote <;> rfl

theorem proposal_cast (c : Chain) (m : VoteMsg) (id : Nat) : (c.cast m).proposal id =
    if id = m.pool then put (c.proposal m.pool) m.staker m.vote else c.proposal id := by
  show ((c.bun.proposals.set m.pool _).get? id).getD _ = _
  rw [Map.get?_set]
  split <;> rfl

/-- after another staker's vote a vote is refused or accepted as before -/
theorem voteError_cast (c : Chain) {m m' : VoteMsg} (hd : Different m m') : (c.cast m).voteError m' = c.voteError m' := by
  have hr : (c.cast m).runError m'.pool = c.runError m'.pool :=
    runError_resetPoints (c.setProposal m.pool _) m.pool m.staker m'.pool
  have ha : (c.cast m).st.authorized m'.pool m'.staker m'.creator
      = c.st.authorized m'.pool m'.staker m'.creator := authorized_resetPoints (c.setProposal m.pool _) _ _ _ _ _
  unfold voteError canVote
  rw [hr, ha, proposal_cast]
  by_cases e : m'.pool = m.pool
  · have hs : m'.staker ≠ m.staker := fun es => hd (by rw [e, es])
    obtain ⟨k1, k2⟩ := put_lists (c.proposal m.pool) m.staker m.vote
    have k3 : (put (c.proposal m.pool) m.staker m.vote).storageId = (c.proposal m.pool).storageId :=
      (congrArg Proposal.storageId k1 :)
    rw [if_pos e, e]
    simp only [refusal_put _ hs, k3, k2 _ hs]
  · rw [if_neg e]

/-- two votes in either order -/
theorem cast_comm (c : Chain) {m m' : VoteMsg} (hd : Different m m') :
    Sim List.Perm ((c.cast m).cast m') ((c.cast m').cast m) := by
  refine ⟨?_, fun id => ?_⟩
  · show ({ c.er with st := ((c.st.resetPoints m.pool m.staker).resetPoints m'.pool m'.staker).er } : Chain)
      = { c.er with st := ((c.st.resetPoints m'.pool m'.staker).resetPoints m.pool m.staker).er }
    rw [resetPoints_comm _ hd]
  · have key : ∀ m m' : VoteMsg, ((c.cast m).cast m').bun.proposals.get? id =
        if id = m'.pool then some (put ((c.cast m).proposal m'.pool) m'.staker m'.vote)
        else if id = m.pool then some (put (c.proposal m.pool) m.staker m.vote) else c.bun.proposals.get? id := by
      intro m m'
      show ((c.bun.proposals.set m.pool _).set m'.pool _).get? id = _
      rw [Map.get?_set, Map.get?_set]
    rw [key, key, proposal_cast, proposal_cast]
    by_cases e : m'.pool = m.pool
    · have hs : m.staker ≠ m'.staker := fun es => hd (by rw [e, es])
      rw [if_pos e, if_pos e.symm]
      by_cases i : id = m.pool
      · simp only [if_pos i, e]
        exact put_comm _ hs _ _
      · have i' : id ≠ m'.pool := by rw [e]; exact i
        rw [if_neg i, if_neg i', if_neg i, if_neg i']
        cases c.bun.proposals.get? id with
        | none => trivial
        | some p => exact PropSim.refl lists_perm p
    · rw [if_neg e, if_neg (Ne.symm e)]
      by_cases i : id = m.pool
      · have i' : id ≠ m'.pool := by rw [i]; exact Ne.symm e
        rw [if_neg i', if_pos i, if_pos i]
        exact PropSim.refl lists_perm _
      · rw [if_neg i, if_neg i]
        split
        · exact PropSim.refl lists_perm _
        · cases c.bun.proposals.get? id with
          | none => trivial
          | some p => exact PropSim.refl lists_perm p

end Chain
end Verif.Chain
