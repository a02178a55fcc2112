import Verif.Chain.Rounds

/-!
# C20: one staker, one vote
-/

set_option linter.dupNamespace false
namespace Verif.Chain
open Verif
open Chain
open Verif.Bundles (Proposal)

/-! ## specification -/

/-- one history continues another: `c'` comes after `c` -/
inductive Later (gov : Addr) (c : Chain) : Chain → Prop
  | refl : Later gov c c
  | step {c' : Chain} (op : Op) : Later gov c c' → Sane (c'.step gov op) → Later gov c (c'.step gov op)

/-- how often a staker has voted on the current proposal of a pool -/
def votesCast (c : Chain) (id : Nat) (a : Addr) : Nat :=
  (c.proposal id).valid.count a + (c.proposal id).invalid.count a + (c.proposal id).abstain.count a

/-- the two proposals are about the same bundle -/
structure SameBundle (p q : Proposal) : Prop where
  storageId : q.storageId = p.storageId
  uploader : q.uploader = p.uploader
  dataSize : q.dataSize = p.dataSize
  bundleSize : q.bundleSize = p.bundleSize
  fromKey : q.fromKey = p.fromKey
  toKey : q.toKey = p.toKey
  summary : q.summary = p.summary
  dataHash : q.dataHash = p.dataHash
  storageProviderId : q.storageProviderId = p.storageProviderId
  compressionId : q.compressionId = p.compressionId

/-- the operation is an accepted vote of the node of staker `a` on the current proposal of the pool -/
def Votes (c : Chain) (id : Nat) (a : Addr) (v : Vote) (op : Op) : Prop :=
  ∃ m, op = .vote m ∧ m.pool = id ∧ m.staker = a ∧ m.vote = v ∧ Registered c id a m.creator ∧
    m.storageId = (c.proposal id).storageId ∧ (c.proposal id).storageId ≠ 0

/-- the vote of a staker on the current proposal of a pool, if any -/
def voteOf (c : Chain) (id : Nat) (a : Addr) : Option Vote :=
  if a ∈ (c.proposal id).valid then some .valid
  else if a ∈ (c.proposal id).invalid then some .invalid
  else if a ∈ (c.proposal id).abstain then some .abstain
  else none

/-- The vote of a staker on a proposal that stays: it stays, or the staker's own node casts it, which is possible only
for a first vote or to change abstain to valid or invalid. -/
def VoteKept (id : Nat) (c c' : Chain) (op : Op) (a : Addr) : Prop :=
  voteOf c' id a = voteOf c id a ∨
  ∃ v, voteOf c' id a = some v ∧ Votes c id a v op ∧
    (voteOf c id a = none ∨ voteOf c id a = some .abstain ∧ v ≠ .abstain)

/-- The proposal is over: there is none, or a new one has just been submitted and only its uploader has voted. -/
def Over (id : Nat) (c' : Chain) (op : Op) : Prop :=
  ((c'.proposal id).storageId = 0 ∧ ∀ a, votesCast c' id a = 0) ∨
  ∃ m, op = .submit m ∧ m.pool = id ∧ (c'.proposal id).storageId = m.storageId ∧
    (c'.proposal id).uploader = some m.staker ∧
    (c'.proposal id).valid = [m.staker] ∧ (c'.proposal id).invalid = [] ∧ (c'.proposal id).abstain = []

/-- a history during which the proposal of the pool is never over -/
inductive SameRound (gov : Addr) (id : Nat) (c : Chain) : Chain → Prop
  | refl : SameRound gov id c c
  | step {c' : Chain} (op : Op) : SameRound gov id c c' → Sane (c'.step gov op) →
      ¬ Over id (c'.step gov op) op → SameRound gov id c (c'.step gov op)

/-! ## proofs -/

theorem Later.reachable {gov : Addr} {c c' : Chain} (h : Reachable gov c) (hl : Later gov c c') : Reachable gov c' := by
  induction hl with
  | refl => exact h
  | step op _ hs ih => exact .step op ih hs

theorem SameRound.later {gov : Addr} {id : Nat} {c c' : Chain} (h : SameRound gov id c c') : Later gov c c' := by
  induction h with
  | refl => exact .refl
  | step op _ hs _ ih => exact .step op ih hs

/-- C20: in every reachable state every staker has voted at most once on the current proposal of every pool. -/
theorem Chain.C20_one_vote (gov : Addr) (c : Chain) (h : Reachable gov c) (id : Nat) (a : Addr) :
    votesCast c id a ≤ 1 := by
  have hn := (h.good.bun.prop id).nodup
  have hc : (voters (c.proposal id)).count a ≤ 1 := List.nodup_iff_count_le_one.1 hn a
  unfold voters at hc
  rw [List.count_append, List.count_append] at hc
  exact hc

/-- what a vote does to the votes -/
theorem castVote_voteOf {c c' : Chain} {id : Nat} {a : Addr} {v : Vote}
    (hv : a ∉ (c.proposal id).valid) (hi : a ∉ (c.proposal id).invalid)
    (h : castVote (c.proposal id) a v = .ok (c'.proposal id)) (b : Addr) :
    (b ≠ a → voteOf c' id b = voteOf c id b) ∧
    (b = a → voteOf c' id b = some v ∧ (voteOf c id a = none ∨ voteOf c id a = some .abstain ∧ v ≠ .abstain)) := by
  have hab : ∀ l : List Addr, b ≠ a → (b ∈ l.erase a ↔ b ∈ l) := fun l hb => List.mem_erase_of_ne hb
  have hold : voteOf c id a = none ∨ voteOf c id a = some .abstain := by
    unfold voteOf
    rw [if_neg hv, if_neg hi]
    split <;> simp
  cases v with
  | unspecified => cases h
  | valid =>
    injection h with h
    unfold voteOf at hold ⊢
    rw [← h]
    refine ⟨fun hb => ?_, fun hb => ?_⟩
    · simp [hb, hab _ hb]
    · subst hb
      refine ⟨by simp, ?_⟩
      rcases hold with h | h
      · exact Or.inl h
      · exact Or.inr ⟨h, by simp⟩
  | invalid =>
    injection h with h
    unfold voteOf at hold ⊢
    rw [← h]
    refine ⟨fun hb => ?_, fun hb => ?_⟩
    · simp [hb, hab _ hb]
    · subst hb
      refine ⟨by simp [hv], ?_⟩
      rcases hold with h | h
      · exact Or.inl h
      · exact Or.inr ⟨h, by simp⟩
  | abstain =>
    unfold castVote at h
    simp only at h
    split at h
    · cases h
    · rename_i hna
      injection h with h
      unfold voteOf
      rw [← h]
      refine ⟨fun hb => ?_, fun hb => ?_⟩
      · simp [hb]
      · subst hb
        exact ⟨by simp [hv, hi], Or.inl (by simp [hv, hi, hna])⟩

/-- C20: an operation ends the round of a pool's proposal, or leaves the bundle as it is and every vote as it was, except
for the vote that the operation itself is. -/
theorem Chain.C20_final (gov : Addr) (c : Chain) (h : Reachable gov c) (op : Op) (id : Nat) :
    Over id (c.step gov op) op ∨
    SameBundle (c.proposal id) ((c.step gov op).proposal id) ∧ ∀ a, VoteKept id c (c.step gov op) op a := by
  have blank : ∀ {d : Chain} {n : Option Addr} {t : Nat}, d.proposal id = Proposal.blank n t →
      (d.proposal id).storageId = 0 ∧ ∀ a, votesCast d id a = 0 := by
    intro d n t e
    unfold votesCast
    rw [e]
    exact ⟨rfl, fun _ => rfl⟩
  have sub : ∀ {pl : Pool.Pool}, Submitted id pl c (c.step gov op) op → Over id (c.step gov op) op := by
    rintro pl ⟨m, n, h1, h2, h3⟩
    refine Or.inr ⟨m, h1, h2, ?_⟩
    rw [h3]
    exact ⟨rfl, rfl, rfl, rfl, rfl⟩
  cases round_step h op id with
  | kept n t e _ =>
    refine Or.inr ⟨?_, fun a => Or.inl ?_⟩
    · rw [e]; exact ⟨rfl, rfl, rfl, rfl, rfl, rfl, rfl, rfl, rfl, rfl⟩
    · unfold voteOf; rw [e]
  | voted m e1 e2 hr h0 hs hv hi hc _ =>
    refine Or.inr ⟨?_, fun a => ?_⟩
    · cases hm : m.vote <;> rw [hm] at hc <;> unfold castVote at hc
      · cases hc
      · injection hc with hc; rw [← hc]; exact ⟨rfl, rfl, rfl, rfl, rfl, rfl, rfl, rfl, rfl, rfl⟩
      · injection hc with hc; rw [← hc]; exact ⟨rfl, rfl, rfl, rfl, rfl, rfl, rfl, rfl, rfl, rfl⟩
      · simp only at hc
        split at hc
        · cases hc
        · injection hc with hc; rw [← hc]; exact ⟨rfl, rfl, rfl, rfl, rfl, rfl, rfl, rfl, rfl, rfl⟩
    · obtain ⟨k1, k2⟩ := castVote_voteOf hv hi hc a
      by_cases e : a = m.staker
      · obtain ⟨g1, g2⟩ := k2 e
        subst e
        exact Or.inr ⟨m.vote, g1, ⟨m, e1, e2, rfl, rfl, hr, hs, h0⟩, g2⟩
      · exact Or.inl (k1 e)
  | dropped n e _ => exact Or.inl (Or.inl (blank e))
  | proposed pl _ _ hs _ => exact Or.inl (sub hs)
  | finalized pl v _ _ hp =>
    rcases hp with ⟨n, e⟩ | hs
    · exact Or.inl (Or.inl (blank e))
    · exact Or.inl (sub hs)

/-- C20 for histories: as long as the proposal is not over, the bundle stays, a valid or invalid vote stays, and an
abstain stays or becomes a valid or invalid vote. -/
theorem Chain.C20_history (gov : Addr) (c c' : Chain) (h : Reachable gov c) (id : Nat) (hr : SameRound gov id c c')
    (a : Addr) :
    SameBundle (c.proposal id) (c'.proposal id) ∧
    (voteOf c id a = some .valid → voteOf c' id a = some .valid) ∧
    (voteOf c id a = some .invalid → voteOf c' id a = some .invalid) ∧
    (voteOf c id a = some .abstain → voteOf c' id a ≠ none) := by
  induction hr with
  | refl => exact ⟨⟨rfl, rfl, rfl, rfl, rfl, rfl, rfl, rfl, rfl, rfl⟩, fun h => h, fun h => h, fun h => by rw [h]; simp⟩
  | step op hl _ ho ih =>
    obtain ⟨i1, i2, i3, i4⟩ := ih
    rcases C20_final gov _ (hl.later.reachable h) op id with hov | ⟨hs, hk⟩
    · exact absurd hov ho
    · refine ⟨?_, fun e => ?_, fun e => ?_, fun e => ?_⟩
      · exact ⟨hs.1.trans i1.1, hs.2.trans i1.2, hs.3.trans i1.3, hs.4.trans i1.4, hs.5.trans i1.5, hs.6.trans i1.6,
          hs.7.trans i1.7, hs.8.trans i1.8, hs.9.trans i1.9, hs.10.trans i1.10⟩
      · have := i2 e
        rcases hk a with k | ⟨v, k1, -, k2 | ⟨k2, -⟩⟩
        · rw [k]; exact this
        · rw [this] at k2; cases k2
        · rw [this] at k2; cases k2
      · have := i3 e
        rcases hk a with k | ⟨v, k1, -, k2 | ⟨k2, -⟩⟩
        · rw [k]; exact this
        · rw [this] at k2; cases k2
        · rw [this] at k2; cases k2
      · have := i4 e
        rcases hk a with k | ⟨v, k1, -⟩
        · rw [k]; exact this
        · rw [k1]; simp

/-- C20: exactly the votes that are accepted.  The pool can run, the signer is the registered node of the staker, there is
a bundle to vote on and it is the one voted on, and the staker has not voted yet or only abstained. -/
theorem Chain.C20_accepted (gov : Addr) (c : Chain) (m : VoteMsg) :
    (∃ c', exec gov c (.vote m) = .ok c') ↔
      (∃ p, CanRun c m.pool p) ∧ Registered c m.pool m.staker m.creator ∧ (c.proposal m.pool).storageId ≠ 0 ∧
      m.storageId = (c.proposal m.pool).storageId ∧ m.vote ≠ .unspecified ∧
      (voteOf c m.pool m.staker = none ∨ voteOf c m.pool m.staker = some .abstain ∧ m.vote ≠ .abstain) := by
  constructor
  · rintro ⟨c', hc⟩
    obtain ⟨h1, p, hp, e⟩ := vote_ok (c := c) hc
    obtain ⟨k1, k2, k3, k4, k5, k6⟩ := canVote_none h1
    have hq : castVote (c.proposal m.pool) m.staker m.vote = .ok (c'.proposal m.pool) := by
      have : c'.proposal m.pool = p := by
        rw [e]
        show (c.setProposal m.pool p).proposal m.pool = p
        rw [proposal_set, if_pos rfl]
      rw [this]; exact hp
    obtain ⟨-, k⟩ := castVote_voteOf k5 k6 hq m.staker
    refine ⟨k1, k2, k3, k4, fun hu => ?_, (k rfl).2⟩
    rw [hu] at hp; cases hp
  · rintro ⟨k1, k2, k3, k4, k5, k6⟩
    have hv : m.staker ∉ (c.proposal m.pool).valid := by
      intro hm
      have : voteOf c m.pool m.staker = some .valid := by unfold voteOf; rw [if_pos hm]
      rw [this] at k6; simp at k6
    have hi : m.staker ∉ (c.proposal m.pool).invalid := by
      intro hm
      have : voteOf c m.pool m.staker = some .invalid := by unfold voteOf; rw [if_neg hv, if_pos hm]
      rw [this] at k6; simp at k6
    have hc : c.canVote m.pool m.staker m.creator m.storageId = none := by
      unfold canVote
      rw [runError_none_iff.2 k1, authorized_iff.2 k2, if_neg (by simp), if_neg (by simp), if_neg k3,
        if_neg (by simp [k4]), if_neg hv, if_neg hi]
    show ∃ c', c.vote m = .ok c'
    unfold vote
    rw [hc]
    show ∃ c', (match castVote (c.proposal m.pool) m.staker m.vote with
      | .error e => .error e
      | .ok p => .ok ((c.setProposal m.pool p).resetPoints m.pool m.staker)) = Except.ok c'
    cases hm : m.vote with
    | unspecified => exact absurd hm k5
    | valid => exact ⟨_, rfl⟩
    | invalid => exact ⟨_, rfl⟩
    | abstain =>
      have ha : m.staker ∉ (c.proposal m.pool).abstain := by
        intro ha
        have : voteOf c m.pool m.staker = some .abstain := by unfold voteOf; rw [if_neg hv, if_neg hi, if_pos ha]
        rw [this, hm] at k6; simp at k6
      unfold castVote
      simp only [if_neg ha]
      exact ⟨_, rfl⟩

/-! ## concrete cases -/

/-- staker 4 abstains, then votes invalid -/
def Sample.abstained : Chain := Sample.run Sample.voted [Sample.votes 4 7 .abstain]

theorem Sample.reach_abstained : Reachable Sample.gov Sample.abstained :=
  Sample.run_reachable Sample.reach_voted _ (by decide +kernel)

example : (votesCast Sample.abstained 0 4, voteOf Sample.abstained 0 4) = (1, some .abstain) ∧
    voteOf (Sample.abstained.step Sample.gov (Sample.votes 4 7 .invalid)) 0 4 = some .invalid ∧
    (Sample.abstained.exec Sample.gov (Sample.votes 4 7 .abstain)).isOk = false ∧
    (Sample.abstained.exec Sample.gov (Sample.votes 3 7 .invalid)).isOk = false ∧
    voteOf (Sample.abstained.step Sample.gov (Sample.votes 4 7 .invalid)) 0 3 = some .valid := by decide +kernel

-- a round that goes on, and one that ends
example : SameRound Sample.gov 0 Sample.proposed (Sample.proposed.step Sample.gov (Sample.votes 2 7 .valid)) := by
  refine .step _ .refl ⟨Delegation.calm_of_dustOk (by decide +kernel), by decide +kernel⟩ ?_
  rintro (⟨h, -⟩ | ⟨m, h, -⟩)
  · exact absurd h (by decide +kernel)
  · cases h

example : Over 0 Sample.second (.submit (Sample.bundle 1 8 10)) :=
  Or.inr ⟨_, rfl, rfl, by decide +kernel, by decide +kernel, by decide +kernel, by decide +kernel, by decide +kernel⟩

end Verif.Chain
