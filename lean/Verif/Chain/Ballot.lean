import Verif.Chain.Voting
import Verif.Chain.Honest

/-!
# What a vote counts for (C104)

A vote names the pool and the storage id of the bundle, not the data hash, the keys or the summary.  So a vote that was signed
while one bundle was up for vote is accepted for a later bundle with the same storage id.
-/

set_option linter.dupNamespace false
namespace Verif.Chain
open Verif
open Chain
open Verif.Bundles (Proposal)

/-! ## specification -/

/-- the chain accepts the vote -/
def Counts (gov : Addr) (c : Chain) (m : VoteMsg) : Prop := ∃ c', exec gov c (.vote m) = .ok c'

/-- between `c` and `d`, a submission to pool `id` with the storage id `s` was accepted, and its data is what is up for vote
in `d` -/
def Resubmitted (gov : Addr) (id s : Nat) (c d : Chain) : Prop :=
  ∃ x x' m, Later gov c x ∧ exec gov x (.submit m) = .ok x' ∧ Later gov x' d ∧ m.pool = id ∧ m.storageId = s ∧
    d.data id = m.data

/-! ## proofs -/

variable {gov : Addr} {c d : Chain} {id : Nat}

/-- where the data that is up for vote comes from -/
theorem origin (hr : Reachable gov c) (h : Later gov c d) (id : Nat) :
    d.data id = c.data id ∨ (d.proposal id).storageId = 0 ∨ Resubmitted gov id (d.proposal id).storageId c d := by
  induction h with
  | refl => exact Or.inl rfl
  | @step d op h hs ih =>
    have hd := Later.reachable hr h
    have same : (d.step gov op).data id = d.data id →
        (d.step gov op).data id = c.data id ∨ ((d.step gov op).proposal id).storageId = 0 ∨
          Resubmitted gov id ((d.step gov op).proposal id).storageId c (d.step gov op) := fun e => by
      have es : ((d.step gov op).proposal id).storageId = (d.proposal id).storageId := congrArg Data.storageId e
      rcases ih with ih | ih | ⟨x, x', m, h1, h2, h3, h4, h5, h6⟩
      · exact Or.inl (e.trans ih)
      · exact Or.inr (Or.inl (es.trans ih))
      · exact Or.inr (Or.inr ⟨x, x', m, h1, h2, .step op h3 hs, h4, h5.trans es.symm, e.trans h6⟩)
    have blank : ∀ {n : Option Addr} {t : Nat}, (d.step gov op).proposal id = Proposal.blank n t →
        ((d.step gov op).proposal id).storageId = 0 := fun e => by rw [e]; rfl
    have sub : ∀ {pl : Pool.Pool}, Submitted id pl d (d.step gov op) op →
        (d.step gov op).data id = c.data id ∨ ((d.step gov op).proposal id).storageId = 0 ∨
          Resubmitted gov id ((d.step gov op).proposal id).storageId c (d.step gov op) := by
      rintro pl ⟨m, n, rfl, e1, e⟩
      have ed : (d.step gov (.submit m)).data id = m.data := by unfold Chain.data; rw [e]; rfl
      cases hc : d.crashed with
      | true => exact same (by unfold step; rw [hc]; rfl)
      | false =>
        cases he : exec gov d (.submit m) with
        | error x => exact same (by unfold step; rw [hc, he]; rfl)
        | ok d' =>
          have e2 : d.step gov (.submit m) = d' := by unfold step; rw [hc, he]; rfl
          exact Or.inr (Or.inr ⟨d, d', m, h, he, by rw [e2]; exact .refl, e1, (congrArg Data.storageId ed).symm, ed⟩)
    cases round_step hd op id with
    | kept n t e s => exact same (by unfold Chain.data; rw [e])
    | voted m e1 e2 hreg h0 hs' hv hi hc s =>
      refine same ?_
      have : ∀ {p q : Proposal} {a : Addr} {v : Vote}, castVote p a v = .ok q → q.storageId = p.storageId ∧
          q.dataHash = p.dataHash ∧ q.fromKey = p.fromKey ∧ q.toKey = p.toKey ∧ q.summary = p.summary ∧
          q.bundleSize = p.bundleSize := by
        intro p q a v h
        unfold castVote at h
        split at h
        · cases h
        · cases h; exact ⟨rfl, rfl, rfl, rfl, rfl, rfl⟩
        · cases h; exact ⟨rfl, rfl, rfl, rfl, rfl, rfl⟩
        · split at h
          · cases h
          · cases h; exact ⟨rfl, rfl, rfl, rfl, rfl, rfl⟩
      obtain ⟨g1, g2, g3, g4, g5, g6⟩ := this hc
      unfold Chain.data
      simp only [g1, g2, g3, g4, g5, g6]
    | dropped n e s => exact Or.inr (Or.inl (blank e))
    | proposed pl _ _ hs' _ => exact sub hs'
    | finalized pl v _ _ hs' =>
      rcases hs' with ⟨n, e⟩ | hs'
      · exact Or.inr (Or.inl (blank e))
      · exact sub hs'

/-- **C104** (part): a vote is counted only for data with the storage id that it names, and the data that it counts for is the
data that was up for vote when it was signed — unless, in the meantime, the chain accepted another submission with the same
storage id. -/
theorem C104_vote_partial (gov : Addr) (c d : Chain) (hc : Reachable gov c) (h : Later gov c d) (m : VoteMsg)
    (hd : Counts gov d m) :
    (d.data m.pool).storageId = m.storageId ∧
      (d.data m.pool = c.data m.pool ∨ Resubmitted gov m.pool m.storageId c d) := by
  obtain ⟨d', he⟩ := hd
  obtain ⟨-, -, h0, h1, -⟩ := canVote_none (vote_ok he).1
  refine ⟨h1.symm, ?_⟩
  rcases origin hc h m.pool with e | e | e
  · exact Or.inl e
  · exact absurd e h0
  · rw [← h1] at e; exact Or.inr e

/-- the second bundle of staker 1 has the storage id of the first, and another data hash -/
def Sample.again : Chain := Sample.run Sample.later [.submit { Sample.bundle 1 7 10 with dataHash := 2 }]

theorem Sample.run_later {c d : Chain} (h : Later Sample.gov c d) (l : List Op) (ho : Sample.okRun d l = true) :
    Later Sample.gov c (Sample.run d l) := by
  induction l generalizing d with
  | nil => exact h
  | cons op l ih =>
    simp only [Sample.okRun, Bool.and_eq_true, decide_eq_true_eq] at ho
    exact ih (.step op h ⟨Delegation.calm_of_dustOk ho.1.1, ho.1.2⟩) ho.2

theorem Sample.later_again : Later Sample.gov Sample.proposed Sample.again :=
  Sample.run_later (Sample.run_later (Sample.run_later .refl _ (by decide +kernel)) _ (by decide +kernel)) _ (by decide +kernel)

/-- **C104 is false**: there is a history in which a vote that would be counted for the data that is up for vote is counted,
later, for other data. -/
theorem C104_carried_over : ∃ c d m, Reachable Sample.gov c ∧ Later Sample.gov c d ∧ Counts Sample.gov c m ∧
    Counts Sample.gov d m ∧ (c.data m.pool).dataHash ≠ (d.data m.pool).dataHash := by
  have ok : ∀ {c : Chain}, (exec Sample.gov c (Sample.votes 4 7 .valid)).isOk = true →
      Counts Sample.gov c ⟨14, 4, 0, 7, .valid⟩ := by
    intro c h
    cases e : exec Sample.gov c (Sample.votes 4 7 .valid) with
    | error x => rw [e] at h; cases h
    | ok c' => exact ⟨c', e⟩
  exact ⟨Sample.proposed, Sample.again, ⟨14, 4, 0, 7, .valid⟩, Sample.reach_proposed, Sample.later_again,
    ok (by decide +kernel), ok (by decide +kernel), by decide +kernel⟩

/-- the hypotheses of the theorem above: the vote of staker 4 on the first bundle, before and after staker 2 and 3 voted -/
example : Later Sample.gov Sample.proposed Sample.voted ∧ (Sample.proposed.data 0).storageId = 7 ∧
    (exec Sample.gov Sample.voted (Sample.votes 4 7 .valid)).isOk = true :=
  ⟨Sample.run_later .refl _ (by decide +kernel), by decide +kernel, by decide +kernel⟩

end Verif.Chain
