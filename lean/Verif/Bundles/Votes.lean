import Verif.Bundles.Model
import Mathlib.Data.List.Perm.Basic
import Mathlib.Algebra.BigOperators.Group.List.Basic

/-!
# C21 The quorum is a true majority of stake
-/

namespace Verif.Bundles
open Verif

/-- Specification: the delegation behind those members of the pool that are in the list `voters`.  Every member is
counted once, whoever is no member (any more) is not counted. -/
def stakeFor (members : List Addr) (amt : Addr → Nat) (voters : List Addr) : Nat :=
  ((members.filter (fun a => decide (a ∈ voters))).map amt).sum

/-- Specification: the delegation of the whole pool. -/
def stakeAll (members : List Addr) (amt : Addr → Nat) : Nat := (members.map amt).sum

/-- Specification of the vote lists of a proposal: nobody is in two lists or twice in one (C20). -/
structure CleanVotes (p : Proposal) : Prop where
  valid : p.valid.Nodup
  invalid : p.invalid.Nodup
  abstain : p.abstain.Nodup
  vi : ∀ a ∈ p.valid, a ∉ p.invalid
  va : ∀ a ∈ p.valid, a ∉ p.abstain
  ia : ∀ a ∈ p.invalid, a ∉ p.abstain

theorem sum_filter_eq (members : List Addr) (amt : Addr → Nat) (voters : List Addr) (member : Addr → Bool)
    (hm : members.Nodup) (hv : voters.Nodup) (hmem : ∀ a, member a = true ↔ a ∈ members) :
    ((voters.filter member).map amt).sum = stakeFor members amt voters := by
  unfold stakeFor
  refine List.Perm.sum_eq (List.Perm.map _ ?_)
  rw [List.perm_ext_iff_of_nodup (hv.filter _) (hm.filter _)]
  intro a
  simp only [List.mem_filter, decide_eq_true_eq, hmem]
  exact and_comm

theorem sum_filter_le (l : List Addr) (amt : Addr → Nat) (q : Addr → Bool) :
    ((l.filter q).map amt).sum ≤ (l.map amt).sum := by
  induction l with
  | nil => simp
  | cons a l ih =>
    rw [List.filter_cons]
    by_cases h : q a = true
    · simp only [h, if_true, List.map_cons, List.sum_cons]; omega
    · simp only [h, List.map_cons, List.sum_cons]; simp only [Bool.false_eq_true, if_false]; omega

theorem stakeFor_le (members : List Addr) (amt : Addr → Nat) (voters : List Addr) :
    stakeFor members amt voters ≤ stakeAll members amt := sum_filter_le _ _ _

/-- votes of disjoint groups together are at most everything -/
theorem stakeFor_disjoint (members : List Addr) (amt : Addr → Nat) (v w : List Addr) (h : ∀ a ∈ v, a ∉ w) :
    stakeFor members amt v + stakeFor members amt w ≤ stakeAll members amt := by
  unfold stakeFor stakeAll
  induction members with
  | nil => simp
  | cons a l ih =>
    rw [List.filter_cons, List.filter_cons]
    by_cases h1 : a ∈ v
    · have h2 := h a h1
      simp only [h1, h2, decide_true, decide_false, if_true, Bool.false_eq_true, if_false, List.map_cons, List.sum_cons]
      omega
    · by_cases h2 : a ∈ w <;>
      · simp only [h1, h2, decide_true, decide_false, if_true, Bool.false_eq_true, if_false, List.map_cons, List.sum_cons]
        omega

theorem power_eq {members : List Addr} {amt : Addr → Nat} {voters : List Addr} {member : Addr → Bool}
    (hm : members.Nodup) (hv : voters.Nodup) (hmem : ∀ a, member a = true ↔ a ∈ members)
    (hb : stakeAll members amt < 2 ^ 63) :
    power amt (voters.filter member) = stakeFor members amt voters := by
  unfold power
  rw [sum_filter_eq members amt voters member hm hv hmem]
  have := stakeFor_le members amt voters
  apply Nat.mod_eq_of_lt
  unfold twoPow64; omega

theorem power_all {members : List Addr} {amt : Addr → Nat} (hb : stakeAll members amt < 2 ^ 63) :
    power amt members = stakeAll members amt := by
  unfold power stakeAll at *
  apply Nat.mod_eq_of_lt
  unfold twoPow64; omega

theorem double_mod {n : Nat} (h : n < 2 ^ 63) : (n * 2) % twoPow64 = n * 2 := by
  apply Nat.mod_eq_of_lt
  unfold twoPow64; omega

/-- C21, the reported numbers: the vote distribution of a proposal counts the stake of each side, every member once
and only members. -/
theorem C21_counts (members : List Addr) (amt : Addr → Nat) (member : Addr → Bool) (p : Proposal)
    (hm : members.Nodup) (hmem : ∀ a, member a = true ↔ a ∈ members) (hp : CleanVotes p)
    (hb : stakeAll members amt < 2 ^ 63) :
    (voteDist member amt members p).valid = stakeFor members amt p.valid ∧
    (voteDist member amt members p).invalid = stakeFor members amt p.invalid ∧
    (voteDist member amt members p).abstain = stakeFor members amt p.abstain ∧
    (voteDist member amt members p).total = stakeAll members amt :=
  ⟨power_eq hm hp.valid hmem hb, power_eq hm hp.invalid hmem hb, power_eq hm hp.abstain hmem hb, power_all hb⟩

theorem stakeFor_disjoint3 (members : List Addr) (amt : Addr → Nat) (u v w : List Addr) (h1 : ∀ a ∈ u, a ∉ v)
    (h2 : ∀ a ∈ u, a ∉ w) (h3 : ∀ a ∈ v, a ∉ w) :
    stakeFor members amt u + stakeFor members amt v + stakeFor members amt w ≤ stakeAll members amt := by
  unfold stakeFor stakeAll
  induction members with
  | nil => simp
  | cons a l ih =>
    rw [List.filter_cons, List.filter_cons, List.filter_cons]
    by_cases g1 : a ∈ u
    · have g2 := h1 a g1
      have g3 := h2 a g1
      simp only [g1, g2, g3, decide_true, decide_false, if_true, Bool.false_eq_true, if_false, List.map_cons,
        List.sum_cons]
      omega
    · by_cases g2 : a ∈ v
      · have g3 := h3 a g2
        simp only [g1, g2, g3, decide_true, decide_false, if_true, Bool.false_eq_true, if_false, List.map_cons,
          List.sum_cons]
        omega
      · by_cases g3 : a ∈ w <;>
        · simp only [g1, g2, g3, decide_true, decide_false, if_true, Bool.false_eq_true, if_false, List.map_cons,
            List.sum_cons]
          omega

/-- C21, the three sides together never count more than the pool's stake. -/
theorem C21_bounded (members : List Addr) (amt : Addr → Nat) (member : Addr → Bool) (p : Proposal)
    (hm : members.Nodup) (hmem : ∀ a, member a = true ↔ a ∈ members) (hp : CleanVotes p)
    (hb : stakeAll members amt < 2 ^ 63) :
    (voteDist member amt members p).valid + (voteDist member amt members p).invalid +
      (voteDist member amt members p).abstain ≤ (voteDist member amt members p).total := by
  obtain ⟨h1, h2, h3, h4⟩ := C21_counts members amt member p hm hmem hp hb
  rw [h1, h2, h3, h4]
  exact stakeFor_disjoint3 members amt _ _ _ hp.vi hp.va hp.ia

/-- C21: a proposal is valid iff members with strictly more than half of the pool's stake voted valid; it is invalid
iff it is not valid, there is stake, and members with at least half of it voted invalid; otherwise there is no quorum. -/
theorem C21_majority (members : List Addr) (amt : Addr → Nat) (member : Addr → Bool) (p : Proposal)
    (hm : members.Nodup) (hmem : ∀ a, member a = true ↔ a ∈ members) (hp : CleanVotes p)
    (hb : stakeAll members amt < 2 ^ 63) :
    ((voteDist member amt members p).status = .valid ↔
      stakeAll members amt < 2 * stakeFor members amt p.valid) ∧
    ((voteDist member amt members p).status = .invalid ↔
      0 < stakeAll members amt ∧ stakeAll members amt ≤ 2 * stakeFor members amt p.invalid) ∧
    ((voteDist member amt members p).status = .noQuorum ↔
      2 * stakeFor members amt p.valid ≤ stakeAll members amt ∧
      (0 < stakeAll members amt → 2 * stakeFor members amt p.invalid < stakeAll members amt)) := by
  have hs : (voteDist member amt members p).status =
      decideStatus (stakeFor members amt p.valid) (stakeFor members amt p.invalid) (stakeAll members amt) := by
    unfold voteDist
    simp only [power_eq hm hp.valid hmem hb, power_eq hm hp.invalid hmem hb, power_all hb]
  have h1 := stakeFor_disjoint members amt p.valid p.invalid hp.vi
  rw [hs]
  generalize stakeFor members amt p.valid = v at *
  generalize stakeFor members amt p.invalid = i at *
  generalize stakeAll members amt = t at *
  unfold decideStatus
  rw [double_mod (by omega : v < 2 ^ 63), double_mod (by omega : i < 2 ^ 63)]
  split_ifs with a1 a2 a3
  · refine ⟨⟨fun h => (by cases h), fun h => (by omega)⟩, ⟨fun h => (by cases h), fun h => (by omega)⟩,
      ⟨fun _ => ⟨by omega, fun h => (by omega)⟩, fun _ => rfl⟩⟩
  · refine ⟨⟨fun _ => by omega, fun _ => rfl⟩, ⟨fun h => (by cases h), fun h => (by omega)⟩,
      ⟨fun h => (by cases h), fun h => (by omega)⟩⟩
  · refine ⟨⟨fun h => (by cases h), fun h => (by omega)⟩, ⟨fun _ => ⟨by omega, by omega⟩, fun _ => rfl⟩,
      ⟨fun h => (by cases h), fun h => (by have := h.2 (by omega); omega)⟩⟩
  · refine ⟨⟨fun h => (by cases h), fun h => (by omega)⟩, ⟨fun h => (by cases h), fun h => (by omega)⟩,
      ⟨fun _ => ⟨by omega, fun h => (by omega)⟩, fun _ => rfl⟩⟩

/-- C21: no vote configuration supports both answers. -/
theorem C21_exclusive (members : List Addr) (amt : Addr → Nat) (p : Proposal) (hp : CleanVotes p) :
    ¬ (stakeAll members amt < 2 * stakeFor members amt p.valid ∧
       stakeAll members amt ≤ 2 * stakeFor members amt p.invalid) := by
  have := stakeFor_disjoint members amt p.valid p.invalid hp.vi
  omega

/-- a witness: three members with stake 5, 3, 2; the first two voted differently, a third voter has left -/
def exampleProposal : Proposal :=
  { Proposal.blank (some 1) 0 with storageId := 7, valid := [1, 9], invalid := [2], abstain := [3] }

example : CleanVotes exampleProposal := by
  constructor <;> decide

example : (voteDist (fun a => decide (a ∈ [1, 2, 3])) (fun a => if a = 1 then 6 else if a = 9 then 100 else 3) [1, 2, 3]
    exampleProposal) = ⟨6, 3, 3, 12, .noQuorum⟩ := by decide +kernel

example : (voteDist (fun a => decide (a ∈ [1, 2, 3])) (fun a => if a = 1 then 7 else 3) [1, 2, 3]
    exampleProposal).status = .valid := by decide +kernel

example : (voteDist (fun a => decide (a ∈ [1, 2, 3])) (fun a => if a = 2 then 6 else 3) [1, 2, 3]
    exampleProposal).status = .invalid := by decide +kernel

end Verif.Bundles
