import Verif.Team.Issue

/-!
# The balance x/team says it requires

`RequiredModuleBalance` is computed with `uint64` numbers that wrap around; here it is shown to be the team allocation
plus the credited rewards minus what was paid out.
-/

namespace Verif.Team
open Verif Spec

theorem requiredFold (l : List Account) : ∀ u, u < twoPow64 →
    (∀ a ∈ l, a.rewardsClaimed ≤ a.totalRewards ∧ a.unlockedClaimed ≤ twoPow64) →
    (l.foldl (fun r a => u64sub (u64add r (u64sub a.totalRewards a.rewardsClaimed)) a.unlockedClaimed) u
      + (l.map (·.unlockedClaimed)).sum) % twoPow64 =
      (u + (l.map (fun a => a.totalRewards - a.rewardsClaimed)).sum) % twoPow64 ∧
    l.foldl (fun r a => u64sub (u64add r (u64sub a.totalRewards a.rewardsClaimed)) a.unlockedClaimed) u < twoPow64 := by
  induction l with
  | nil => intro u hu _; exact ⟨rfl, hu⟩
  | cons a t ih =>
    intro u hu h
    simp only [List.foldl_cons, List.map_cons, List.sum_cons]
    obtain ⟨h1, h2⟩ := h a (List.mem_cons_self ..)
    have hv : u64sub (u64add u (u64sub a.totalRewards a.rewardsClaimed)) a.unlockedClaimed < twoPow64 :=
      Nat.mod_lt _ (by decide)
    obtain ⟨i1, i2⟩ := ih _ hv (fun x hx => h x (List.mem_cons_of_mem _ hx))
    refine ⟨?_, i2⟩
    generalize List.foldl _ _ t = R at i1 i2 ⊢
    generalize (t.map (·.unlockedClaimed)).sum = S1 at i1 ⊢
    generalize (t.map (fun a => a.totalRewards - a.rewardsClaimed)).sum = S2 at i1 ⊢
    unfold u64sub u64add twoPow64 at *
    omega

theorem sum_sub {l : List Account} (h : ∀ a ∈ l, a.rewardsClaimed ≤ a.totalRewards) :
    (l.map (fun a => a.totalRewards - a.rewardsClaimed)).sum + (l.map (·.rewardsClaimed)).sum = (l.map (·.totalRewards)).sum := by
  induction l with
  | nil => rfl
  | cons a t ih =>
    simp only [List.map_cons, List.sum_cons]
    have := h a (List.mem_cons_self ..)
    have := ih fun x hx => h x (List.mem_cons_of_mem _ hx)
    omega

theorem sum_add (l : List Account) : (l.map (fun a => a.unlockedClaimed + a.rewardsClaimed)).sum =
    (l.map (·.unlockedClaimed)).sum + (l.map (·.rewardsClaimed)).sum := by
  induction l with
  | nil => rfl
  | cons a t ih =>
    simp only [List.map_cons, List.sum_cons, ih]
    omega

theorem sum_vals (m : Map Nat Account) (f : Account → Nat) : m.sum (fun _ a => f a) = (m.vals.map f).sum := by
  unfold Map.sum Map.vals
  rw [List.map_map]; rfl

theorem mem_vals {m : Map Nat Account} {a : Account} (h : a ∈ m.vals) : ∃ id, m.get? id = some a := by
  unfold Map.vals at h
  obtain ⟨p, hp, rfl⟩ := List.mem_map.1 h
  exact ⟨p.1, entries_ok m p hp⟩

theorem sum_le_sum {l : List Account} {f g : Account → Nat} (h : ∀ a ∈ l, f a ≤ g a) : (l.map f).sum ≤ (l.map g).sum := by
  induction l with
  | nil => exact Nat.le_refl _
  | cons a t ih =>
    simp only [List.map_cons, List.sum_cons]
    exact Nat.add_le_add (h a (List.mem_cons_self ..)) (ih fun x hx => h x (List.mem_cons_of_mem _ hx))

theorem claimed_le_issued {w : World} (hs : AllInv w) :
    (w.team.accounts.vals.map (·.unlockedClaimed)).sum ≤ totalIssued w.team := by
  unfold totalIssued
  rw [sum_vals]
  refine sum_le_sum fun a ha => ?_
  obtain ⟨id, hid⟩ := mem_vals ha
  have hi := hs id a hid
  have h1 := hi.claimed w.now hi.last
  have h2 := unlocked_le_vested a w.now
  have h3 := vested_le_max hi.sane w.now
  omega

/-- the balance required is the allocation plus everything credited minus everything paid -/
theorem required_eq {w : World} (hs : AllInv w) (ha : w.team.authClaimed ≤ w.team.authTotal)
    (hi : totalIssued w.team ≤ ALLOCATION) (hb : ALLOCATION + credited w.team < twoPow64 + paid w.team) :
    paid w.team ≤ ALLOCATION + credited w.team ∧
    requiredModuleBalance w.team = ALLOCATION + credited w.team - paid w.team := by
  have h0 := claimed_le_issued hs
  have hv : ∀ a ∈ w.team.accounts.vals, a.rewardsClaimed ≤ a.totalRewards ∧ a.unlockedClaimed ≤ twoPow64 := fun a ha => by
    obtain ⟨id, hid⟩ := mem_vals ha
    have hi := hs id a hid
    have h1 := hi.claimed w.now hi.last
    have h2 := unlocked_le_vested a w.now
    have h3 := vested_lt hi.sane w.now
    exact ⟨hi.rewards, by unfold twoPow64; omega⟩
  unfold credited paid at *
  rw [sum_vals, sum_vals, sum_add] at hb
  rw [sum_vals, sum_vals, sum_add]
  have h1 := sum_sub fun a ha => (hv a ha).1
  obtain ⟨h2, h3⟩ := requiredFold w.team.accounts.vals (u64add ALLOCATION (u64sub w.team.authTotal w.team.authClaimed))
    (Nat.mod_lt _ (by decide)) hv
  unfold requiredModuleBalance
  generalize List.foldl _ _ w.team.accounts.vals = R at h2 h3 ⊢
  generalize (w.team.accounts.vals.map (·.unlockedClaimed)).sum = S1 at *
  generalize (w.team.accounts.vals.map (·.totalRewards)).sum = S2 at *
  generalize (w.team.accounts.vals.map (·.rewardsClaimed)).sum = S3 at *
  generalize (w.team.accounts.vals.map (fun a => a.totalRewards - a.rewardsClaimed)).sum = S4 at *
  unfold u64add u64sub at h2
  have hA : ALLOCATION < twoPow64 := by decide
  generalize ALLOCATION = A at *
  unfold twoPow64 at *
  omega

end Verif.Team
