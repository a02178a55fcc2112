import Verif.Team.Inv

/-! Issued allocation and inflation split of x/team (helper lemmas). -/

namespace Verif.Team
open Verif Spec

/-- "A clawback date, once set, is only ever moved to an earlier date": every clawback message of the history
sets a date, and not a later one than the account already has. -/
def Spec.Tightens (w : World) : Op → Prop
  | .clawback _ id cb => ∀ acc, w.team.accounts.get? id = some acc →
      cb ≠ 0 ∧ (acc.clawback = 0 ∨ cb ≤ acc.clawback)
  | _ => True

/-- `Tightens` for every message of the history -/
def Spec.OnlyTighten : World → List Op → Prop
  | _, [] => True
  | w, op :: t => Tightens w op ∧ OnlyTighten (step w op) t

theorem issued_foldl (l : List Account) : ∀ u, u < twoPow64 →
    l.foldl (fun u a => u64add u (maxAmount a)) u = (u + (l.map maxAmount).sum) % twoPow64 := by
  induction l with
  | nil => intro u hu; simp; exact (Nat.mod_eq_of_lt hu).symm
  | cons a t ih =>
    intro u hu
    simp only [List.foldl_cons, List.map_cons, List.sum_cons]
    rw [ih (u64add u (maxAmount a)) (Nat.mod_lt _ (by decide))]
    unfold u64add
    rw [Nat.mod_add_mod, Nat.add_assoc]

theorem issued_eq {s : State} (h : totalIssued s ≤ ALLOCATION) : issued s = totalIssued s := by
  unfold issued
  rw [issued_foldl _ 0 (by decide)]
  have : (s.accounts.vals.map maxAmount).sum = totalIssued s := by
    unfold totalIssued Map.sum Map.vals
    rw [List.map_map]; rfl
  rw [this, Nat.zero_add]
  apply Nat.mod_eq_of_lt
  have : ALLOCATION < twoPow64 := by decide
  omega

theorem maxAmount_congr {a b : Account} (h1 : a.totalAllocation = b.totalAllocation)
    (h2 : a.commencement = b.commencement) (h3 : a.clawback = b.clawback) : maxAmount a = maxAmount b := by
  unfold maxAmount vestedAmount; rw [h1, h2, h3]

theorem totalIssued_set {s : State} {id : Nat} {acc acc' : Account} (h : s.accounts.get? id = some acc)
    (e : maxAmount acc' ≤ maxAmount acc) :
    totalIssued { s with accounts := s.accounts.set id acc' } ≤ totalIssued s := by
  unfold totalIssued
  have := s.accounts.sum_set (fun _ a => maxAmount a) id acc'
  simp only [Map.at', h] at this
  simp only
  omega

theorem maxAmount_tighten {acc : Account} (h : Sane acc) {cb : Nat} (h0 : cb ≠ 0) (h64 : cb < 2 ^ 64)
    (hc : acc.commencement ≤ cb) (ht : acc.clawback = 0 ∨ cb ≤ acc.clawback) :
    maxAmount { acc with clawback := cb } ≤ maxAmount acc := by
  rw [maxAmount_eq h, maxAmount_eq (a := { acc with clawback := cb }) ⟨h.total, h.comm, Or.inr hc, h64⟩]
  unfold vested
  apply vestedAfter_mono
  unfold elapsed
  simp only
  rw [if_neg h0]
  split <;> omega

theorem issued_step {w : World} (h : totalIssued w.team ≤ ALLOCATION) (hs : AllInv w) (hf : Fresh w.team)
    {op : Op} (ho : SaneOp op) (ht : Tightens w op) : totalIssued (step w op).team ≤ ALLOCATION := by
  cases op with
  | create auth total c =>
    simp only [Team.step, create]
    rw [issued_eq h]
    split
    · exact h
    · split
      · exact h
      · split
        · exact h
        · rename_i hle
          simp only [orElse]
          unfold totalIssued
          rw [Map.sum_set_absent _ _ _ (hf _ (Nat.le_refl _))]
          have hm := maxAmount_le (a := ⟨w.team.count, total, c, 0, 0, 0, 0, 0⟩)
            ⟨ho.1, ho.2, Or.inl rfl, by simp⟩
          simp only at hm
          have h1 := ho.1
          have e : u64add (totalIssued w.team) total = totalIssued w.team + total := by
            unfold u64add
            apply Nat.mod_eq_of_lt
            have : ALLOCATION < 2 ^ 63 := by decide
            unfold twoPow64
            omega
          rw [e] at hle
          unfold totalIssued at hle
          generalize ALLOCATION = A at *
          omega
  | claimUnlocked auth id amount r =>
    simp only [Team.step, claimUnlocked]
    split
    · exact h
    · split
      · exact h
      · rename_i hacc
        split
        · exact h
        · split
          · exact h
          · exact Nat.le_trans (totalIssued_set hacc (Nat.le_of_eq (maxAmount_congr rfl rfl rfl))) h
  | clawback auth id cb =>
    simp only [Team.step, clawback]
    split
    · exact h
    · split
      · exact h
      · rename_i acc hacc
        split
        · exact h
        · rename_i hc
          split
          · exact h
          · obtain ⟨t1, t2⟩ := ht acc hacc
            exact Nat.le_trans (totalIssued_set hacc (maxAmount_tighten (hs id acc hacc).sane t1 ho
              (by omega) t2)) h
  | claimAccountRewards auth id amount r =>
    simp only [Team.step, claimAccountRewards]
    split
    · exact h
    · split
      · exact h
      · rename_i hacc
        split
        · exact h
        · split
          · exact h
          · exact Nat.le_trans (totalIssued_set hacc (Nat.le_of_eq (maxAmount_congr rfl rfl rfl))) h
  | claimAuthorityRewards auth amount r =>
    simp only [Team.step, claimAuthorityRewards]
    split
    · exact h
    · split
      · exact h
      · split <;> exact h
  | block dt p s =>
    unfold step totalIssued
    rw [distribute_accounts, credit_sum (f := maxAmount)
      (fun a x => maxAmount_congr rfl rfl rfl) _ _ (entries_ok _) (Map.keys_nodup _)]
    exact h
  | external b gift => exact h

theorem issued_run {w : World} (h : totalIssued w.team ≤ ALLOCATION) (hs : AllInv w) (hf : Fresh w.team)
    {ops : List Op} (ho : ∀ op ∈ ops, SaneOp op) (ht : OnlyTighten w ops) :
    totalIssued (run w ops).team ≤ ALLOCATION := by
  induction ops generalizing w with
  | nil => exact h
  | cons op t ih =>
    exact ih (issued_step h hs hf (ho op (by simp)) ht.1) (hs.step (ho op (by simp))) (hf.step op)
      (fun o hm => ho o (by simp [hm])) ht.2

theorem Fresh.run {w : World} (h : Fresh w.team) (ops : List Op) : Fresh (run w ops).team := by
  induction ops generalizing w with
  | nil => exact h
  | cons op t ih => exact ih (h.step op)

/-! ### the inflation split -/

theorem share_bound (x n : Nat) :
    2 * (Dec.quo (Dec.ofNat x) (Dec.ofNat n) * n) ≤ 2 * (x * Dec.one) + n := by
  have h := Dec.quo_upper (Dec.ofNat x) (Dec.ofNat n)
  unfold Dec.ofNat at h ⊢
  generalize Dec.quo (x * Dec.one) (n * Dec.one) = q at *
  have h' : Dec.one * (2 * (q * n)) ≤ Dec.one * (2 * (x * Dec.one) + n) := by
    calc Dec.one * (2 * (q * n)) = 2 * (q * (n * Dec.one)) := by ring
      _ ≤ _ := h
      _ = Dec.one * (2 * (x * Dec.one) + n) := by ring
  exact Nat.le_of_mul_le_mul_left h' Dec.one_pos

theorem div_sum_le (O : Nat) (l : List Nat) : (l.map (fun x => x / O)).sum * O ≤ l.sum := by
  induction l with
  | nil => simp
  | cons x t ih =>
    simp only [List.map_cons, List.sum_cons, Nat.add_mul]
    have := Nat.div_mul_le_self x O
    omega

theorem sum_mul_left (r : Nat) (f : Nat → Nat) (l : List Nat) :
    (l.map (fun x => r * f x)).sum = r * (l.map f).sum := by
  induction l with
  | nil => simp
  | cons x t ih => simp only [List.map_cons, List.sum_cons, ih]; ring

theorem share_sum {O n : Nat} {sh : Nat → Nat} (h : ∀ x, 2 * (sh x * n) ≤ 2 * (x * O) + n) (l : List Nat) :
    2 * ((l.map sh).sum * n) ≤ 2 * (l.sum * O) + l.length * n := by
  induction l with
  | nil => simp
  | cons x t ih =>
    simp only [List.map_cons, List.sum_cons, List.length_cons]
    have := h x
    nlinarith

/-- Splitting `r` by shares rounded by at most half a unit never gives more than `r`, as long as the accumulated
rounding is below one unit. -/
theorem split_le' {O n r : Nat} (_hO : 0 < O) (hn : 0 < n) {sh : Nat → Nat}
    (h : ∀ x, 2 * (sh x * n) ≤ 2 * (x * O) + n) (l : List Nat) (hl : l.sum ≤ n) (hr : r * l.length < 2 * O) :
    (l.map (fun x => r * sh x / O)).sum ≤ r := by
  have hsh := share_sum h l
  set S := (l.map sh).sum with hS
  have h2S : 2 * S ≤ 2 * O + l.length := by
    have : n * (2 * S) ≤ n * (2 * O + l.length) := by
      calc n * (2 * S) = 2 * (S * n) := by ring
        _ ≤ 2 * (l.sum * O) + l.length * n := hsh
        _ ≤ 2 * (n * O) + l.length * n := by gcongr
        _ = n * (2 * O + l.length) := by ring
    exact Nat.le_of_mul_le_mul_left this hn
  have h3 := div_sum_le O (l.map (fun x => r * sh x))
  rw [sum_mul_left, ← hS, List.map_map] at h3
  have e : ((fun x => x / O) ∘ fun x => r * sh x) = fun x => r * sh x / O := rfl
  rw [e] at h3
  generalize (l.map (fun x => r * sh x / O)).sum = Q at *
  by_contra hcon
  have h5 : (r + 1) * O ≤ Q * O := Nat.mul_le_mul_right _ (by omega)
  have h6 : r * (2 * S) ≤ r * (2 * O + l.length) := Nat.mul_le_mul_left _ h2S
  have e5 : (r + 1) * O = r * O + O := by ring
  have e6 : r * (2 * S) = 2 * (r * S) := by ring
  have e7 : r * (2 * O + l.length) = 2 * (r * O) + r * l.length := by ring
  omega

theorem split_le (n r : Nat) (hn : 0 < n) (l : List Nat) (hl : l.sum ≤ n) (hr : r * l.length < 2 * Dec.one) :
    (l.map (fun x => Dec.trunc (Dec.mul (Dec.ofNat r) (Dec.quo (Dec.ofNat x) (Dec.ofNat n))))).sum ≤ r := by
  have e : (fun x => Dec.trunc (Dec.mul (Dec.ofNat r) (Dec.quo (Dec.ofNat x) (Dec.ofNat n))))
      = fun x => r * Dec.quo (Dec.ofNat x) (Dec.ofNat n) / Dec.one := by
    funext x
    rw [Dec.ofNat_mul, Dec.trunc]
  rw [e]
  exact split_le' (sh := fun x => Dec.quo (Dec.ofNat x) (Dec.ofNat n)) Dec.one_pos hn
    (fun x => share_bound x n) l hl hr

/-- the accounts never get more than the team's reward -/
theorem credit_le {w : World} (hs : AllInv w) (hi : totalIssued w.team ≤ ALLOCATION) (r : Nat)
    (hr : r * w.team.accounts.size < 2 * Dec.one) :
    (creditAccounts w.team.accounts w.now r w.team.accounts.toList).1 ≤ r := by
  rw [credit_fst]
  have e : w.team.accounts.toList.map (fun p => accountReward p.2 w.now r)
      = (w.team.accounts.toList.map (fun p => u64sub (vestedAmount p.2 w.now) p.2.unlockedClaimed)).map
        (fun x => Dec.trunc (Dec.mul (Dec.ofNat r) (Dec.quo (Dec.ofNat x) (Dec.ofNat ALLOCATION)))) := by
    rw [List.map_map]; rfl
  rw [e]
  apply split_le
  · decide
  · refine Nat.le_trans ?_ hi
    unfold totalIssued
    have := w.team.accounts.sum_le (fun _ a => u64sub (vestedAmount a w.now) a.unlockedClaimed) (fun _ a => maxAmount a) ?_
    · exact this
    · intro id a ha
      have hA := hs id a ha
      have h1 := hA.claimed w.now hA.last
      have h2 := unlocked_le_vested a w.now
      have h3 := vested_le_max hA.sane w.now
      rw [vestedAmount_eq hA.sane]
      have := u64sub_le (a := vested a w.now) (b := a.unlockedClaimed) (by omega)
      omega
  · rw [List.length_map]; exact hr

end Verif.Team
