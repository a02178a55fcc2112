import Verif.Funders.Terms
/-!
# The score of a funder (C35)

The funder with the lowest score makes room for a new one.  This file says what the score is, without the helpers of the
model: the value of the coins in the unit of the whitelist weights, each coin rounded to whole units.
-/
namespace Verif.Funders
open Verif
namespace Spec

/-- `e` is the whitelist entry that counts for coin `d`: the last one with that coin. -/
def Counts (p : Params) (d : Denom) (e : Entry) : Prop :=
  ∃ l1 l2, p.whitelist = l1 ++ e :: l2 ∧ e.denom = d ∧ ∀ e' ∈ l2, e'.denom ≠ d

/-- `v` is the value of `n` base units of the coin of `e` in whole units: `weight * n / 10^decimals` rounded down, where the
decimal division may first round up by half of a `10^-18`. (`weight` is a decimal with 18 digits.) -/
def Worth (e : Entry) (n v : Nat) : Prop :=
  2 * (v * 10 ^ 18 * 10 ^ e.decimals) ≤ 2 * (e.weight * n) + 10 ^ e.decimals ∧
    e.weight * n < (v + 1) * 10 ^ 18 * 10 ^ e.decimals

end Spec
open Spec

theorem entry_some {p : Params} {d : Denom} {e : Entry} (h : p.entry? d = some e) : Counts p d e := by
  unfold Params.entry? at h
  obtain ⟨h1, as, bs, h2, h3⟩ := List.find?_eq_some_iff_append.1 h
  refine ⟨bs.reverse, as.reverse, ?_, by simpa using h1, fun e' he' => ?_⟩
  · have := congrArg List.reverse h2
    simpa using this
  · have := h3 e' (List.mem_reverse.1 he')
    simpa using this

theorem entry_none {p : Params} {d : Denom} (h : p.entry? d = none) : ∀ e ∈ p.whitelist, e.denom ≠ d := by
  intro e he
  have := List.find?_eq_none.1 h e (List.mem_reverse.2 he)
  simpa using this

theorem worth_arith (W D o : Nat) (ho : 2 ≤ o) (x c v : Nat)
    (hx1 : x * D ≤ W * o) (hx2 : W * o < (x + 1) * D)
    (hc1 : 2 * o * c ≤ 2 * x + o) (hc2 : 2 * x ≤ 2 * o * c + o) (hv1 : v * o ≤ c) (hv2 : c < (v + 1) * o) :
    2 * (v * o * D) ≤ 2 * W + D ∧ W < (v + 1) * o * D := by
  constructor
  · have h1 : 2 * o * (v * o) * D ≤ 2 * o * c * D := Nat.mul_le_mul_right _ (Nat.mul_le_mul_left _ hv1)
    have h2 : 2 * o * c * D ≤ (2 * x + o) * D := Nat.mul_le_mul_right _ hc1
    have h3 : (2 * (v * o * D)) * o ≤ (2 * W + D) * o := by
      have e1 : (2 * (v * o * D)) * o = 2 * o * (v * o) * D := by ring
      have e2 : (2 * x + o) * D = 2 * (x * D) + o * D := by ring
      have e3 : (2 * W + D) * o = 2 * (W * o) + o * D := by ring
      rw [e1, e3]
      refine Nat.le_trans (Nat.le_trans h1 h2) ?_
      rw [e2]
      omega
    exact Nat.le_of_mul_le_mul_right h3 (by omega)
  · have h1 : c + 1 ≤ (v + 1) * o := hv2
    have h2 : 2 * o * (c + 1) ≤ 2 * o * ((v + 1) * o) := Nat.mul_le_mul_left _ h1
    have h3 : 2 * (x + 1) ≤ 2 * o * ((v + 1) * o) := by
      have e : 2 * o * (c + 1) = 2 * o * c + 2 * o := by ring
      omega
    have h4 : 2 * (x + 1) * D ≤ 2 * o * ((v + 1) * o) * D := Nat.mul_le_mul_right _ h3
    have e1 : 2 * o * ((v + 1) * o) * D = 2 * (((v + 1) * o * D) * o) := by ring
    have e2 : 2 * (x + 1) * D = 2 * ((x + 1) * D) := by ring
    have h5 : W * o < ((v + 1) * o * D) * o := by omega
    exact Nat.lt_of_mul_lt_mul_right h5

theorem worth_score (e : Entry) (n : Nat) : Worth e n (e.score n) := by
  unfold Worth Entry.score
  have ho : (10 : Nat) ^ 18 = Dec.one := rfl
  rw [ho]
  generalize hD : 10 ^ e.decimals = D
  have hDp : 0 < D := by rw [← hD]; exact Nat.pow_pos (by omega)
  generalize hW : e.weight * n = W
  have hx : W * Dec.one * Dec.one / Dec.ofNat D = W * Dec.one / D := by
    unfold Dec.ofNat
    exact Nat.mul_div_mul_right _ _ Dec.one_pos
  unfold Dec.quo
  rw [hx]
  refine worth_arith W D Dec.one (by unfold Dec.one; omega) (W * Dec.one / D) _ _
    (Nat.div_mul_le_self _ _) ?_ (Dec.chop_upper _) (Dec.chop_lower _) (Dec.trunc_mul_le _) (Dec.lt_trunc_succ_mul _)
  rw [Nat.mul_comm (_ + 1)]
  exact Nat.lt_mul_div_succ _ hDp

/-- what one coin adds to the score -/
def worthOf (p : Params) (c : Coins) (d : Denom) : Nat :=
  match p.entry? d with | some e => e.score (c.amt d) | none => 0

theorem score_fold (p : Params) (c : Coins) : ∀ (l : List Denom) (acc : Option Nat) (x : Nat),
    l.foldl (fun acc d => match acc, p.entry? d with
      | none, _ => none
      | some x, none => some x
      | some x, some e => if e.score (c.amt d) < 2 ^ 63 then some (u64add x (e.score (c.amt d))) else none) acc = some x →
    ∃ y, acc = some y ∧ (∀ d ∈ l, worthOf p c d < 2 ^ 63) ∧ x % 2 ^ 64 = (y + (l.map (worthOf p c)).sum) % 2 ^ 64 ∧
      (y < 2 ^ 64 → x < 2 ^ 64)
  | [], acc, x, h => ⟨x, h, by simp, by simp, id⟩
  | d :: l, acc, x, h => by
    obtain ⟨y, h1, h2, h3, h4⟩ := score_fold p c l _ x h
    cases acc with
    | none => simp at h1
    | some z =>
      refine ⟨z, rfl, ?_⟩
      unfold worthOf at h2 h3 ⊢
      cases he : p.entry? d with
      | none =>
        simp only [he, Option.some.injEq] at h1
        subst h1
        refine ⟨fun d' hd' => ?_, ?_, h4⟩
        · rcases List.mem_cons.1 hd' with e | e
          · subst e; rw [he]; exact (by decide : 0 < 2 ^ 63)
          · exact h2 d' e
        · rw [List.map_cons, List.sum_cons, he, Nat.zero_add]; exact h3
      | some e =>
        simp only [he] at h1
        split at h1
        · rename_i hlt
          simp only [Option.some.injEq] at h1
          subst h1
          refine ⟨fun d' hd' => ?_, ?_, fun _ => h4 (by unfold u64add; exact Nat.mod_lt _ (by decide))⟩
          · rcases List.mem_cons.1 hd' with e' | e'
            · subst e'; rw [he]; exact hlt
            · exact h2 d' e'
          · rw [List.map_cons, List.sum_cons, he, h3]
            unfold u64add
            show ((z + e.score (c.amt d)) % 2 ^ 64 + _) % 2 ^ 64 = _
            rw [Nat.mod_add_mod, Nat.add_assoc]
        · cases h1

theorem score_fold_none (p : Params) (c : Coins) : ∀ (l : List Denom) (acc : Nat),
    l.foldl (fun acc d => match acc, p.entry? d with
      | none, _ => none
      | some x, none => some x
      | some x, some e => if e.score (c.amt d) < 2 ^ 63 then some (u64add x (e.score (c.amt d))) else none) (some acc) = none →
    ∃ d ∈ l, ∃ e, p.entry? d = some e ∧ 2 ^ 63 ≤ e.score (c.amt d)
  | [], acc, h => by cases h
  | d :: l, acc, h => by
    rw [List.foldl_cons] at h
    cases he : p.entry? d with
    | none =>
      simp only [he] at h
      obtain ⟨d', h1, h2⟩ := score_fold_none p c l acc h
      exact ⟨d', List.mem_cons_of_mem _ h1, h2⟩
    | some e =>
      simp only [he] at h
      split at h
      · obtain ⟨d', h1, h2⟩ := score_fold_none p c l _ h
        exact ⟨d', List.mem_cons_of_mem _ h1, h2⟩
      · rename_i hlt
        exact ⟨d, List.mem_cons_self, e, he, Nat.le_of_not_lt hlt⟩

/-- C35: the score of a funder is the sum of the values of its whitelisted coins (as a `uint64`); coins that are not
whitelisted count nothing. -/
theorem C35_score (p : Params) (c : Coins) (x : Nat) (h : score p c = some x) :
    ∃ v : Denom → Nat,
      (∀ d, c.amt d ≠ 0 → (∃ e, Counts p d e ∧ Worth e (c.amt d) (v d)) ∨ ((∀ e ∈ p.whitelist, e.denom ≠ d) ∧ v d = 0)) ∧
      (∀ d, c.amt d ≠ 0 → v d < 2 ^ 63) ∧ x = (c.denoms.map v).sum % 2 ^ 64 := by
  obtain ⟨y, h1, h2, h3, h4⟩ := score_fold p c c.denoms (some 0) x h
  simp only [Option.some.injEq] at h1
  subst h1
  refine ⟨worthOf p c, fun d _ => ?_, fun d hd => h2 d (Coins.mem_denoms.2 hd), ?_⟩
  · unfold worthOf
    cases he : p.entry? d with
    | none => exact .inr ⟨entry_none he, rfl⟩
    | some e => exact .inl ⟨e, entry_some he, worth_score e _⟩
  · rw [← Nat.mod_eq_of_lt (h4 (by decide)), h3, Nat.zero_add]

/-- C35: there is no score (the message that needs it fails) only if one coin alone is worth `2^63` or more. -/
theorem C35_no_score (p : Params) (c : Coins) (h : score p c = none) :
    ∃ d e v, c.amt d ≠ 0 ∧ Counts p d e ∧ Worth e (c.amt d) v ∧ 2 ^ 63 ≤ v := by
  obtain ⟨d, h1, e, h2, h3⟩ := score_fold_none p c c.denoms 0 h
  exact ⟨d, e, _, Coins.mem_denoms.1 h1, entry_some h2, worth_score e _, h3⟩

/-- two coins, one with weight 3 and 6 decimals, the other with weight 1/2 and no decimals -/
example : score ⟨[⟨kyve, 6, 1, 1, 3 * 10 ^ 18⟩, ⟨1, 0, 1, 1, 5 * 10 ^ 17⟩], 20⟩
    ((Coins.single kyve 2500000).add (Coins.single 1 9)) = some (7 + 4) := by decide +kernel

end Verif.Funders
