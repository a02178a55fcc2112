import Verif.Bundles.RRProps

/-!
# C28: what a round does to the progress, and where newcomers start
-/

namespace Verif.Bundles
open Verif

namespace Spec

/-- the progress a candidate enters a round with: the stored one; newcomers start behind by nine eighths of the stake -/
def entry (stored : List (Addr × Int)) (T : Nat) (a : Addr) : Int :=
  match stored.find? (fun e => e.1 == a) with
  | some e => e.2
  | none => -((9 * T / 8 : Nat) : Int)

/-- who is really excluded: excluding as many as there are candidates excludes nobody -/
def barred (n : Nat) (ex : List Addr) : List Addr := if ex.length = n then [] else ex

end Spec

open Spec

theorem startProgress_eq (t : Nat) : startProgress t = -((9 * t / 8 : Nat) : Int) := by
  unfold startProgress Dec.one
  rw [show (-1125000000000000000 * (t : Int)) = -((1125000000000000000 * t : Nat) : Int) by push_cast; ring]
  rw [Int.neg_tdiv]
  congr 1
  rw [show ((1000000000000000000 : Nat) : Int) = ((1000000000000000000 : Nat) : Int) from rfl, ← Int.ofNat_tdiv]
  congr 1
  omega

theorem loadProgress_eq {stored : List (Addr × Int)} (hk : (stored.map (·.1)).Nodup) (T : Nat) (a : Addr) :
    loadProgress stored T a = entry stored T a := by
  unfold loadProgress entry
  induction stored with
  | nil => simp [startProgress_eq]
  | cons e l ih =>
    rw [List.map_cons, List.nodup_cons] at hk
    by_cases he : e.1 = a
    · have hn : l.filter (fun e => e.1 == a) = [] := by
        rw [List.filter_eq_nil_iff]
        intro x hx hxa
        exact hk.1 (by rw [he, ← eq_of_beq hxa]; exact List.mem_map_of_mem hx)
      simp [he, hn]
    · have hb : (e.1 == a) = false := by simpa using he
      have := ih hk.2
      rw [List.any_cons, List.filter_cons, List.find?_cons]
      simp only [hb, Bool.false_or]
      simpa using this

theorem spread_le {vs : List Val} {D : Int} (h : ∀ v ∈ vs, ∀ w ∈ vs, v.prog - w.prog ≤ D) (h0 : 0 ≤ D) : spread vs ≤ D := by
  cases vs with
  | nil => exact h0
  | cons v l =>
    have hmax : ∀ (l : List Int) (x : Int), l.foldl max x = x ∨ l.foldl max x ∈ l := by
      intro l
      induction l with
      | nil => intro x; exact Or.inl rfl
      | cons y t ih =>
        intro x
        rw [List.foldl_cons]
        rcases ih (max x y) with e | e
        · rw [e]
          rcases max_choice x y with e | e
          · exact Or.inl e
          · rw [e]; exact Or.inr (List.mem_cons_self ..)
        · exact Or.inr (List.mem_cons_of_mem _ e)
    have hmin : ∀ (l : List Int) (x : Int), l.foldl min x = x ∨ l.foldl min x ∈ l := by
      intro l
      induction l with
      | nil => intro x; exact Or.inl rfl
      | cons y t ih =>
        intro x
        rw [List.foldl_cons]
        rcases ih (min x y) with e | e
        · rw [e]
          rcases min_choice x y with e | e
          · exact Or.inl e
          · rw [e]; exact Or.inr (List.mem_cons_self ..)
        · exact Or.inr (List.mem_cons_of_mem _ e)
    have key : ∀ x : Int, (x = v.prog ∨ x ∈ l.map (·.prog)) → ∃ w ∈ v :: l, w.prog = x := by
      rintro x (rfl | hx)
      · exact ⟨v, List.mem_cons_self .., rfl⟩
      · obtain ⟨w, hw, rfl⟩ := List.mem_map.1 hx
        exact ⟨w, List.mem_cons_of_mem _ hw, rfl⟩
    obtain ⟨w1, m1, e1⟩ := key _ (hmax (l.map (·.prog)) v.prog)
    obtain ⟨w2, m2, e2⟩ := key _ (hmin (l.map (·.prog)) v.prog)
    show (l.map (·.prog)).foldl max v.prog - (l.map (·.prog)).foldl min v.prog ≤ D
    rw [← e1, ← e2]
    exact h _ m1 _ m2

/-- the loaded set without rescaling -/
theorem load_entry (stakers : List Addr) (amt : Addr → Nat) (stored : List (Addr × Int)) (hk : (stored.map (·.1)).Nodup)
    (hs : ∀ a ∈ candidates stakers amt, ∀ b ∈ candidates stakers amt,
      entry stored (stake stakers amt) a - entry stored (stake stakers amt) b ≤ 2 * (stake stakers amt : Int)) :
    ∃ avg : Int, load stakers amt stored = setOf stakers amt (fun a => entry stored (stake stakers amt) a - avg) := by
  have e0 : loadRaw stakers amt stored = setOf stakers amt (fun a => entry stored (stake stakers amt) a) := by
    unfold loadRaw setOf
    apply List.map_congr_left
    intro a _
    rw [loadProgress_eq hk]
    rfl
  unfold load
  rw [e0]
  unfold normalize
  split
  · rename_i he
    refine ⟨0, ?_⟩
    congr 1
    funext a
    omega
  · have hsp : ¬ spread (setOf stakers amt (fun a => entry stored (stake stakers amt) a)) >
        2 * (total (setOf stakers amt (fun a => entry stored (stake stakers amt) a)) : Int) := by
      rw [total_setOf]
      apply not_lt.2
      refine spread_le ?_ (by omega)
      intro v hv w hw
      unfold setOf at hv hw
      obtain ⟨a, ha, rfl⟩ := List.mem_map.1 hv
      obtain ⟨b, hb, rfl⟩ := List.mem_map.1 hw
      exact hs a ha b hb
    unfold scaled
    rw [if_neg hsp]
    rw [centered_eq, mapProg_setOf]
    exact ⟨_, rfl⟩

/-- **C28** (one round, exactly): if the progress of the candidates is spread over at most twice their stake, then, up to
one number common to all candidates, everybody who is not excluded gains its delegation, and the chosen one pays the
delegation of all who are not excluded.  Newcomers start behind by nine eighths of the stake. -/
theorem C28_round (stakers : List Addr) (amt : Addr → Nat) (stored : List (Addr × Int))
    (hk : (stored.map (·.1)).Nodup) (ex : List Addr)
    (hs : ∀ a ∈ candidates stakers amt, ∀ b ∈ candidates stakers amt,
      entry stored (stake stakers amt) a - entry stored (stake stakers amt) b ≤ 2 * (stake stakers amt : Int)) :
    ∃ avg : Int, (chooseNext stakers amt stored ex).2 = (candidates stakers amt).map fun a =>
      (a, entry stored (stake stakers amt) a - avg
        + (if a ∈ barred (candidates stakers amt).length ex then 0 else (amt a : Int))
        - (if (chooseNext stakers amt stored ex).1 = some a then
            (((candidates stakers amt).filter (fun b => b ∉ barred (candidates stakers amt).length ex)).map amt).sum
           else (0 : Nat) : Nat)) := by
  obtain ⟨avg, hl⟩ := load_entry stakers amt stored hk hs
  refine ⟨avg, ?_⟩
  have hlen : (load stakers amt stored).length = (candidates stakers amt).length := by rw [hl, length_setOf]
  have heff : effective (load stakers amt stored) ex = barred (candidates stakers amt).length ex := by
    unfold effective barred; rw [hlen]
  unfold chooseNext
  rw [nextProposer_load, heff]
  generalize barred (candidates stakers amt).length ex = x
  by_cases hc : candidates stakers amt = []
  · have : load stakers amt stored = [] := by rw [hl]; unfold setOf; rw [hc]; rfl
    rw [if_pos (by rw [this]; rfl), this, hc]
    rfl
  · have hne : load stakers amt stored ≠ [] := by rw [hl]; exact setOf_ne _ hc
    rw [if_neg (by simpa using hne), hl]
    have hadv : advanced x (setOf stakers amt (fun a => entry stored (stake stakers amt) a - avg)) =
        setOf stakers amt (fun a => entry stored (stake stakers amt) a - avg + (if a ∈ x then 0 else (amt a : Int))) := by
      unfold advanced setOf
      rw [List.map_map]
      apply List.map_congr_left
      intro a _
      simp only [Function.comp]
      split <;> simp
    cases hvl : advanced x (setOf stakers amt (fun a => entry stored (stake stakers amt) a - avg)) with
    | nil => rw [hadv] at hvl; exact absurd hvl (setOf_ne _ hc)
    | cons v l =>
      rw [round_cons hvl, ← hvl, hadv, total_setOf]
      generalize (pick x v _).addr = c
      have hprice : (stake stakers amt : Int) -
          (excludedPower x (setOf stakers amt (fun a => entry stored (stake stakers amt) a - avg)) : Int) =
          ((((candidates stakers amt).filter (fun b => b ∉ x)).map amt).sum : Nat) := by
        have hsum : ∀ l : List Addr, (l.map amt).sum = (((l.map fun a => (⟨a, amt a, entry stored (stake stakers amt) a - avg⟩ :
            Val)).filter (fun v => decide (v.addr ∈ x))).map (·.power)).sum + ((l.filter (fun b => decide (b ∉ x))).map amt).sum := by
          intro l
          induction l with
          | nil => rfl
          | cons y t ih =>
            by_cases hy : y ∈ x
            · simp [hy, ih]; omega
            · simp [hy, ih]; omega
        have := hsum (candidates stakers amt)
        unfold excludedPower total setOf
        have e : stake stakers amt = ((candidates stakers amt).map amt).sum := rfl
        rw [← e] at this
        simp only
        omega
      rw [hprice]
      unfold saved charged setOf
      rw [List.map_map, List.map_map]
      apply List.map_congr_left
      intro a _
      simp only [Function.comp]
      by_cases hca : a = c
      · subst hca; simp
      · have : ¬ (some c = some a) := by rintro ⟨⟩; exact hca rfl
        simp [hca, this]

/-- **C28** (the one ahead is chosen): nobody is chosen who is behind somebody that may be chosen, counting what both gain
in this round.  In particular a newcomer is not chosen while somebody with a stored progress of zero or more may be. -/
theorem C28_behind (stakers : List Addr) (amt : Addr → Nat) (stored : List (Addr × Int))
    (hk : (stored.map (·.1)).Nodup) (ex : List Addr)
    (hs : ∀ a ∈ candidates stakers amt, ∀ b ∈ candidates stakers amt,
      entry stored (stake stakers amt) a - entry stored (stake stakers amt) b ≤ 2 * (stake stakers amt : Int))
    (a b : Addr) (hb : b ∈ candidates stakers amt) (hbx : b ∉ barred (candidates stakers amt).length ex)
    (hlt : entry stored (stake stakers amt) a + (if a ∈ barred (candidates stakers amt).length ex then 0 else (amt a : Int)) <
      entry stored (stake stakers amt) b + (amt b : Int)) :
    (chooseNext stakers amt stored ex).1 ≠ some a := by
  obtain ⟨avg, hl⟩ := load_entry stakers amt stored hk hs
  have hlen : (load stakers amt stored).length = (candidates stakers amt).length := by rw [hl, length_setOf]
  have heff : effective (load stakers amt stored) ex = barred (candidates stakers amt).length ex := by
    unfold effective barred; rw [hlen]
  unfold chooseNext
  rw [nextProposer_load, heff]
  generalize barred (candidates stakers amt).length ex = x at hbx hlt
  have hne : load stakers amt stored ≠ [] := by rw [hl]; exact setOf_ne _ (List.ne_nil_of_mem hb)
  rw [if_neg (by simpa using hne), hl]
  have hadv : advanced x (setOf stakers amt (fun a => entry stored (stake stakers amt) a - avg)) =
      setOf stakers amt (fun a => entry stored (stake stakers amt) a - avg + (if a ∈ x then 0 else (amt a : Int))) := by
    unfold advanced setOf
    rw [List.map_map]
    apply List.map_congr_left
    intro a _
    simp only [Function.comp]
    split <;> simp
  cases hvl : advanced x (setOf stakers amt (fun a => entry stored (stake stakers amt) a - avg)) with
  | nil => rw [hadv] at hvl; exact absurd hvl (setOf_ne _ (List.ne_nil_of_mem hb))
  | cons v l =>
    rw [round_cons hvl]
    intro hch
    have hch : (pick x v (v :: l)).addr = a := by injection hch
    have hm : pick x v (v :: l) ∈ v :: l := by
      rcases pick_mem x (v :: l) v with h | h
      · rw [h]; simp
      · exact h
    have hge := (pick_ge x (v :: l) v).2
    generalize pick x v (v :: l) = w at hch hm hge
    rw [← hvl, hadv] at hm hge
    have h1 := hge _ (mem_setOf hb) hbx
    unfold setOf at hm
    obtain ⟨c, hc, rfl⟩ := List.mem_map.1 hm
    have : c = a := hch
    subst this
    simp only [if_neg hbx] at h1
    omega

/-- **C28** (newcomers): nobody is chosen in the first round after joining while a candidate with a stored progress of
zero or more may be chosen. -/
theorem C28_newcomer (stakers : List Addr) (hnd : stakers.Nodup) (amt : Addr → Nat) (stored : List (Addr × Int))
    (hk : (stored.map (·.1)).Nodup) (ex : List Addr)
    (hs : ∀ a ∈ candidates stakers amt, ∀ b ∈ candidates stakers amt,
      entry stored (stake stakers amt) a - entry stored (stake stakers amt) b ≤ 2 * (stake stakers amt : Int))
    (a b : Addr) (ha : a ∈ candidates stakers amt) (hnew : ∀ p, (a, p) ∉ stored)
    (hb : b ∈ candidates stakers amt) (hbx : b ∉ barred (candidates stakers amt).length ex) (p : Int) (hbp : (b, p) ∈ stored)
    (hp : 0 ≤ p) : (chooseNext stakers amt stored ex).1 ≠ some a := by
  refine C28_behind stakers amt stored hk ex hs a b hb hbx ?_
  have hea : entry stored (stake stakers amt) a = -((9 * stake stakers amt / 8 : Nat) : Int) := by
    unfold entry
    have : stored.find? (fun e => e.1 == a) = none := by
      rw [List.find?_eq_none]
      rintro ⟨y, q⟩ hy he
      exact hnew q (by rw [← eq_of_beq he]; exact hy)
    rw [this]
  have heb : entry stored (stake stakers amt) b = p := by
    unfold entry
    cases hf : stored.find? (fun e => e.1 == b) with
    | none =>
      rw [List.find?_eq_none] at hf
      exact absurd (by simp) (hf _ hbp)
    | some e =>
      have h1 := List.find?_some hf
      have h2 := List.mem_of_find?_eq_some hf
      have h1 : e.1 = b := eq_of_beq h1
      have : e = (b, p) := List.inj_on_of_nodup_map hk h2 hbp h1
      rw [this]
  have hab : a ≠ b := by rintro rfl; exact hnew p hbp
  have hsum : amt a + amt b ≤ stake stakers amt := by
    unfold stake
    have hn := candidates_nodup hnd amt
    have h2 : amt b ≤ (((candidates stakers amt).erase a).map amt).sum :=
      List.single_le_sum (fun _ _ => Nat.zero_le _) _ (List.mem_map.2 ⟨b, (List.mem_erase_of_ne (Ne.symm hab)).2 hb, rfl⟩)
    have h3 := (List.perm_cons_erase ha).map amt |>.sum_eq
    rw [List.map_cons, List.sum_cons] at h3
    omega
  have hpos : 0 < amt b := by unfold candidates at hb; simpa using (List.mem_filter.1 hb).2
  rw [hea, heb]
  split <;> omega

/-- three candidates of which 3 is new -/
example : (∀ a ∈ candidates [1, 2, 3] (fun _ => 100), ∀ b ∈ candidates [1, 2, 3] (fun _ => 100),
      entry [(1, -100), (2, 100)] 300 a - entry [(1, -100), (2, 100)] 300 b ≤ 2 * (300 : Int)) ∧
    stake [1, 2, 3] (fun _ => 100) = 300 ∧ entry [(1, -100), (2, 100)] 300 3 = -337 ∧
    (chooseNext [1, 2, 3] (fun _ => 100) [(1, -100), (2, 100)] []).1 = some 2 ∧
    (chooseNext [1, 2, 3] (fun _ => 100) [(1, -100), (2, 100)] []).2 = [(1, 112), (2, 12), (3, -125)] := by decide +kernel

end Verif.Bundles
