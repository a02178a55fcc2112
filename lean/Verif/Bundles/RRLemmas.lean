import Verif.Bundles.RoundRobin

/-! # Lemmas on the round-robin selection -/

namespace Verif.Bundles
open Verif

theorem tdiv_cases' (a d : Int) : Int.tdiv a d = if 0 ≤ a then a / d else -((-a) / d) := by
  split
  · exact Int.tdiv_eq_ediv_of_nonneg (by assumption)
  · rename_i h
    have h1 : Int.tdiv a d = -(Int.tdiv (-a) d) := by rw [Int.neg_tdiv, neg_neg]
    rw [h1, Int.tdiv_eq_ediv_of_nonneg (by omega)]

/-- truncating twice is truncating once -/
theorem tdiv_scaled (a d k : Int) (hd : 0 < d) (hk : 0 < k) : Int.tdiv (Int.tdiv (a * k) d) k = Int.tdiv a d := by
  have key : ∀ b : Int, 0 ≤ b → b * k / d / k = b / d := by
    intro b _
    rw [Int.ediv_ediv_of_nonneg hd.le, Int.mul_ediv_mul_of_pos_left _ _ hk]
  rw [tdiv_cases' (a * k) d]
  by_cases ha : 0 ≤ a
  · rw [if_pos (Int.mul_nonneg ha hk.le), tdiv_cases', if_pos (Int.ediv_nonneg (Int.mul_nonneg ha hk.le) hd.le),
      key a ha, Int.tdiv_eq_ediv_of_nonneg ha]
  · have h1 : a * k < 0 := Int.mul_neg_of_neg_of_pos (by omega) hk
    rw [if_neg (by omega), Int.neg_tdiv, show -(a * k) = -a * k by ring,
      Int.tdiv_eq_ediv_of_nonneg (Int.ediv_nonneg (Int.mul_nonneg (by omega) hk.le) hd.le), key (-a) (by omega),
      tdiv_cases' a d, if_neg ha]

theorem one_pos' : (0 : Int) < (Dec.one : Int) := by exact_mod_cast Dec.one_pos

theorem rescale_eq (t d p : Int) (hd : 0 < d) : rescale t d p = Int.tdiv (p * t) d := by
  unfold rescale
  rw [show p * (Dec.one : Int) * t = p * t * (Dec.one : Int) by ring]
  exact tdiv_scaled _ _ _ hd one_pos'

/-- values at most `d` apart are at most `t` apart after rescaling -/
theorem rescale_diff {t d p q : Int} (ht : 0 ≤ t) (hd : 0 < d) (h : p - q ≤ d) :
    rescale t d p - rescale t d q ≤ t := by
  rw [rescale_eq _ _ _ hd, rescale_eq _ _ _ hd]
  have hab : p * t - q * t ≤ t * d := by
    have := Int.mul_le_mul_of_nonneg_right h ht
    calc p * t - q * t = (p - q) * t := by ring
      _ ≤ d * t := this
      _ = t * d := by ring
  generalize p * t = a at *
  generalize q * t = b at *
  rw [tdiv_cases' a, tdiv_cases' b]
  have step : ∀ x y : Int, x ≤ y + t * d → x / d ≤ y / d + t := by
    intro x y hxy
    calc x / d ≤ (y + t * d) / d := Int.ediv_le_ediv hd hxy
      _ = y / d + t := Int.add_mul_ediv_right _ _ hd.ne'
  split
  · split
    · have := step a b (by omega); omega
    · rename_i h1 h2
      have h3 : a / d + (-b) / d ≤ (a + -b) / d := by
        rw [Int.le_ediv_iff_mul_le hd, Int.add_mul]
        have := Int.ediv_mul_le a hd.ne'; have := Int.ediv_mul_le (-b) hd.ne'; omega
      have h4 : (a + -b) / d ≤ t := by
        have := step (a + -b) 0 (by omega)
        rw [Int.zero_ediv] at this; omega
      omega
  · split
    · rename_i h1 h2
      have h3 : 0 ≤ (-a) / d := Int.ediv_nonneg (by omega) hd.le
      have h4 : 0 ≤ b / d := Int.ediv_nonneg h2 hd.le
      omega
    · have := step (-b) (-a) (by omega); omega

/-! ## spread -/

theorem foldl_max_ge (l : List Int) : ∀ a : Int, a ≤ l.foldl max a ∧ ∀ x ∈ l, x ≤ l.foldl max a := by
  induction l with
  | nil => intro a; simp
  | cons y t ih =>
    intro a
    rw [List.foldl_cons]
    have h := ih (max a y)
    refine ⟨le_trans (le_max_left a y) h.1, ?_⟩
    intro x hx
    rcases List.mem_cons.1 hx with rfl | hx
    · exact le_trans (le_max_right a x) h.1
    · exact h.2 x hx

theorem foldl_min_le (l : List Int) : ∀ a : Int, l.foldl min a ≤ a ∧ ∀ x ∈ l, l.foldl min a ≤ x := by
  induction l with
  | nil => intro a; simp
  | cons y t ih =>
    intro a
    rw [List.foldl_cons]
    have h := ih (min a y)
    refine ⟨le_trans h.1 (min_le_left a y), ?_⟩
    intro x hx
    rcases List.mem_cons.1 hx with rfl | hx
    · exact le_trans h.1 (min_le_right a x)
    · exact h.2 x hx

theorem foldl_max_mem (l : List Int) : ∀ a : Int, l.foldl max a = a ∨ l.foldl max a ∈ l := by
  induction l with
  | nil => intro a; simp
  | cons y t ih =>
    intro a
    rw [List.foldl_cons]
    rcases ih (max a y) with h | h
    · rw [h]; rcases max_choice a y with h' | h' <;> rw [h'] <;> simp
    · right; exact List.mem_cons_of_mem _ h

theorem foldl_min_mem (l : List Int) : ∀ a : Int, l.foldl min a = a ∨ l.foldl min a ∈ l := by
  induction l with
  | nil => intro a; simp
  | cons y t ih =>
    intro a
    rw [List.foldl_cons]
    rcases ih (min a y) with h | h
    · rw [h]; rcases min_choice a y with h' | h' <;> rw [h'] <;> simp
    · right; exact List.mem_cons_of_mem _ h

theorem spread_cons (x : Val) (l : List Val) :
    spread (x :: l) = (l.map (·.prog)).foldl max x.prog - (l.map (·.prog)).foldl min x.prog := rfl

theorem le_spread {vs : List Val} {v w : Val} (hv : v ∈ vs) (hw : w ∈ vs) : v.prog - w.prog ≤ spread vs := by
  cases vs with
  | nil => cases hv
  | cons x l =>
    rw [spread_cons]
    have h1 := foldl_max_ge (l.map (·.prog)) x.prog
    have h2 := foldl_min_le (l.map (·.prog)) x.prog
    have h3 : v.prog ≤ (l.map (·.prog)).foldl max x.prog := by
      rcases List.mem_cons.1 hv with rfl | hv
      · exact h1.1
      · exact h1.2 _ (List.mem_map_of_mem hv)
    have h4 : (l.map (·.prog)).foldl min x.prog ≤ w.prog := by
      rcases List.mem_cons.1 hw with rfl | hw
      · exact h2.1
      · exact h2.2 _ (List.mem_map_of_mem hw)
    omega

theorem spread_attained {vs : List Val} (h : vs ≠ []) : ∃ v ∈ vs, ∃ w ∈ vs, spread vs = v.prog - w.prog := by
  cases vs with
  | nil => exact absurd rfl h
  | cons x l =>
    have h1 : ∃ v ∈ x :: l, (l.map (·.prog)).foldl max x.prog = v.prog := by
      rcases foldl_max_mem (l.map (·.prog)) x.prog with h | h
      · exact ⟨x, by simp, h⟩
      · obtain ⟨v, hv, e⟩ := List.mem_map.1 h
        exact ⟨v, List.mem_cons_of_mem _ hv, e.symm⟩
    have h2 : ∃ v ∈ x :: l, (l.map (·.prog)).foldl min x.prog = v.prog := by
      rcases foldl_min_mem (l.map (·.prog)) x.prog with h | h
      · exact ⟨x, by simp, h⟩
      · obtain ⟨v, hv, e⟩ := List.mem_map.1 h
        exact ⟨v, List.mem_cons_of_mem _ hv, e.symm⟩
    obtain ⟨v, hv, e1⟩ := h1
    obtain ⟨w, hw, e2⟩ := h2
    exact ⟨v, hv, w, hw, by rw [spread_cons, e1, e2]⟩

/-! ## sums -/

/-- changing the progress by a function of the validator -/
def mapProg (f : Val → Int) (vs : List Val) : List Val := vs.map (fun v => { v with prog := f v })

@[simp] theorem mapProg_power (f : Val → Int) (vs : List Val) : (mapProg f vs).map (·.power) = vs.map (·.power) := by
  unfold mapProg; rw [List.map_map]; rfl

@[simp] theorem mapProg_addr (f : Val → Int) (vs : List Val) : (mapProg f vs).map (·.addr) = vs.map (·.addr) := by
  unfold mapProg; rw [List.map_map]; rfl

@[simp] theorem mapProg_length (f : Val → Int) (vs : List Val) : (mapProg f vs).length = vs.length := by
  unfold mapProg; simp

@[simp] theorem total_mapProg (f : Val → Int) (vs : List Val) : total (mapProg f vs) = total vs := by
  unfold total; rw [mapProg_power]

theorem mem_mapProg {f : Val → Int} {vs : List Val} {w : Val} :
    w ∈ mapProg f vs ↔ ∃ v ∈ vs, w = { v with prog := f v } := by
  unfold mapProg; rw [List.mem_map]; constructor <;> rintro ⟨v, hv, e⟩ <;> exact ⟨v, hv, e.symm⟩

theorem mapProg_ne_nil {f : Val → Int} {vs : List Val} (h : vs ≠ []) : mapProg f vs ≠ [] := by
  unfold mapProg; simpa using h

theorem sum_ge_of {l : List Int} {b : Int} (h : ∀ x ∈ l, b ≤ x) : (l.length : Int) * b ≤ l.sum := by
  induction l with
  | nil => simp
  | cons x t ih =>
    have h1 := ih (fun y hy => h y (List.mem_cons_of_mem _ hy))
    have h2 := h x (by simp)
    rw [List.length_cons, List.sum_cons]
    push_cast
    linarith

theorem sum_le_of {l : List Int} {b : Int} (h : ∀ x ∈ l, x ≤ b) : l.sum ≤ (l.length : Int) * b := by
  induction l with
  | nil => simp
  | cons x t ih =>
    have h1 := ih (fun y hy => h y (List.mem_cons_of_mem _ hy))
    have h2 := h x (by simp)
    rw [List.length_cons, List.sum_cons]
    push_cast
    linarith

theorem sum_sub_const (l : List Int) (c : Int) : (l.map (fun x => x - c)).sum = l.sum - (l.length : Int) * c := by
  induction l with
  | nil => simp
  | cons x t ih => rw [List.map_cons, List.sum_cons, ih, List.sum_cons, List.length_cons]; push_cast; ring

theorem average_eq {vs : List Val} (h : vs ≠ []) : average vs = Int.tdiv (totalProgress vs) (vs.length : Int) := by
  unfold average
  exact tdiv_scaled _ _ _ (by have := List.length_pos_iff.2 h; omega) one_pos'

theorem centered_eq (vs : List Val) : centered vs = mapProg (fun v => v.prog - average vs) vs := rfl

theorem totalProgress_centered (vs : List Val) :
    totalProgress (centered vs) = totalProgress vs - (vs.length : Int) * average vs := by
  unfold totalProgress
  rw [centered_eq]
  unfold mapProg
  rw [List.map_map]
  have := sum_sub_const (vs.map (·.prog)) (average vs)
  rw [List.map_map, List.length_map] at this
  exact this

/-- after centering, the sum is smaller than the number of validators -/
theorem centered_small {vs : List Val} (h : vs ≠ []) :
    -(vs.length : Int) < totalProgress (centered vs) ∧ totalProgress (centered vs) < (vs.length : Int) := by
  rw [totalProgress_centered, average_eq h]
  have hn : (0 : Int) < (vs.length : Int) := by have := List.length_pos_iff.2 h; omega
  generalize totalProgress vs = s
  generalize (vs.length : Int) = n at hn
  rw [tdiv_cases']
  split
  · have h1 := Int.emod_nonneg s hn.ne'
    have h2 := Int.emod_lt_of_pos s hn
    have h3 := Int.mul_ediv_add_emod s n
    constructor <;> linarith
  · have h1 := Int.emod_nonneg (-s) hn.ne'
    have h2 := Int.emod_lt_of_pos (-s) hn
    have h3 := Int.mul_ediv_add_emod (-s) n
    constructor <;> linarith

/-- a set that is centered already is not changed -/
theorem average_zero {vs : List Val} (h : vs ≠ []) (h1 : -(vs.length : Int) < totalProgress vs)
    (h2 : totalProgress vs < (vs.length : Int)) : average vs = 0 := by
  rw [average_eq h, tdiv_cases']
  split
  · exact Int.ediv_eq_zero_of_lt (by assumption) h2
  · rw [Int.ediv_eq_zero_of_lt (by omega) (by omega)]; rfl

theorem mapProg_id (vs : List Val) : mapProg (fun v => v.prog) vs = vs := by
  unfold mapProg; simp

theorem centered_self {vs : List Val} (h : vs ≠ []) (h1 : -(vs.length : Int) < totalProgress vs)
    (h2 : totalProgress vs < (vs.length : Int)) : centered vs = vs := by
  rw [centered_eq, average_zero h h1 h2]
  simp only [sub_zero]
  exact mapProg_id vs

theorem scaled_eq (vs : List Val) : scaled vs =
    mapProg (fun v => if spread vs > 2 * (total vs : Int) then rescale (2 * (total vs : Int)) (spread vs) v.prog
      else v.prog) vs := by
  unfold scaled
  split
  · rfl
  · exact (mapProg_id vs).symm

theorem scaled_ne_nil {vs : List Val} (h : vs ≠ []) : scaled vs ≠ [] := by
  rw [scaled_eq]; exact mapProg_ne_nil h

/-- after scaling, progress is spread over at most twice the total delegation -/
theorem scaled_diff {vs : List Val} {v w : Val} (hv : v ∈ scaled vs) (hw : w ∈ scaled vs) :
    v.prog - w.prog ≤ 2 * (total vs : Int) := by
  unfold scaled at hv hw
  split at hv
  · rename_i hs
    rw [if_pos hs] at hw
    obtain ⟨v', hv', rfl⟩ := List.mem_map.1 hv
    obtain ⟨w', hw', rfl⟩ := List.mem_map.1 hw
    have ht : (0 : Int) ≤ 2 * (total vs : Int) := by omega
    exact rescale_diff ht (by omega) (le_spread hv' hw')
  · rename_i hs
    rw [if_neg hs] at hw
    have := le_spread hv hw
    omega

theorem normalize_ne {vs : List Val} (h : vs ≠ []) : normalize vs = centered (scaled vs) := by
  unfold normalize
  rw [if_neg (by simpa using h)]

theorem normalize_addr (vs : List Val) : (normalize vs).map (·.addr) = vs.map (·.addr) := by
  unfold normalize
  split
  · rfl
  · rw [centered_eq, mapProg_addr, scaled_eq, mapProg_addr]

theorem normalize_power (vs : List Val) : (normalize vs).map (·.power) = vs.map (·.power) := by
  unfold normalize
  split
  · rfl
  · rw [centered_eq, mapProg_power, scaled_eq, mapProg_power]

theorem normalize_total (vs : List Val) : total (normalize vs) = total vs := by unfold total; rw [normalize_power]

theorem normalize_length (vs : List Val) : (normalize vs).length = vs.length := by
  have := congrArg List.length (normalize_addr vs); simpa using this

theorem normalize_ne_nil {vs : List Val} (h : vs ≠ []) : normalize vs ≠ [] := by
  intro hc
  have := normalize_length vs
  rw [hc] at this
  exact h (List.length_eq_zero_iff.1 this.symm)

theorem normalize_diff {vs : List Val} {v w : Val} (hv : v ∈ normalize vs) (hw : w ∈ normalize vs) (hne : vs ≠ []) :
    v.prog - w.prog ≤ 2 * (total vs : Int) := by
  rw [normalize_ne hne] at hv hw
  obtain ⟨v', hv', rfl⟩ := mem_mapProg.1 hv
  obtain ⟨w', hw', rfl⟩ := mem_mapProg.1 hw
  have := scaled_diff hv' hw'
  simp only
  omega

theorem normalize_small {vs : List Val} (h : vs ≠ []) :
    -(vs.length : Int) < totalProgress (normalize vs) ∧ totalProgress (normalize vs) < (vs.length : Int) := by
  have h1 := centered_small (scaled_ne_nil h)
  rw [← normalize_ne h] at h1
  have : (scaled vs).length = vs.length := by rw [scaled_eq, mapProg_length]
  rwa [this] at h1

/-- after normalization every progress is within twice the total delegation of zero -/
theorem normalize_bound {vs : List Val} {v : Val} (hv : v ∈ normalize vs) :
    -(2 * (total vs : Int)) ≤ v.prog ∧ v.prog ≤ 2 * (total vs : Int) := by
  have hne : vs ≠ [] := by rintro rfl; unfold normalize at hv; simp at hv
  have hn : (0 : Int) < (vs.length : Int) := by have := List.length_pos_iff.2 hne; omega
  obtain ⟨h1, h2⟩ := normalize_small hne
  have hlen : (((normalize vs).map (·.prog)).length : Int) = (vs.length : Int) := by
    rw [List.length_map, normalize_length]
  constructor
  · by_contra hc
    push Not at hc
    have hall : ∀ x ∈ (normalize vs).map (·.prog), x ≤ -1 := by
      intro x hx
      obtain ⟨w, hw, rfl⟩ := List.mem_map.1 hx
      have := normalize_diff hw hv hne
      omega
    have := sum_le_of hall
    rw [hlen] at this
    unfold totalProgress at h1
    linarith
  · by_contra hc
    push Not at hc
    have hall : ∀ x ∈ (normalize vs).map (·.prog), 1 ≤ x := by
      intro x hx
      obtain ⟨w, hw, rfl⟩ := List.mem_map.1 hx
      have := normalize_diff hv hw hne
      omega
    have := sum_ge_of hall
    rw [hlen] at this
    unfold totalProgress at h2
    linarith

/-- normalizing twice is normalizing once -/
theorem normalize_idem (vs : List Val) : normalize (normalize vs) = normalize vs := by
  by_cases h : vs = []
  · subst h; rfl
  · have hne := normalize_ne_nil h
    rw [normalize_ne hne]
    have hs : scaled (normalize vs) = normalize vs := by
      unfold scaled
      rw [if_neg]
      obtain ⟨v, hv, w, hw, e⟩ := spread_attained hne
      have := normalize_diff hv hw h
      rw [e, normalize_total]; omega
    rw [hs]
    obtain ⟨h1, h2⟩ := normalize_small h
    exact centered_self hne (by rw [normalize_length]; exact h1) (by rw [normalize_length]; exact h2)

/-! ## one round -/

theorem advanced_eq (ex : List Addr) (vs : List Val) :
    advanced ex vs = mapProg (fun v => if v.addr ∈ ex then v.prog else v.prog + (v.power : Int)) vs := by
  unfold advanced mapProg
  apply List.map_congr_left
  intro v _
  by_cases h : v.addr ∈ ex <;> simp [h]

theorem charged_eq (a : Addr) (price : Int) (vs : List Val) :
    charged a price vs = mapProg (fun v => if v.addr = a then v.prog - price else v.prog) vs := by
  unfold charged mapProg
  apply List.map_congr_left
  intro v _
  by_cases h : v.addr = a <;> simp [h]

theorem pick_mem (ex : List Addr) : ∀ (l : List Val) (cur : Val), pick ex cur l = cur ∨ pick ex cur l ∈ l := by
  intro l
  induction l with
  | nil => intro cur; left; rfl
  | cons v t ih =>
    intro cur
    unfold pick
    rcases ih (if v.addr ∉ ex ∧ v.prog > cur.prog then v else cur) with h | h
    · rw [h]; split
      · right; simp
      · left; rfl
    · right; exact List.mem_cons_of_mem _ h

/-- the selected validator is the starting one or not excluded -/
theorem pick_free (ex : List Addr) : ∀ (l : List Val) (cur : Val),
    pick ex cur l = cur ∨ (pick ex cur l ∈ l ∧ (pick ex cur l).addr ∉ ex) := by
  intro l
  induction l with
  | nil => intro cur; left; rfl
  | cons v t ih =>
    intro cur
    unfold pick
    by_cases hc : v.addr ∉ ex ∧ v.prog > cur.prog
    · rw [if_pos hc]
      rcases ih v with h | h
      · right; rw [h]; exact ⟨by simp, hc.1⟩
      · right; exact ⟨List.mem_cons_of_mem _ h.1, h.2⟩
    · rw [if_neg hc]
      rcases ih cur with h | h
      · left; exact h
      · right; exact ⟨List.mem_cons_of_mem _ h.1, h.2⟩

theorem pick_ge (ex : List Addr) : ∀ (l : List Val) (cur : Val),
    cur.prog ≤ (pick ex cur l).prog ∧ ∀ v ∈ l, v.addr ∉ ex → v.prog ≤ (pick ex cur l).prog := by
  intro l
  induction l with
  | nil => intro cur; unfold pick; simp
  | cons v t ih =>
    intro cur
    unfold pick
    by_cases hc : v.addr ∉ ex ∧ v.prog > cur.prog
    · rw [if_pos hc]
      obtain ⟨h1, h2⟩ := ih v
      refine ⟨by omega, ?_⟩
      intro w hw hx
      rcases List.mem_cons.1 hw with rfl | hw
      · exact h1
      · exact h2 w hw hx
    · rw [if_neg hc]
      obtain ⟨h1, h2⟩ := ih cur
      refine ⟨h1, ?_⟩
      intro w hw hx
      rcases List.mem_cons.1 hw with rfl | hw
      · by_contra hlt
        exact hc ⟨hx, by omega⟩
      · exact h2 w hw hx

end Verif.Bundles
