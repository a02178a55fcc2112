import Verif.Bundles.RRLemmas

/-!
# C27, C28: exclusions and fairness of the uploader rotation

Specification: `selections` is a run of selections with a constant set of members and delegations and nobody excluded;
`rescales` counts the selections that found the progress spread over more than twice the total delegation.
-/

namespace Verif.Bundles
open Verif

/-- a run of `n` selections starting from stored progress: the chosen stakers, and the progress stored at the end -/
def selections (stakers : List Addr) (amt : Addr → Nat) : Nat → List (Addr × Int) → List Addr × List (Addr × Int)
  | 0, stored => ([], stored)
  | n + 1, stored =>
    ((chooseNext stakers amt stored []).1.toList ++ (selections stakers amt n (chooseNext stakers amt stored []).2).1,
     (selections stakers amt n (chooseNext stakers amt stored []).2).2)

/-- how many selections of such a run rescale the progress -/
def rescales (stakers : List Addr) (amt : Addr → Nat) : Nat → List (Addr × Int) → Nat
  | 0, _ => 0
  | n + 1, stored =>
    (if spread (loadRaw stakers amt stored) > 2 * (total (loadRaw stakers amt stored) : Int) then 1 else 0)
      + rescales stakers amt n (chooseNext stakers amt stored []).2

/-- the total delegation of the candidates -/
def stake (stakers : List Addr) (amt : Addr → Nat) : Nat := ((candidates stakers amt).map amt).sum

theorem loadRaw_addr (stakers : List Addr) (amt : Addr → Nat) (stored : List (Addr × Int)) :
    (loadRaw stakers amt stored).map (·.addr) = candidates stakers amt := by
  unfold loadRaw; rw [List.map_map]; simp [Function.comp_def]

theorem loadRaw_power (stakers : List Addr) (amt : Addr → Nat) (stored : List (Addr × Int)) :
    (loadRaw stakers amt stored).map (·.power) = (candidates stakers amt).map amt := by
  unfold loadRaw; rw [List.map_map]; rfl

theorem loadRaw_total (stakers : List Addr) (amt : Addr → Nat) (stored : List (Addr × Int)) :
    total (loadRaw stakers amt stored) = stake stakers amt := by
  unfold total stake; rw [loadRaw_power]

theorem load_addr (stakers : List Addr) (amt : Addr → Nat) (stored : List (Addr × Int)) :
    (load stakers amt stored).map (·.addr) = candidates stakers amt := by
  unfold load; rw [normalize_addr, loadRaw_addr]

theorem load_total (stakers : List Addr) (amt : Addr → Nat) (stored : List (Addr × Int)) :
    total (load stakers amt stored) = stake stakers amt := by
  unfold load; rw [normalize_total, loadRaw_total]

/-- the selection works on the loaded set: normalizing it again changes nothing -/
theorem nextProposer_load (stakers : List Addr) (amt : Addr → Nat) (stored : List (Addr × Int)) (ex : List Addr) :
    nextProposer (load stakers amt stored) ex =
      if (load stakers amt stored).isEmpty then (none, load stakers amt stored)
      else round (effective (load stakers amt stored) ex) (load stakers amt stored) := by
  unfold nextProposer
  split
  · rfl
  · unfold load; rw [normalize_idem]

/-- the shape of a round -/
theorem round_cons {ex : List Addr} {vs : List Val} {v : Val} {l : List Val} (h : advanced ex vs = v :: l) :
    round ex vs = (some (pick ex v (v :: l)).addr,
      charged (pick ex v (v :: l)).addr ((total vs : Int) - (excludedPower ex vs : Int)) (v :: l)) := by
  unfold round; rw [h]

theorem advanced_head {ex : List Addr} {vs : List Val} {v : Val} {l : List Val} (h : advanced ex vs = v :: l) :
    vs.head?.map (·.addr) = some v.addr := by
  cases vs with
  | nil => unfold advanced at h; simp at h
  | cons x t =>
    rw [advanced_eq] at h
    unfold mapProg at h
    rw [List.map_cons] at h
    injection h with h1 h2
    rw [← h1]; rfl

/-! ## C27 -/

/-- **C27** (who can be chosen): somebody is chosen iff some member has a positive delegation, and the chosen one is
such a member. -/
theorem C27_member (stakers : List Addr) (amt : Addr → Nat) (stored : List (Addr × Int)) (ex : List Addr) :
    ((chooseNext stakers amt stored ex).1 = none ↔ ∀ a ∈ stakers, amt a = 0) ∧
    ∀ a, (chooseNext stakers amt stored ex).1 = some a → a ∈ stakers ∧ 0 < amt a := by
  have hcand : (load stakers amt stored) = [] ↔ ∀ a ∈ stakers, amt a = 0 := by
    rw [← List.map_eq_nil_iff (f := fun v : Val => v.addr), load_addr]
    unfold candidates
    rw [List.filter_eq_nil_iff]
    constructor <;> intro h a ha <;> have := h a ha <;> simp at * <;> omega
  unfold chooseNext
  rw [nextProposer_load]
  by_cases he : (load stakers amt stored) = []
  · rw [if_pos (by simpa using he)]
    exact ⟨⟨fun _ => hcand.1 he, fun _ => rfl⟩, fun a h => by cases h⟩
  · rw [if_neg (by simpa using he)]
    have hne : advanced (effective (load stakers amt stored) ex) (load stakers amt stored) ≠ [] := by
      rw [advanced_eq]; exact mapProg_ne_nil he
    obtain ⟨v, l, hvl⟩ := List.exists_cons_of_ne_nil hne
    rw [round_cons hvl]
    refine ⟨⟨fun h => (by cases h), fun h => absurd (hcand.2 h) he⟩, ?_⟩
    intro a h
    have ha : a = (pick (effective (load stakers amt stored) ex) v (v :: l)).addr := by
      injection h with h; exact h.symm
    have hm : pick (effective (load stakers amt stored) ex) v (v :: l) ∈ v :: l := by
      rcases pick_mem (effective (load stakers amt stored) ex) (v :: l) v with h | h
      · rw [h]; simp
      · exact h
    have h1 : a ∈ (v :: l).map (·.addr) := by rw [ha]; exact List.mem_map_of_mem hm
    rw [← hvl, advanced_eq, mapProg_addr, load_addr] at h1
    unfold candidates at h1
    simpa using h1

/-- the selection of a round is its first validator or not excluded -/
theorem round_choice {ex : List Addr} {vs : List Val} {a : Addr} (h : (round ex vs).1 = some a) :
    vs.head?.map (·.addr) = some a ∨ a ∉ ex := by
  cases hvl : advanced ex vs with
  | nil => unfold round at h; rw [hvl] at h; cases h
  | cons v l =>
    rw [round_cons hvl] at h
    injection h with h
    rcases pick_free ex (v :: l) v with hp | hp
    · left; rw [advanced_head hvl, ← h, hp]
    · right; rw [← h]; exact hp.2

/-- **C27** (partial): an excluded staker is chosen only if it is the first candidate of the pool, or if the number of
exclusions equals the number of candidates.  Missing: the first candidate is chosen although excluded, see
`C27_fails`. -/
theorem C27_exclusion_partial (stakers : List Addr) (amt : Addr → Nat) (stored : List (Addr × Int)) (ex : List Addr)
    (a : Addr) (h : (chooseNext stakers amt stored ex).1 = some a) (ha : a ∈ ex) :
    (candidates stakers amt).head? = some a ∨ ex.length = (candidates stakers amt).length := by
  unfold chooseNext at h
  rw [nextProposer_load] at h
  split at h
  · cases h
  · have hl : (load stakers amt stored).length = (candidates stakers amt).length := by
      rw [← load_addr stakers amt stored, List.length_map]
    rcases round_choice h with hh | hh
    · left
      rw [← load_addr stakers amt stored, List.head?_map]; exact hh
    · right
      unfold effective at hh
      split at hh
      · rename_i he; rw [he, hl]
      · exact absurd ha hh

/-- **C27** (partial, the uploader that skips): if the skipping staker is not the first candidate and another candidate
exists, somebody else is chosen. -/
theorem C27_skip_partial (stakers : List Addr) (amt : Addr → Nat) (stored : List (Addr × Int)) (s : Addr)
    (h1 : (candidates stakers amt).head? ≠ some s) : (chooseNext stakers amt stored [s]).1 ≠ some s := by
  intro h
  rcases C27_exclusion_partial _ _ _ _ _ h (by simp) with hh | hh
  · exact h1 hh
  · have hm := (C27_member stakers amt stored [s]).2 s h
    have hc : s ∈ candidates stakers amt := by unfold candidates; simpa using hm
    simp only [List.length_singleton] at hh
    obtain ⟨x, hx⟩ := List.length_eq_one_iff.1 hh.symm
    rw [hx] at hc h1
    simp at hc
    subst hc
    simp at h1

/-- **C27** (partial, the uploader after a valid bundle): if the first candidate voted valid, a staker that voted valid
is chosen. -/
theorem C27_list_partial (stakers : List Addr) (amt : Addr → Nat) (stored : List (Addr × Int)) (incl : List Addr)
    (h1 : ∀ a, (candidates stakers amt).head? = some a → a ∈ incl) (a : Addr)
    (h : (chooseFromList stakers amt stored incl).1 = some a) : a ∈ incl := by
  by_contra hn
  have hm := (C27_member stakers amt stored _).2 a h
  have hc : a ∈ candidates stakers amt := by unfold candidates; simpa using hm
  have hx : a ∈ complement (load stakers amt stored) incl := by
    unfold complement
    rw [load_addr]
    simp [hc, hn]
  rcases C27_exclusion_partial _ _ _ _ _ h hx with hh | hh
  · exact hn (h1 a hh)
  · unfold complement at hh
    rw [load_addr, List.length_filter_eq_length_iff] at hh
    cases hcand : candidates stakers amt with
    | nil => rw [hcand] at hc; cases hc
    | cons x t =>
      have hxi := h1 x (by rw [hcand]; rfl)
      have := hh x (by rw [hcand]; simp)
      simp [hxi] at this

/-- C27 is false of the code: the staker that skips is chosen again although there is another candidate. -/
theorem C27_fails : ∃ (stakers : List Addr) (amt : Addr → Nat) (stored : List (Addr × Int)) (s t : Addr),
    stakers.Nodup ∧ t ∈ stakers ∧ t ≠ s ∧ 0 < amt t ∧ (chooseNext stakers amt stored [s]).1 = some s :=
  ⟨[1, 2], fun _ => 100, [(1, 100), (2, -100)], 1, 2, by decide, by decide, by decide, by decide, by decide +kernel⟩

/-- C27 is false of the code: after a valid bundle somebody who did not vote valid is chosen although there are
candidates that did. -/
theorem C27_list_fails : ∃ (stakers : List Addr) (amt : Addr → Nat) (stored : List (Addr × Int)) (incl : List Addr)
    (a t : Addr), stakers.Nodup ∧ t ∈ stakers ∧ t ∈ incl ∧ 0 < amt t ∧
      (chooseFromList stakers amt stored incl).1 = some a ∧ a ∉ incl :=
  ⟨[1, 2, 3], fun _ => 100, [(1, 200), (2, -100), (3, -100)], [2, 3], 1, 2, by decide, by decide, by decide, by decide,
    by decide +kernel, by decide⟩

/-- the hypotheses of `C27_skip_partial` and the exclusion at work: without it staker 2 would be chosen -/
example : (chooseNext [1, 2, 3] (fun _ => 100) [(1, -50), (2, 100), (3, -50)] []).1 = some 2 ∧
    (chooseNext [1, 2, 3] (fun _ => 100) [(1, -50), (2, 100), (3, -50)] [2]).1 = some 1 ∧
    (candidates [1, 2, 3] (fun _ => 100)).head? ≠ some 2 := by decide +kernel

/-! ## C28 -/

theorem sum_charged {vs : List Val} (hnd : (vs.map (·.addr)).Nodup) {v : Val} (hv : v ∈ vs) (price : Int) :
    totalProgress (charged v.addr price vs) = totalProgress vs - price := by
  induction vs with
  | nil => cases hv
  | cons x t ih =>
    rw [List.map_cons, List.nodup_cons] at hnd
    unfold totalProgress charged
    rw [List.map_cons, List.map_cons, List.sum_cons, List.map_cons, List.sum_cons]
    rcases List.mem_cons.1 hv with rfl | hv
    · rw [if_pos rfl]
      have : t.map (fun w => if w.addr = v.addr then { w with prog := w.prog - price } else w) = t := by
        conv_rhs => rw [← List.map_id t]
        apply List.map_congr_left
        intro w hw
        rw [if_neg]; · rfl
        intro he
        exact hnd.1 (by rw [← he]; exact List.mem_map_of_mem hw)
      rw [this]
      simp only
      ring
    · have hne : x.addr ≠ v.addr := by
        intro he; exact hnd.1 (by rw [he]; exact List.mem_map_of_mem hv)
      rw [if_neg hne]
      have := ih hnd.2 hv
      unfold totalProgress charged at this
      rw [this]; ring

theorem sum_advanced (ex : List Addr) (vs : List Val) :
    totalProgress (advanced ex vs) = totalProgress vs + ((total vs : Int) - (excludedPower ex vs : Int)) := by
  induction vs with
  | nil => simp [totalProgress, advanced, total, excludedPower]
  | cons x t ih =>
    unfold totalProgress advanced total excludedPower at *
    rw [List.map_cons, List.map_cons, List.sum_cons, List.map_cons, List.sum_cons, List.map_cons, List.sum_cons, ih]
    by_cases hx : x.addr ∈ ex
    · rw [List.filter_cons_of_pos (by simpa using hx), if_pos hx]
      unfold total
      rw [List.map_cons, List.sum_cons]
      push_cast
      ring
    · rw [List.filter_cons_of_neg (by simpa using hx), if_neg hx]
      push_cast
      ring

theorem advanced_addr (ex : List Addr) (vs : List Val) : (advanced ex vs).map (·.addr) = vs.map (·.addr) := by
  rw [advanced_eq, mapProg_addr]

/-- a round does not change the sum of the progress -/
theorem round_sum {ex : List Addr} {vs : List Val} (hnd : (vs.map (·.addr)).Nodup) :
    totalProgress (round ex vs).2 = totalProgress vs := by
  cases hvl : advanced ex vs with
  | nil => unfold round; rw [hvl]
  | cons v l =>
    rw [round_cons hvl]
    have hm : pick ex v (v :: l) ∈ v :: l := by
      rcases pick_mem ex (v :: l) v with h | h
      · rw [h]; simp
      · exact h
    have h1 := sum_charged (vs := v :: l) (by rw [← hvl, advanced_addr]; exact hnd) hm
      ((total vs : Int) - (excludedPower ex vs : Int))
    have h2 := sum_advanced ex vs
    rw [hvl] at h2
    rw [h1, h2]; ring

theorem candidates_nodup {stakers : List Addr} (h : stakers.Nodup) (amt : Addr → Nat) :
    (candidates stakers amt).Nodup := h.filter _

/-- **C28** (zero-sum): a selection, with or without exclusions, does not change the sum of the (normalized) progress,
and this sum is smaller than the number of candidates. -/
theorem C28_zero_sum (stakers : List Addr) (hnd : stakers.Nodup) (amt : Addr → Nat) (stored : List (Addr × Int))
    (ex : List Addr) (h : candidates stakers amt ≠ []) :
    ((chooseNext stakers amt stored ex).2.map (·.2)).sum = totalProgress (load stakers amt stored) ∧
    |((chooseNext stakers amt stored ex).2.map (·.2)).sum| < ((candidates stakers amt).length : Int) := by
  have hne : loadRaw stakers amt stored ≠ [] := by
    intro hc; apply h; rw [← loadRaw_addr stakers amt stored, hc]; rfl
  have hne2 : load stakers amt stored ≠ [] := normalize_ne_nil hne
  have hs : ((chooseNext stakers amt stored ex).2.map (·.2)).sum = totalProgress (load stakers amt stored) := by
    unfold chooseNext saved
    rw [nextProposer_load, if_neg (by simpa using hne2)]
    simp only [List.map_map]
    have := round_sum (ex := effective (load stakers amt stored) ex) (vs := load stakers amt stored)
      (by rw [load_addr]; exact candidates_nodup hnd amt)
    unfold totalProgress at this
    exact this
  refine ⟨hs, ?_⟩
  rw [hs, abs_lt]
  have := normalize_small hne
  have hl : (loadRaw stakers amt stored).length = (candidates stakers amt).length := by
    rw [← loadRaw_addr stakers amt stored, List.length_map]
  rw [hl] at this
  exact this

theorem power_le_total {vs : List Val} {v : Val} (h : v ∈ vs) : v.power ≤ total vs :=
  List.le_sum_of_mem (List.mem_map_of_mem (f := fun v : Val => v.power) h)

theorem excludedPower_le (ex : List Addr) (vs : List Val) : excludedPower ex vs ≤ total vs := by
  unfold excludedPower total
  exact (List.filter_sublist.map _).sum_le_sum (fun x hx => by omega)

theorem total_advanced (ex : List Addr) (vs : List Val) : total (advanced ex vs) = total vs := by
  rw [advanced_eq, total_mapProg]

/-- one round moves the progress by at most the total delegation -/
theorem round_bound {ex : List Addr} {vs : List Val} {b : Int}
    (hb : ∀ v ∈ vs, -b ≤ v.prog ∧ v.prog ≤ b) : ∀ v ∈ (round ex vs).2,
      -(b + (total vs : Int)) ≤ v.prog ∧ v.prog ≤ b + (total vs : Int) := by
  intro w hw
  cases hvl : advanced ex vs with
  | nil =>
    unfold round at hw; rw [hvl] at hw
    have := hb w hw; omega
  | cons v l =>
    rw [round_cons hvl] at hw
    simp only at hw
    rw [← hvl, charged_eq, advanced_eq] at hw
    obtain ⟨w1, hw1, rfl⟩ := mem_mapProg.1 hw
    obtain ⟨w2, hw2, rfl⟩ := mem_mapProg.1 hw1
    have h1 := hb w2 hw2
    have h2 := power_le_total hw2
    have h3 := excludedPower_le ex vs
    simp only
    constructor <;> split <;> split <;> omega

/-- **C28** (bounded): whatever was stored before, after a selection every stored progress is within three times the
total delegation of the candidates. -/
theorem C28_bounded (stakers : List Addr) (amt : Addr → Nat) (stored : List (Addr × Int)) (ex : List Addr) :
    ∀ e ∈ (chooseNext stakers amt stored ex).2, |e.2| ≤ 3 * (stake stakers amt : Int) := by
  intro e he
  unfold chooseNext saved at he
  rw [nextProposer_load] at he
  have hb : ∀ v ∈ load stakers amt stored,
      -(2 * (stake stakers amt : Int)) ≤ v.prog ∧ v.prog ≤ 2 * (stake stakers amt : Int) := by
    intro v hv
    rw [← loadRaw_total stakers amt stored]
    exact normalize_bound hv
  split at he
  · rename_i hn
    simp only [List.isEmpty_iff] at hn
    rw [hn] at he; cases he
  · obtain ⟨v, hv, rfl⟩ := List.mem_map.1 he
    have := round_bound hb v hv
    rw [load_total] at this
    rw [abs_le]
    constructor <;> omega

/-! ### fairness -/

/-- the set of candidates with progress `f` -/
def setOf (stakers : List Addr) (amt : Addr → Nat) (f : Addr → Int) : List Val :=
  (candidates stakers amt).map (fun a => ⟨a, amt a, f a⟩)

theorem mapProg_setOf (stakers : List Addr) (amt : Addr → Nat) (f : Addr → Int) (g : Val → Int) :
    mapProg g (setOf stakers amt f) = setOf stakers amt (fun a => g ⟨a, amt a, f a⟩) := by
  unfold mapProg setOf; rw [List.map_map]; rfl

theorem total_setOf (stakers : List Addr) (amt : Addr → Nat) (f : Addr → Int) :
    total (setOf stakers amt f) = stake stakers amt := by
  unfold total setOf stake; rw [List.map_map]; rfl

theorem addr_setOf (stakers : List Addr) (amt : Addr → Nat) (f : Addr → Int) :
    (setOf stakers amt f).map (·.addr) = candidates stakers amt := by
  unfold setOf; rw [List.map_map]; simp [Function.comp_def]

theorem length_setOf (stakers : List Addr) (amt : Addr → Nat) (f : Addr → Int) :
    (setOf stakers amt f).length = (candidates stakers amt).length := by unfold setOf; simp

theorem mem_setOf {stakers : List Addr} {amt : Addr → Nat} {f : Addr → Int} {a : Addr} (h : a ∈ candidates stakers amt) :
    (⟨a, amt a, f a⟩ : Val) ∈ setOf stakers amt f := by
  unfold setOf; exact List.mem_map.2 ⟨a, h, rfl⟩

theorem setOf_ne {stakers : List Addr} {amt : Addr → Nat} (f : Addr → Int) (h : candidates stakers amt ≠ []) :
    setOf stakers amt f ≠ [] := by unfold setOf; simpa using h

theorem normalize_setOf (stakers : List Addr) (amt : Addr → Nat) (f : Addr → Int) :
    ∃ g, normalize (setOf stakers amt f) = setOf stakers amt g := by
  unfold normalize
  split
  · exact ⟨f, rfl⟩
  · rw [centered_eq, scaled_eq, mapProg_setOf, mapProg_setOf]
    exact ⟨_, rfl⟩

theorem filter_saved {l : List Addr} (hnd : l.Nodup) (f : Addr → Int) {a : Addr} (ha : a ∈ l) :
    (l.map (fun x => (x, f x))).filter (fun e => e.1 == a) = [(a, f a)] := by
  induction l with
  | nil => cases ha
  | cons x t ih =>
    rw [List.nodup_cons] at hnd
    rw [List.map_cons]
    by_cases hx : x = a
    · subst hx
      rw [List.filter_cons_of_pos (by simp), List.filter_eq_nil_iff.2]
      intro e he
      obtain ⟨y, hy, rfl⟩ := List.mem_map.1 he
      simp only [beq_iff_eq]
      rintro rfl
      exact hnd.1 hy
    · rw [List.filter_cons_of_neg (by simpa using hx)]
      exact ih hnd.2 (by rcases List.mem_cons.1 ha with h | h; · exact absurd h.symm hx
                         · exact h)

theorem saved_setOf (stakers : List Addr) (amt : Addr → Nat) (f : Addr → Int) :
    saved (setOf stakers amt f) = (candidates stakers amt).map (fun a => (a, f a)) := by
  unfold saved setOf; rw [List.map_map]; rfl

/-- what was saved is loaded again -/
theorem loadRaw_saved {stakers : List Addr} (hnd : stakers.Nodup) (amt : Addr → Nat) (f : Addr → Int) :
    loadRaw stakers amt (saved (setOf stakers amt f)) = setOf stakers amt f := by
  rw [saved_setOf]
  unfold loadRaw setOf
  apply List.map_congr_left
  intro a ha
  have hf := filter_saved (candidates_nodup hnd amt) f ha
  unfold loadProgress
  rw [if_pos, hf]
  · simp
  · rw [List.any_eq_true]
    exact ⟨(a, f a), List.mem_map.2 ⟨a, ha, rfl⟩, by simp⟩

theorem excludedPower_nil (vs : List Val) : excludedPower [] vs = 0 := by
  unfold excludedPower total; simp

/-- a round without exclusions: everybody gains its delegation, the chosen one pays the total -/
theorem round_setOf {stakers : List Addr} {amt : Addr → Nat} (f : Addr → Int) (h : candidates stakers amt ≠ []) :
    ∃ c ∈ candidates stakers amt, (round [] (setOf stakers amt f)).1 = some c ∧
      (round [] (setOf stakers amt f)).2 = setOf stakers amt
        (fun a => if a = c then f a + (amt a : Int) - (stake stakers amt : Int) else f a + (amt a : Int)) := by
  have hadv : advanced [] (setOf stakers amt f) = setOf stakers amt (fun a => f a + (amt a : Int)) := by
    rw [advanced_eq, mapProg_setOf]; simp
  obtain ⟨v, l, hvl⟩ := List.exists_cons_of_ne_nil (setOf_ne (fun a => f a + (amt a : Int)) h)
  rw [hvl] at hadv
  have hm : pick [] v (v :: l) ∈ v :: l := by
    rcases pick_mem [] (v :: l) v with h | h
    · rw [h]; simp
    · exact h
  refine ⟨(pick [] v (v :: l)).addr, ?_, ?_, ?_⟩
  · have h2 : (v :: l).map (·.addr) = candidates stakers amt := by rw [← hvl, addr_setOf]
    rw [← h2]
    exact List.mem_map_of_mem hm
  · rw [round_cons hadv]
  · rw [round_cons hadv, excludedPower_nil, total_setOf]
    simp only
    rw [← hvl, charged_eq, mapProg_setOf]
    simp

/-- one selection from loaded progress -/
theorem chooseNext_setOf {stakers : List Addr} {amt : Addr → Nat} {stored : List (Addr × Int)} {f : Addr → Int}
    (h : candidates stakers amt ≠ []) (hl : load stakers amt stored = setOf stakers amt f) :
    ∃ c ∈ candidates stakers amt, chooseNext stakers amt stored [] = (some c, saved (setOf stakers amt
        (fun a => if a = c then f a + (amt a : Int) - (stake stakers amt : Int) else f a + (amt a : Int)))) := by
  obtain ⟨c, hc, e1, e2⟩ := round_setOf f h
  refine ⟨c, hc, ?_⟩
  have he : effective (load stakers amt stored) [] = [] := by unfold effective; split <;> rfl
  unfold chooseNext
  rw [nextProposer_load, he, hl, if_neg (by simpa using setOf_ne f h), e1, e2]

theorem bound_setOf {stakers : List Addr} {amt : Addr → Nat} {stored : List (Addr × Int)} {f : Addr → Int}
    (hl : load stakers amt stored = setOf stakers amt f) {a : Addr} (ha : a ∈ candidates stakers amt) :
    |f a| ≤ 2 * (stake stakers amt : Int) := by
  have hm := mem_setOf (f := f) ha
  rw [← hl] at hm
  have := normalize_bound hm
  rw [loadRaw_total] at this
  rw [abs_le]; exact this

/-- the invariant of a run: after a selection, the progress sums to nearly zero and is at most three times the total -/
structure Mid (stakers : List Addr) (amt : Addr → Nat) (f : Addr → Int) : Prop where
  lo : -((candidates stakers amt).length : Int) < totalProgress (setOf stakers amt f)
  hi : totalProgress (setOf stakers amt f) < ((candidates stakers amt).length : Int)
  bound : ∀ a ∈ candidates stakers amt, |f a| ≤ 3 * (stake stakers amt : Int)

theorem Mid.next {stakers : List Addr} (hnd : stakers.Nodup) {amt : Addr → Nat} (h : candidates stakers amt ≠ [])
    {stored : List (Addr × Int)} {g : Addr → Int}
    (he : (chooseNext stakers amt stored []).2 = saved (setOf stakers amt g)) : Mid stakers amt g := by
  have h1 := (C28_zero_sum stakers hnd amt stored [] h).2
  have h2 := C28_bounded stakers amt stored []
  rw [he] at h1 h2
  have hs : ((saved (setOf stakers amt g)).map (·.2)).sum = totalProgress (setOf stakers amt g) := by
    unfold saved totalProgress; rw [List.map_map]; rfl
  rw [hs, abs_lt] at h1
  refine ⟨h1.1, h1.2, ?_⟩
  intro a ha
  exact h2 (a, g a) (by rw [saved_setOf]; exact List.mem_map.2 ⟨a, ha, rfl⟩)

/-- without rescaling, loading does not change the progress -/
theorem Mid.load_same {stakers : List Addr} (hnd : stakers.Nodup) {amt : Addr → Nat} (h : candidates stakers amt ≠ [])
    {f : Addr → Int} (m : Mid stakers amt f)
    (hn : ¬ spread (setOf stakers amt f) > 2 * (total (setOf stakers amt f) : Int)) :
    load stakers amt (saved (setOf stakers amt f)) = setOf stakers amt f := by
  unfold load
  rw [loadRaw_saved hnd, normalize_ne (setOf_ne f h)]
  have hs : scaled (setOf stakers amt f) = setOf stakers amt f := by unfold scaled; rw [if_neg hn]
  rw [hs]
  exact centered_self (setOf_ne f h) (by rw [length_setOf]; exact m.lo) (by rw [length_setOf]; exact m.hi)

theorem Mid.run {stakers : List Addr} (hnd : stakers.Nodup) {amt : Addr → Nat} (h : candidates stakers amt ≠ [])
    {a : Addr} (ha : a ∈ candidates stakers amt) : ∀ (n : Nat) (f : Addr → Int), Mid stakers amt f →
    ∃ q : Int, |q| ≤ 3 * (stake stakers amt : Int) ∧
      |q - (f a + (n : Int) * (amt a : Int)
          - (((selections stakers amt n (saved (setOf stakers amt f))).1.count a : Nat) : Int) * (stake stakers amt : Int))|
        ≤ 5 * (stake stakers amt : Int) * (rescales stakers amt n (saved (setOf stakers amt f)) : Int) := by
  intro n
  induction n with
  | zero =>
    intro f m
    refine ⟨f a, m.bound a ha, ?_⟩
    simp [selections, rescales]
  | succ n ih =>
    intro f m
    have hex : ∃ g, load stakers amt (saved (setOf stakers amt f)) = setOf stakers amt g := by
      unfold load; rw [loadRaw_saved hnd]; exact normalize_setOf stakers amt f
    obtain ⟨g0, hg0⟩ := hex
    -- choose the same function if nothing is rescaled
    obtain ⟨g, hg, hgf⟩ : ∃ g, load stakers amt (saved (setOf stakers amt f)) = setOf stakers amt g ∧
        |g a - f a| ≤ 5 * (stake stakers amt : Int) *
          (if spread (setOf stakers amt f) > 2 * (total (setOf stakers amt f) : Int) then 1 else 0) := by
      by_cases hs : spread (setOf stakers amt f) > 2 * (total (setOf stakers amt f) : Int)
      · refine ⟨g0, hg0, ?_⟩
        rw [if_pos hs]
        have h1 := bound_setOf hg0 ha
        have h2 := m.bound a ha
        rw [abs_le] at h1 h2 ⊢
        constructor <;> omega
      · refine ⟨f, m.load_same hnd h hs, ?_⟩
        rw [if_neg hs]; simp
    obtain ⟨c, hc, e⟩ := chooseNext_setOf h hg
    have hm := Mid.next hnd h (congrArg Prod.snd e)
    obtain ⟨q, hq1, hq2⟩ := ih _ hm
    refine ⟨q, hq1, ?_⟩
    have hsel : (selections stakers amt (n + 1) (saved (setOf stakers amt f))).1
        = c :: (selections stakers amt n (chooseNext stakers amt (saved (setOf stakers amt f)) []).2).1 := by
      show (chooseNext stakers amt (saved (setOf stakers amt f)) []).1.toList ++ _ = _
      rw [e]; rfl
    have hres : rescales stakers amt (n + 1) (saved (setOf stakers amt f))
        = (if spread (setOf stakers amt f) > 2 * (total (setOf stakers amt f) : Int) then 1 else 0)
          + rescales stakers amt n (chooseNext stakers amt (saved (setOf stakers amt f)) []).2 := by
      show (if spread (loadRaw stakers amt (saved (setOf stakers amt f))) > _ then 1 else 0) + _ = _
      rw [loadRaw_saved hnd]
    rw [hsel, hres, congrArg Prod.snd e]
    simp only at hq2 ⊢
    generalize hcnt : (selections stakers amt n _).1.count a = cnt at hq2
    generalize hr : rescales stakers amt n _ = r at hq2 ⊢
    rw [List.count_cons, hcnt]
    generalize (stake stakers amt : Int) = T at *
    have hcast : (((if spread (setOf stakers amt f) > 2 * (total (setOf stakers amt f) : Int) then 1 else 0) + r : Nat) : Int)
        = (if spread (setOf stakers amt f) > 2 * (total (setOf stakers amt f) : Int) then 1 else 0) + (r : Int) := by
      push_cast; rfl
    rw [hcast]
    generalize (if spread (setOf stakers amt f) > 2 * (total (setOf stakers amt f) : Int) then (1 : Int) else 0) = d at *
    rw [abs_le] at hq2 hgf ⊢
    rw [mul_add]
    by_cases hca : c = a
    · subst hca
      simp only [if_true, beq_self_eq_true] at hq2 ⊢
      push_cast
      constructor <;> nlinarith [hq2.1, hq2.2, hgf.1, hgf.2]
    · have hac : a ≠ c := fun he => hca he.symm
      rw [if_neg hac] at hq2
      have : (c == a) = false := by simpa using hca
      rw [this]
      simp only [Bool.false_eq_true, if_false, Nat.add_zero]
      push_cast
      constructor <;> nlinarith [hq2.1, hq2.2, hgf.1, hgf.2]

/-- **C28** (fairness, partial): in any run of `n` selections with a constant set of stakers and delegations, from
whatever was stored before, the number of times a staker is chosen differs from its share `n · amount / stake` by at
most five, plus five for each selection of the run that rescales the progress.  Missing: a bound on the number of
rescalings, which do happen with a constant set (`C28_rescale_happens`). -/
theorem C28_fair_partial (stakers : List Addr) (hnd : stakers.Nodup) (amt : Addr → Nat) (stored : List (Addr × Int))
    (n : Nat) (a : Addr) (ha : a ∈ stakers) (hpos : 0 < amt a) :
    |(((selections stakers amt n stored).1.count a : Nat) : Int) * (stake stakers amt : Int) - (n : Int) * (amt a : Int)|
      ≤ 5 * (stake stakers amt : Int) * (1 + (rescales stakers amt n stored : Int)) := by
  have hc : a ∈ candidates stakers amt := by unfold candidates; simpa using ⟨ha, hpos⟩
  have hne : candidates stakers amt ≠ [] := List.ne_nil_of_mem hc
  cases n with
  | zero => simp [selections, rescales]
  | succ n =>
    obtain ⟨f, hf⟩ : ∃ f, load stakers amt stored = setOf stakers amt f := by
      unfold load
      exact normalize_setOf stakers amt (loadProgress stored ((candidates stakers amt).map amt).sum)
    obtain ⟨c, hcc, e⟩ := chooseNext_setOf hne hf
    have hm := Mid.next hnd hne (congrArg Prod.snd e)
    obtain ⟨q, hq1, hq2⟩ := Mid.run hnd hne hc n _ hm
    have hb := bound_setOf hf hc
    have hsel : (selections stakers amt (n + 1) stored).1
        = c :: (selections stakers amt n (chooseNext stakers amt stored []).2).1 := by
      show (chooseNext stakers amt stored []).1.toList ++ _ = _
      rw [e]; rfl
    have hres : rescales stakers amt n (chooseNext stakers amt stored []).2 ≤ rescales stakers amt (n + 1) stored := by
      show _ ≤ _ + rescales stakers amt n (chooseNext stakers amt stored []).2
      omega
    rw [hsel]
    rw [congrArg Prod.snd e] at hres ⊢
    simp only at hq2 hres ⊢
    generalize hcnt : (selections stakers amt n _).1.count a = cnt at hq2
    generalize rescales stakers amt n _ = r at hq2 hres
    rw [List.count_cons, hcnt]
    generalize rescales stakers amt (n + 1) stored = R at *
    have hT : (0 : Int) ≤ (stake stakers amt : Int) := by omega
    generalize (stake stakers amt : Int) = T at *
    have hrR : 5 * T * (r : Int) ≤ 5 * T * (R : Int) :=
      mul_le_mul_of_nonneg_left (by exact_mod_cast hres) (by omega)
    rw [mul_add]
    rw [abs_le] at hq1 hq2 hb ⊢
    by_cases hca : c = a
    · subst hca
      simp only [if_true, beq_self_eq_true] at hq2 ⊢
      push_cast
      constructor <;> nlinarith [hq2.1, hq2.2, hb.1, hb.2, hq1.1, hq1.2]
    · have hac : a ≠ c := fun he => hca he.symm
      rw [if_neg hac] at hq2
      have : (c == a) = false := by simpa using hca
      rw [this]
      simp only [Bool.false_eq_true, if_false, Nat.add_zero]
      push_cast
      constructor <;> nlinarith [hq2.1, hq2.2, hb.1, hb.2, hq1.1, hq1.2]

/-- C28: rescaling does happen with a constant set of stakers and constant delegations, starting from scratch. -/
theorem C28_rescale_happens : ∃ (stakers : List Addr) (amt : Addr → Nat) (n : Nat),
    stakers.Nodup ∧ (∀ a ∈ stakers, 0 < amt a) ∧ 0 < rescales stakers amt n [] :=
  ⟨[1, 2, 3, 4, 5, 6, 7, 8, 9, 10], fun a => if a ≤ 2 then 1 else if a ≤ 7 then 16 else 256, 150, by decide, by decide,
    by decide +kernel⟩

/-- `C28_fair_partial` on a run: three stakers with shares 1/2, 1/4 and 1/4 and no rescaling -/
example : (selections [1, 2, 3] (fun a => if a = 1 then 50 else 25) 8 []).1 = [1, 2, 3, 1, 1, 2, 3, 1] ∧
    rescales [1, 2, 3] (fun a => if a = 1 then 50 else 25) 8 [] = 0 := by decide +kernel

/-! ### the machine integers -/

/-- the range of `int64` -/
def fits (x : Int) : Prop := -9223372036854775808 ≤ x ∧ x < 9223372036854775808

theorem abs_sum_le {l : List Int} {b : Int} (h : ∀ x ∈ l, |x| ≤ b) : |l.sum| ≤ (l.length : Int) * b := by
  rw [abs_le]
  constructor
  · have := sum_ge_of (l := l) (b := -b) (fun x hx => (abs_le.1 (h x hx)).1)
    linarith
  · exact sum_le_of (fun x hx => (abs_le.1 (h x hx)).2)

theorem rescale_abs {t d p : Int} (ht : 0 ≤ t) (htd : t ≤ d) (hd : 0 < d) : |rescale t d p| ≤ |p| := by
  rw [rescale_eq _ _ _ hd, tdiv_cases']
  have key : ∀ x : Int, 0 ≤ x → 0 ≤ x * t / d ∧ x * t / d ≤ x := by
    intro x hx
    refine ⟨Int.ediv_nonneg (Int.mul_nonneg hx ht) hd.le, ?_⟩
    calc x * t / d ≤ x * d / d := Int.ediv_le_ediv hd (Int.mul_le_mul_of_nonneg_left htd hx)
      _ = x := Int.mul_ediv_cancel _ hd.ne'
  by_cases hp : 0 ≤ p
  · rw [if_pos (Int.mul_nonneg hp ht), abs_of_nonneg hp, abs_of_nonneg (key p hp).1]
    exact (key p hp).2
  · have h1 := key (-p) (by omega)
    rw [abs_of_neg (show p < 0 by omega)]
    split
    · rename_i hpt
      have : p * t = 0 := le_antisymm (Int.mul_nonpos_of_nonpos_of_nonneg (by omega) ht) hpt
      rw [this, Int.zero_ediv]; simp; omega
    · rw [show -(p * t) = -p * t by ring, abs_neg, abs_of_nonneg h1.1]
      exact h1.2

theorem scaled_abs {vs : List Val} {b : Int} (h : ∀ v ∈ vs, |v.prog| ≤ b) : ∀ v ∈ scaled vs, |v.prog| ≤ b := by
  intro v hv
  unfold scaled at hv
  split at hv
  · rename_i hs
    obtain ⟨w, hw, rfl⟩ := List.mem_map.1 hv
    have ht : (0 : Int) ≤ 2 * (total vs : Int) := by omega
    exact le_trans (rescale_abs ht (by omega) (by omega)) (h w hw)
  · exact h v hv

theorem startProgress_abs (t : Nat) : |startProgress t| ≤ 2 * (t : Int) := by
  unfold startProgress Dec.one
  rw [tdiv_cases', abs_le]
  constructor <;> split <;> omega

/-- **C28** (no overflow): if no stored progress exceeds `3·M`, the delegation of the candidates is at most `M`, and `M`
times the number of candidates is below `2^60`, every value computed by the selection fits in 64 bits - and the stored
progress again does not exceed `3·M`. -/
theorem C28_no_overflow (stakers : List Addr) (amt : Addr → Nat) (stored : List (Addr × Int)) (ex : List Addr) (M : Nat)
    (hM : stake stakers amt ≤ M) (hkeys : (stored.map (·.1)).Nodup) (hst : ∀ e ∈ stored, |e.2| ≤ 3 * (M : Int))
    (hn : (candidates stakers amt).length * M < 1152921504606846976) :
    (∀ v ∈ loadRaw stakers amt stored, fits v.prog) ∧
    fits (spread (loadRaw stakers amt stored)) ∧
    fits (2 * (total (loadRaw stakers amt stored) : Int)) ∧
    (∀ v ∈ scaled (loadRaw stakers amt stored), fits v.prog) ∧
    fits (totalProgress (scaled (loadRaw stakers amt stored))) ∧
    (∀ v ∈ load stakers amt stored, fits v.prog) ∧
    (∀ v ∈ advanced (effective (load stakers amt stored) ex) (load stakers amt stored), fits v.prog) ∧
    (∀ v ∈ (nextProposer (load stakers amt stored) ex).2, fits v.prog) ∧
    ∀ e ∈ (chooseNext stakers amt stored ex).2, |e.2| ≤ 3 * (M : Int) := by
  have hlen : (loadRaw stakers amt stored).length = (candidates stakers amt).length := by
    rw [← loadRaw_addr stakers amt stored, List.length_map]
  have hraw : ∀ v ∈ loadRaw stakers amt stored, |v.prog| ≤ 3 * (M : Int) := by
    intro v hv
    unfold loadRaw at hv
    obtain ⟨a, ha, rfl⟩ := List.mem_map.1 hv
    simp only
    unfold loadProgress
    split
    · rename_i hany
      rw [List.any_eq_true] at hany
      obtain ⟨e, he, hea⟩ := hany
      simp only [beq_iff_eq] at hea
      have hu : stored.filter (fun e => e.1 == a) = [e] := by
        clear hst hv hlen hn
        induction stored with
        | nil => cases he
        | cons x t ih =>
          rw [List.map_cons, List.nodup_cons] at hkeys
          rcases List.mem_cons.1 he with rfl | he
          · rw [List.filter_cons_of_pos (by simpa using hea), List.filter_eq_nil_iff.2]
            intro y hy
            simp only [beq_iff_eq]
            intro hya
            exact hkeys.1 (by rw [hea, ← hya]; exact List.mem_map_of_mem hy)
          · rw [List.filter_cons_of_neg, ih hkeys.2 he]
            simp only [beq_iff_eq]
            intro hxa
            exact hkeys.1 (by rw [hxa, ← hea]; exact List.mem_map_of_mem he)
      rw [hu]
      simpa using hst e he
    · have h1 := startProgress_abs (stake stakers amt)
      unfold stake at h1 hM
      omega
  have hsc := scaled_abs hraw
  have hld : ∀ v ∈ load stakers amt stored, -(2 * (M : Int)) ≤ v.prog ∧ v.prog ≤ 2 * (M : Int) := by
    intro v hv
    have := normalize_bound hv
    rw [loadRaw_total] at this
    omega
  by_cases hc : candidates stakers amt = []
  · have hl0 : loadRaw stakers amt stored = [] := List.length_eq_zero_iff.1 (by rw [hlen, hc]; rfl)
    have hl1 : load stakers amt stored = [] := by unfold load; rw [hl0]; rfl
    have hch : (chooseNext stakers amt stored ex).2 = [] := by unfold chooseNext; rw [hl1]; rfl
    rw [hch, hl1, hl0]
    refine ⟨by simp, ⟨by decide, by decide⟩, ⟨by decide, by decide⟩, by simp [scaled], ⟨by decide, by decide⟩, by simp, by simp [advanced],
      by simp [nextProposer], by simp⟩
  · have hpos : 1 ≤ (candidates stakers amt).length := List.length_pos_iff.2 hc
    have hM1 : M < 1152921504606846976 := lt_of_le_of_lt (Nat.le_mul_of_pos_left M hpos) hn
    have hne : loadRaw stakers amt stored ≠ [] := by
      intro he; rw [he] at hlen; simp at hlen; omega
    have h3 : ∀ {x : Int}, |x| ≤ 3 * (M : Int) → fits x := by
      intro x hx; rw [abs_le] at hx; unfold fits; constructor <;> omega
    have hadv : ∀ v ∈ advanced (effective (load stakers amt stored) ex) (load stakers amt stored), |v.prog| ≤ 3 * (M : Int) := by
      intro v hv
      rw [advanced_eq] at hv
      obtain ⟨w, hw, rfl⟩ := mem_mapProg.1 hv
      have h1 := hld w hw
      have h2 := power_le_total hw
      rw [load_total] at h2
      simp only
      rw [abs_le]
      constructor <;> split <;> omega
    have hfin : ∀ e ∈ (chooseNext stakers amt stored ex).2, |e.2| ≤ 3 * (M : Int) := by
      intro e he
      have := C28_bounded stakers amt stored ex e he
      omega
    refine ⟨fun v hv => h3 (hraw v hv), ?_, ?_, fun v hv => h3 (hsc v hv), ?_, ?_, fun v hv => h3 (hadv v hv), ?_, hfin⟩
    · obtain ⟨v, hv, w, hw, e⟩ := spread_attained hne
      have h1 := hraw v hv
      have h2 := hraw w hw
      rw [abs_le] at h1 h2
      unfold fits
      constructor <;> omega
    · rw [loadRaw_total]; unfold fits; constructor <;> omega
    · have h1 := abs_sum_le (l := (scaled (loadRaw stakers amt stored)).map (·.prog)) (b := 3 * (M : Int)) (by
        intro x hx
        obtain ⟨v, hv, rfl⟩ := List.mem_map.1 hx
        exact hsc v hv)
      have hl2 : ((scaled (loadRaw stakers amt stored)).map (·.prog)).length = (candidates stakers amt).length := by
        rw [List.length_map, scaled_eq, mapProg_length, hlen]
      rw [hl2] at h1
      have h2 : ((candidates stakers amt).length : Int) * (3 * (M : Int)) < 3 * 1152921504606846976 := by
        have : (((candidates stakers amt).length * M : Nat) : Int) < 1152921504606846976 := by exact_mod_cast hn
        push_cast at this
        linarith
      unfold totalProgress
      rw [abs_le] at h1
      unfold fits
      constructor <;> linarith [h1.1, h1.2]
    · intro v hv
      have := hld v hv
      unfold fits; constructor <;> omega
    · intro v hv
      exact h3 (hfin (v.addr, v.prog) (by unfold chooseNext saved; exact List.mem_map.2 ⟨v, hv, rfl⟩))

end Verif.Bundles
