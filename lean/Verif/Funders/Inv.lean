import Verif.Funders.Lemmas

/-!
# Invariants of x/funders
-/

namespace Verif.Funders
open Verif

/-- sum of all remaining fundings of one coin -/
def remaining (s : State) (d : Denom) : Nat := s.fundings.sum (fun _ f => f.amounts.amt d)

/-- store shape: keys agree, active lists are short, duplicate free, refer to existing fundings, and contain every
funding with remaining coins -/
structure SInv (s : State) : Prop where
  key : ∀ k f, s.fundings.get? k = some f → (f.funder, f.pool) = k
  nodup : ∀ p l, s.active.get? p = some l → l.Nodup
  cap : ∀ p l, s.active.get? p = some l → l.length ≤ MaxFunders
  listed : ∀ p l a, s.active.get? p = some l → a ∈ l → ∃ f, s.funding? a p = some f
  act : ∀ a p f d, s.funding? a p = some f → f.amounts.amt d ≠ 0 → ∃ l, s.active.get? p = some l ∧ a ∈ l
  has : ∀ a p f, s.funding? a p = some f → ∃ l, s.active.get? p = some l

structure Inv (w : World) : Prop extends SInv w.s where
  bal : ∀ d, (w.b (.mod .funders)).amt d = remaining w.s d + w.s.gifts.amt d

theorem remaining_set (s : State) (f : Funding) (d : Denom) :
    remaining (s.setFunding f) d + (match s.funding? f.funder f.pool with | some g => g.amounts.amt d | none => 0)
      = remaining s d + f.amounts.amt d := by
  have h := Map.sum_set s.fundings (fun _ f => f.amounts.amt d) (f.funder, f.pool) f
  have : (s.fundings.at' (fun _ f => f.amounts.amt d) (f.funder, f.pool))
      = (match s.funding? f.funder f.pool with | some g => g.amounts.amt d | none => 0) := by
    unfold Map.at' State.funding?
    cases s.fundings.get? (f.funder, f.pool) <;> rfl
  rw [this] at h
  unfold remaining State.setFunding
  simpa [Nat.add_comm] using h

theorem SInv.activeFundings_length {s : State} (h : SInv s) {p : Nat} {l : List Addr} (hl : s.active.get? p = some l) :
    (s.activeFundings p l).length = l.length := by
  have hx : ∀ a ∈ l, ∃ f, s.funding? a p = some f := fun a ha => h.listed p l a hl ha
  clear hl
  unfold State.activeFundings
  induction l with
  | nil => rfl
  | cons a t ih =>
    obtain ⟨f, hf⟩ := hx a (by simp)
    rw [List.filterMap_cons, hf]
    simp only [List.length_cons]
    rw [ih (fun a ha => hx a (by simp [ha]))]

/-- store shape while the active list of `pool` is being worked on in memory -/
structure WInv (s : State) (pool : Nat) (l : List Addr) : Prop where
  key : ∀ k f, s.fundings.get? k = some f → (f.funder, f.pool) = k
  nodup : ∀ p l, s.active.get? p = some l → l.Nodup
  cap : ∀ p l, s.active.get? p = some l → l.length ≤ MaxFunders
  listed : ∀ p l a, s.active.get? p = some l → a ∈ l → ∃ f, s.funding? a p = some f
  act : ∀ a p f d, p ≠ pool → s.funding? a p = some f → f.amounts.amt d ≠ 0 → ∃ l, s.active.get? p = some l ∧ a ∈ l
  has : ∀ a p f, s.funding? a p = some f → ∃ l, s.active.get? p = some l
  lnodup : l.Nodup
  lcap : l.length ≤ MaxFunders
  llisted : ∀ a ∈ l, ∃ f, s.funding? a pool = some f
  lact : ∀ a f d, s.funding? a pool = some f → f.amounts.amt d ≠ 0 → a ∈ l
  lhas : ∃ l, s.active.get? pool = some l

theorem SInv.toWork {s : State} (h : SInv s) {pool : Nat} {l : List Addr} (hl : s.active.get? pool = some l) :
    WInv s pool l := by
  refine ⟨h.key, h.nodup, h.cap, h.listed, fun a p f d _ => h.act a p f d, h.has, h.nodup _ _ hl, h.cap _ _ hl,
    fun a => h.listed _ _ a hl, ?_, ⟨l, hl⟩⟩
  intro a f d hf hd
  obtain ⟨l', hl', ha⟩ := h.act a pool f d hf hd
  rw [hl] at hl'; cases hl'; exact ha

theorem WInv.finish {s : State} {pool : Nat} {l : List Addr} (h : WInv s pool l) : SInv (s.setActive pool l) := by
  have ga : ∀ p, (s.setActive pool l).active.get? p = if p = pool then some l else s.active.get? p :=
    fun p => Map.get?_set _ _ _ _
  refine ⟨h.key, ?_, ?_, ?_, ?_, ?_⟩
  · intro p l' hl'
    rw [ga] at hl'; split at hl'
    · cases hl'; exact h.lnodup
    · exact h.nodup p l' hl'
  · intro p l' hl'
    rw [ga] at hl'; split at hl'
    · cases hl'; exact h.lcap
    · exact h.cap p l' hl'
  · intro p l' a hl' ha
    rw [ga] at hl'; split at hl'
    · rename_i e; subst e; cases hl'; exact h.llisted a ha
    · exact h.listed p l' a hl' ha
  · intro a p f d hf hd
    rw [ga]
    by_cases e : p = pool
    · subst e; rw [if_pos rfl]; exact ⟨l, rfl, h.lact a f d hf hd⟩
    · rw [if_neg e]; exact h.act a p f d e hf hd
  · intro a p f hf
    rw [ga]
    split
    · exact ⟨l, rfl⟩
    · exact h.has a p f hf

/-- writing a funding of the pool together with the matching list update -/
theorem WInv.set {s : State} {pool : Nat} {l l' : List Addr} (h : WInv s pool l) {f : Funding} (hp : f.pool = pool)
    (hn : l'.Nodup) (hc : l'.length ≤ MaxFunders) (hsub : ∀ a ∈ l', a ∈ l ∨ a = f.funder)
    (hkeep : ∀ a ∈ l, a ≠ f.funder → a ∈ l') (hnz : ∀ d, f.amounts.amt d ≠ 0 → f.funder ∈ l') :
    WInv (s.setFunding f) pool l' := by
  subst hp
  refine ⟨?_, h.nodup, h.cap, ?_, ?_, ?_, hn, hc, ?_, ?_, h.lhas⟩
  · intro k g hg
    simp only [State.setFunding, Map.get?_set] at hg
    split at hg
    · cases hg; rename_i e; exact e.symm
    · exact h.key k g hg
  · intro p l1 a hl1 ha
    rw [funding?_set]
    split
    · exact ⟨f, rfl⟩
    · exact h.listed p l1 a hl1 ha
  · intro a p g d hne hg hd
    rw [funding?_set, if_neg (by rintro ⟨_, e⟩; exact hne e)] at hg
    exact h.act a p g d hne hg hd
  · intro a p g hg
    rw [funding?_set] at hg
    split at hg
    · rename_i e; rw [e.2]; exact h.lhas
    · exact h.has a p g hg
  · intro a ha
    rw [funding?_set]
    split
    · exact ⟨f, rfl⟩
    · rename_i e
      rcases hsub a ha with h1 | h1
      · exact h.llisted a h1
      · exact absurd ⟨h1, rfl⟩ e
  · intro a g d hg hd
    rw [funding?_set] at hg
    split at hg
    · rename_i e; cases hg; rw [e.1]; exact hnz d hd
    · rename_i e
      have : a ≠ f.funder := fun e' => e ⟨e', rfl⟩
      exact hkeep a (h.lact a g d hg hd) this

/-! ## charge -/

theorem charge_le (p : Params) (f : Funding) (d : Denom) : (f.charge p).amt d ≤ f.amounts.amt d := by
  unfold Funding.charge
  rw [Coins.amt_filter]
  split
  · rw [Coins.amt_min]; exact Nat.min_le_left _ _
  · exact Nat.zero_le _

theorem charged_amounts (p : Params) (f : Funding) (d : Denom) :
    (f.charged p).amounts.amt d + (f.charge p).amt d = f.amounts.amt d := by
  have : (f.charged p).amounts = f.amounts.sub (f.charge p) := rfl
  rw [this, Coins.amt_sub]
  have := charge_le p f d
  omega

theorem WInv.chargeOne {c : Charge} {pool : Nat} (h : WInv c.s pool c.l) {f : Funding} (hp : f.pool = pool)
    (hl : f.funder ∈ c.l) : WInv (chargeOne c f).s pool (chargeOne c f).l := by
  unfold Funders.chargeOne
  simp only
  by_cases hz : (f.charged c.s.params).amounts.isZero = true
  · rw [if_pos hz]
    refine h.set (f := f.charged c.s.params) hp (nodup_setInactive h.lnodup _)
      (Nat.le_trans (length_setInactive_le _ _) h.lcap) ?_ ?_ ?_
    · intro a ha; exact Or.inl ((mem_setInactive h.lnodup).1 ha).1
    · intro a ha hne; exact (mem_setInactive h.lnodup).2 ⟨ha, hne⟩
    · intro d hd; exact absurd (Coins.isZero_iff.1 hz d) hd
  · rw [if_neg hz]
    exact h.set (f := f.charged c.s.params) hp h.lnodup h.lcap (fun a ha => Or.inl ha) (fun a ha _ => ha)
      (fun d _ => hl)

/-- the whole loop: `fs` are fundings of distinct funders of the pool, still as in the store -/
theorem charge_gifts (fs : List Funding) (c : Charge) : (fs.foldl Funders.chargeOne c).s.gifts = c.s.gifts := by
  induction fs generalizing c with
  | nil => rfl
  | cons f t ih => rw [List.foldl_cons, ih]; rfl

theorem charge_loop (pool : Nat) (fs : List Funding) (c : Charge) (h : WInv c.s pool c.l)
    (hfs : ∀ f ∈ fs, c.s.funding? f.funder pool = some f ∧ f.pool = pool ∧ f.funder ∈ c.l)
    (hnd : (fs.map (·.funder)).Nodup) :
    let c' := fs.foldl Funders.chargeOne c
    WInv c'.s pool c'.l ∧ c'.s.params = c.s.params ∧ c'.s.active = c.s.active ∧ c'.s.funders = c.s.funders ∧
    (∀ d, remaining c'.s d + c'.paid.amt d = remaining c.s d + c.paid.amt d) ∧
    (∀ d, c'.paid.amt d = c.paid.amt d + (fs.map (fun f => (f.charge c.s.params).amt d)).sum) ∧
    (∀ a p, c'.s.funding? a p = match fs.find? (fun f => f.funder == a && p == pool) with
      | some f => some (f.charged c.s.params) | none => c.s.funding? a p) ∧
    (∀ a, a ∈ c'.l ↔ a ∈ c.l ∧ ∀ f ∈ fs, f.funder = a → ∃ d, (f.charged c.s.params).amounts.amt d ≠ 0) := by
  induction fs generalizing c with
  | nil => simpa using h
  | cons f t ih =>
    obtain ⟨hf1, hf2, hf3⟩ := hfs f (by simp)
    rw [List.map_cons, List.nodup_cons] at hnd
    have hW := h.chargeOne hf2 hf3
    have hp : (Funders.chargeOne c f).s.params = c.s.params := rfl
    have hg : ∀ a p, (Funders.chargeOne c f).s.funding? a p
        = if a = f.funder ∧ p = pool then some (f.charged c.s.params) else c.s.funding? a p := by
      intro a p
      rw [show (Funders.chargeOne c f).s = c.s.setFunding (f.charged c.s.params) from rfl, funding?_set]
      rw [show (f.charged c.s.params).funder = f.funder from rfl, show (f.charged c.s.params).pool = f.pool from rfl, hf2]
    have hmem : ∀ a, a ∈ (Funders.chargeOne c f).l ↔ a ∈ c.l ∧ (a = f.funder → ∃ d, (f.charged c.s.params).amounts.amt d ≠ 0) := by
      intro a
      unfold Funders.chargeOne
      simp only
      by_cases hz : (f.charged c.s.params).amounts.isZero = true
      · rw [if_pos hz, mem_setInactive h.lnodup]
        constructor
        · rintro ⟨h1, h2⟩; exact ⟨h1, fun e => absurd e h2⟩
        · rintro ⟨h1, h2⟩
          refine ⟨h1, fun e => ?_⟩
          obtain ⟨d, hd⟩ := h2 e
          exact hd (Coins.isZero_iff.1 hz d)
      · rw [if_neg hz]
        have := Coins.isZero_false_iff.1 (by simpa using hz)
        exact ⟨fun h1 => ⟨h1, fun _ => this⟩, fun h1 => h1.1⟩
    obtain ⟨i1, i2, i3, i3', i4, i5, i6, i7⟩ := ih (Funders.chargeOne c f) hW (by
      intro g hg'
      obtain ⟨g1, g2, g3⟩ := hfs g (by simp [hg'])
      have hne : g.funder ≠ f.funder := by
        intro e
        exact hnd.1 (e ▸ List.mem_map_of_mem hg')
      refine ⟨?_, g2, ?_⟩
      · rw [hg, if_neg (by rintro ⟨e, _⟩; exact hne e)]; exact g1
      · exact (hmem _).2 ⟨g3, fun e => absurd e hne⟩) hnd.2
    rw [hp] at i5 i6 i7
    simp only [List.foldl_cons]
    refine ⟨i1, i2.trans hp, i3, i3', ?_, ?_, ?_, ?_⟩
    · intro d
      rw [i4 d]
      have h1 := remaining_set c.s (f.charged c.s.params) d
      rw [show (f.charged c.s.params).funder = f.funder from rfl, show (f.charged c.s.params).pool = f.pool from rfl,
        hf2, hf1] at h1
      simp only at h1
      have h2 := charged_amounts c.s.params f d
      have h3 : (Funders.chargeOne c f).paid.amt d = c.paid.amt d + (f.charge c.s.params).amt d := by
        rw [show (Funders.chargeOne c f).paid = c.paid.add (f.charge c.s.params) from rfl, Coins.amt_add]
      rw [h3, show (Funders.chargeOne c f).s = c.s.setFunding (f.charged c.s.params) from rfl]
      omega
    · intro d
      rw [i5 d, show (Funders.chargeOne c f).paid = c.paid.add (f.charge c.s.params) from rfl, Coins.amt_add,
        List.map_cons, List.sum_cons]
      omega
    · intro a p
      rw [i6 a p, hg a p, List.find?_cons]
      by_cases e : f.funder = a ∧ p = pool
      · obtain ⟨rfl, rfl⟩ := e
        have : t.find? (fun g => g.funder == f.funder && p == p) = none := by
          rw [List.find?_eq_none]
          intro g hg' hc
          simp only [beq_self_eq_true, Bool.and_true, beq_iff_eq] at hc
          exact hnd.1 (hc ▸ List.mem_map_of_mem hg')
        rw [this]
        simp
      · have e1 : (f.funder == a && p == pool) = false := by
          rw [Bool.eq_false_iff]
          intro hc
          simp only [Bool.and_eq_true, beq_iff_eq] at hc
          exact e hc
        rw [e1, if_neg (by rintro ⟨e1, e2⟩; exact e ⟨e1.symm, e2⟩)]
    · intro a
      rw [i7 a, hmem a]
      constructor
      · rintro ⟨⟨h1, h2⟩, h3⟩
        refine ⟨h1, ?_⟩
        intro g hg' hga
        rcases List.mem_cons.1 hg' with rfl | hg'
        · exact h2 hga.symm
        · exact h3 g hg' hga
      · rintro ⟨h1, h2⟩
        exact ⟨⟨h1, fun e => h2 f (by simp) e.symm⟩, fun g hg' => h2 g (by simp [hg'])⟩

theorem SInv.activeFundings_spec {s : State} (h : SInv s) {p : Nat} {l : List Addr} (hl : s.active.get? p = some l) :
    (∀ f ∈ s.activeFundings p l, s.funding? f.funder p = some f ∧ f.pool = p ∧ f.funder ∈ l) ∧
    ((s.activeFundings p l).map (·.funder)).Nodup := by
  have hk : ∀ a f, s.funding? a p = some f → f.funder = a ∧ f.pool = p := by
    intro a f hf
    have := h.key _ _ hf
    simp only [Prod.mk.injEq] at this
    exact this
  constructor
  · intro f hf
    obtain ⟨a, ha, hfa⟩ := mem_activeFundings.1 hf
    obtain ⟨rfl, h2⟩ := hk a f hfa
    exact ⟨hfa, h2, ha⟩
  · have hn := h.nodup p l hl
    clear hl
    unfold State.activeFundings
    induction l with
    | nil => simp
    | cons a t ih =>
      rw [List.nodup_cons] at hn
      rw [List.filterMap_cons]
      cases hf : s.funding? a p with
      | none => exact ih hn.2
      | some f =>
        simp only [List.map_cons, List.nodup_cons]
        refine ⟨?_, ih hn.2⟩
        intro hm
        obtain ⟨g, hg, hgf⟩ := List.mem_map.1 hm
        obtain ⟨b, hb, hgb⟩ := List.mem_filterMap.1 hg
        have e1 := (hk a f hf).1
        have e2 := (hk b g hgb).1
        have : a = b := by rw [← e1, ← e2, hgf]
        exact hn.1 (this ▸ hb)

/-- `ChargeFundersOfPool` on a good state -/
theorem charge_ok {w : World} (h : Inv w) {pool : Nat} {l : List Addr} (hl : w.s.active.get? pool = some l) :
    ∃ paid s' b', chargeFundersOfPool w.s w.b pool = .ok (paid, s', b') ∧ Inv ⟨s', b'⟩ ∧
      s'.params = w.s.params ∧ s'.funders = w.s.funders ∧
      (∀ p, p ≠ pool → s'.active.get? p = w.s.active.get? p) ∧
      (∀ d, paid.amt d = ((w.s.activeFundings pool l).map (fun f => (f.charge w.s.params).amt d)).sum) ∧
      (∀ a d, (b' a).amt d = (w.b a).amt d - (if a = .mod .funders then paid.amt d else 0)
        + (if a = .mod .pool then paid.amt d else 0)) ∧
      (∀ a p, s'.funding? a p = if p = pool ∧ a ∈ l then (w.s.funding? a p).map (Funding.charged w.s.params)
        else w.s.funding? a p) ∧
      (∃ l', s'.active.get? pool = some l' ∧ ∀ a, a ∈ l' ↔ a ∈ l ∧ ∃ f d, s'.funding? a pool = some f ∧ f.amounts.amt d ≠ 0) := by
  obtain ⟨hf1, hf2⟩ := h.activeFundings_spec hl
  have key := charge_loop pool (w.s.activeFundings pool l) ⟨w.s, l, Coins.zero⟩ (h.toWork hl) hf1 hf2
  simp only at key
  obtain ⟨i1, i2, i3, i3', i4, i5, i6, i7⟩ := key
  unfold chargeFundersOfPool
  rw [hl]
  simp only
  set c := (w.s.activeFundings pool l).foldl Funders.chargeOne ⟨w.s, l, Coins.zero⟩ with hc
  by_cases he : (w.s.activeFundings pool l).isEmpty = true
  · rw [if_pos he]
    have hnil : w.s.activeFundings pool l = [] := List.isEmpty_iff.1 he
    have hl0 : l = [] := by
      have := h.activeFundings_length hl
      rw [hnil] at this
      exact List.eq_nil_of_length_eq_zero this.symm
    subst hl0
    refine ⟨_, _, _, rfl, h, rfl, rfl, fun _ _ => rfl, ?_, ?_, ?_, ?_⟩
    · intro d; rw [hnil]; simp
    · intro a d; simp
    · intro a p; simp
    · exact ⟨[], hl, by simp⟩
  · rw [if_neg he]
    have hpaid : ∀ d, c.paid.amt d ≤ (w.b (.mod .funders)).amt d := by
      intro d
      rw [h.bal d]
      have := i4 d
      simp only [Coins.amt_zero] at this
      omega
    obtain ⟨b', hb'⟩ := Bank.send_succeeds (t := .mod .pool) hpaid
    rw [hb']
    have hsend := (Bank.send_ok hb').2
    have hl2 : (c.s.setActive pool c.l).active.get? pool = some c.l := Map.get?_set_self _ _ _
    have hfun : ∀ a p, (c.s.setActive pool c.l).funding? a p
        = if p = pool ∧ a ∈ l then (w.s.funding? a p).map (Funding.charged w.s.params) else w.s.funding? a p := by
      intro a p
      show c.s.funding? a p = _
      rw [i6 a p]
      by_cases e : p = pool ∧ a ∈ l
      · rw [if_pos e]
        obtain ⟨rfl, ha⟩ := e
        obtain ⟨f, hf⟩ := h.listed p l a hl ha
        have hk := h.key _ _ hf
        simp only [Prod.mk.injEq] at hk
        have hm : f ∈ w.s.activeFundings p l := mem_activeFundings.2 ⟨a, ha, hf⟩
        cases hfind : (w.s.activeFundings p l).find? (fun f => f.funder == a && p == p) with
        | none =>
          rw [List.find?_eq_none] at hfind
          have := hfind f hm
          simp [hk.1] at this
        | some g =>
          have h1 := List.find?_some hfind
          simp only [beq_self_eq_true, Bool.and_true, beq_iff_eq] at h1
          have h2 := (hf1 g (List.mem_of_find?_eq_some hfind)).1
          rw [h1, hf] at h2
          cases h2
          rw [hf]; rfl
      · rw [if_neg e]
        cases hfind : (w.s.activeFundings pool l).find? (fun f => f.funder == a && p == pool) with
        | none => rfl
        | some g =>
          have h1 := List.find?_some hfind
          simp only [Bool.and_eq_true, beq_iff_eq] at h1
          have h2 := (hf1 g (List.mem_of_find?_eq_some hfind)).2.2
          exact absurd ⟨h1.2, h1.1 ▸ h2⟩ e
    refine ⟨_, _, _, rfl, ?_, i2, i3', ?_, ?_, hsend, hfun, c.l, hl2, ?_⟩
    · refine { i1.finish with bal := ?_ }
      intro d
      show (b' (.mod .funders)).amt d = remaining c.s d + c.s.gifts.amt d
      rw [hsend]
      have := i4 d
      have := h.bal d
      have hg : c.s.gifts = w.s.gifts := charge_gifts _ _
      rw [hg]
      simp only [Coins.amt_zero] at *
      simp
      omega
    · intro p hp
      show (c.s.active.set pool c.l).get? p = _
      rw [Map.get?_set_ne _ _ hp, i3]
    · intro d
      have := i5 d
      simpa using this
    · intro a
      rw [i7 a]
      constructor
      · rintro ⟨h1, h2⟩
        refine ⟨h1, ?_⟩
        obtain ⟨f, hf⟩ := h.listed pool l a hl h1
        have hk := h.key _ _ hf
        simp only [Prod.mk.injEq] at hk
        obtain ⟨d, hd⟩ := h2 f (mem_activeFundings.2 ⟨a, h1, hf⟩) hk.1
        refine ⟨f.charged w.s.params, d, ?_, hd⟩
        rw [hfun, if_pos ⟨rfl, h1⟩, hf]; rfl
      · rintro ⟨h1, f, d, hf, hd⟩
        refine ⟨h1, ?_⟩
        intro g hg hga
        have hg1 := (hf1 g hg).1
        rw [hfun, if_pos ⟨rfl, h1⟩, ← hga, hg1] at hf
        cases hf
        exact ⟨d, hd⟩

/-! ## ensureFreeSlot, fund, defund -/

/-- `ensureFreeSlot` either changes nothing or removes exactly one other funder, a lowest one with at most the new
score, and pays it back completely -/
theorem ensureFreeSlot_ok {s : State} {b : Bank} {pool : Nat} {l : List Addr} {f : Funding} {w : Work}
    (h : ensureFreeSlot s pool l b f = .ok w) :
    (w = ⟨s, l, b⟩ ∧ ((s.activeFundings pool l).length < MaxFunders ∨
        ∃ low ∈ s.activeFundings pool l, low.funder = f.funder)) ∨
    ∃ low x y b', low ∈ s.activeFundings pool l ∧ low.funder ≠ f.funder ∧
      MaxFunders ≤ (s.activeFundings pool l).length ∧
      score s.params f.amounts = some x ∧ score s.params low.amounts = some y ∧ y ≤ x ∧
      (∀ g ∈ s.activeFundings pool l, ∃ z, score s.params g.amounts = some z ∧ y ≤ z) ∧
      b.send (.mod .funders) (.user low.funder) low.amounts = .ok b' ∧
      w = ⟨s.setFunding { low with amounts := Coins.zero, perBundle := Coins.zero }, setInactive l low.funder, b'⟩ := by
  unfold ensureFreeSlot at h
  split at h
  · rename_i hlt
    cases h
    exact Or.inl ⟨rfl, Or.inl hlt⟩
  · rename_i hge
    split at h
    · cases h
    · rename_i low hlow
      obtain ⟨hm, y, hy, hmin⟩ := lowestFunding_spec hlow
      split at h
      · rename_i he
        cases h
        exact Or.inl ⟨rfl, Or.inr ⟨low, hm, he⟩⟩
      · rename_i hne
        split at h
        · rename_i x y' hx hy'
          rw [hy] at hy'; cases hy'
          split at h
          · cases h
          · rename_i hxy
            unfold evict at h
            split at h
            · cases h
            · rename_i b' hb'
              cases h
              exact Or.inr ⟨low, x, y, b', hm, hne, by omega, hx, hy, by omega, hmin, hb', rfl⟩
        · cases h

/-- result of a successful `FundPool` on a good state -/
theorem fund_ok {w : World} (h : Inv w) {ok : Bool} {m : FundMsg} {s' : State} {b' : Bank}
    (hr : fundPool w.s w.b ok m = .ok (s', b')) :
    ∃ l f wk, ok = true ∧ w.s.funders.has m.creator = true ∧ w.s.active.get? m.pool = some l ∧
      f = (mergeFunding (w.s.funding? m.creator m.pool) m).clean ∧ f.funder = m.creator ∧ f.pool = m.pool ∧
      ensureFreeSlot w.s m.pool l w.b f = .ok wk ∧
      wk.b.send (.user m.creator) (.mod .funders) m.amounts = .ok b' ∧
      s' = (wk.s.setFunding f).setActive m.pool (setActive wk.l f.funder) := by
  unfold fundPool at hr
  split at hr
  · cases hr
  · split at hr
    · cases hr
    · rename_i hf
      split at hr
      · cases hr
      · rename_i hok
        split at hr
        · cases hr
        · rename_i l hl
          split at hr
          · cases hr
          · rename_i f hf'
            split at hr
            · cases hr
            · rename_i wk hwk
              unfold finishFund at hr
              split at hr
              · cases hr
              · rename_i b1 hb1
                cases hr
                have hfc := ensureParams_ok hf'
                have hk := mergeFunding_key (old := w.s.funding? m.creator m.pool) (m := m) (by
                  intro g hg
                  have := h.key _ _ hg
                  simp only [Prod.mk.injEq] at this
                  exact this)
                exact ⟨l, f, wk, by simpa using hok, by simpa using hf, hl, hfc, by rw [hfc]; exact hk.1,
                  by rw [hfc]; exact hk.2, hwk, hb1, rfl⟩

theorem mergeFunding_amt (old : Option Funding) (m : FundMsg) (d : Denom) :
    (mergeFunding old m).amounts.amt d = (match old with | some g => g.amounts.amt d | none => 0) + m.amounts.amt d := by
  cases old with
  | none => simp [mergeFunding]
  | some g => simp [mergeFunding]

theorem Inv.fund {w : World} (h : Inv w) {ok : Bool} {m : FundMsg} {s' : State} {b' : Bank}
    (hr : fundPool w.s w.b ok m = .ok (s', b')) : Inv ⟨s', b'⟩ := by
  obtain ⟨l, f, wk, -, -, hl, hfc, hf1, hf2, hslot, hsend, rfl⟩ := fund_ok h hr
  have hW := h.toWork hl
  have hamt : ∀ d, f.amounts.amt d
      = (match w.s.funding? m.creator m.pool with | some g => g.amounts.amt d | none => 0) + m.amounts.amt d := by
    intro d; rw [hfc, clean_amounts, mergeFunding_amt]
  have hs := Bank.send_ok hsend
  rcases ensureFreeSlot_ok hslot with ⟨rfl, hroom⟩ | ⟨low, x, y, b1, hm, hne, hfull, -, -, -, -, hb1, rfl⟩
  · have hlen : (setActive l f.funder).length ≤ MaxFunders := by
      rcases hroom with hroom | ⟨low, hlow, he⟩
      · rw [h.activeFundings_length hl] at hroom
        unfold setActive
        split
        · omega
        · simp; omega
      · have := ((h.activeFundings_spec hl).1 low hlow).2.2
        unfold setActive
        rw [if_pos (he ▸ this)]
        exact hW.lcap
    refine { (hW.set (f := f) hf2 (nodup_setActive hW.lnodup _) hlen (fun a ha => mem_setActive.1 ha)
      (fun a ha _ => mem_setActive.2 (Or.inl ha)) (fun d _ => mem_setActive.2 (Or.inr rfl))).finish with bal := ?_ }
    intro d
    show (b' (.mod .funders)).amt d = remaining (w.s.setFunding f) d + w.s.gifts.amt d
    have h1 := remaining_set w.s f d
    rw [hf1, hf2] at h1
    have h2 := hs.2 (.mod .funders) d
    have h3 := h.bal d
    have h4 := hamt d
    simp only [reduceCtorEq, if_false, if_true] at h2
    omega
  · obtain ⟨hlow1, hlow2, hlow3⟩ := (h.activeFundings_spec hl).1 low hm
    have hW2 : WInv (w.s.setFunding { low with amounts := Coins.zero, perBundle := Coins.zero }) m.pool
        (setInactive l low.funder) := by
      refine hW.set (f := { low with amounts := Coins.zero, perBundle := Coins.zero }) hlow2
        (nodup_setInactive hW.lnodup _) (Nat.le_trans (length_setInactive_le _ _) hW.lcap) ?_ ?_ ?_
      · intro a ha; exact Or.inl ((mem_setInactive hW.lnodup).1 ha).1
      · intro a ha hne; exact (mem_setInactive hW.lnodup).2 ⟨ha, hne⟩
      · intro d hd; exact absurd rfl hd
    have hlen : (setActive (setInactive l low.funder) f.funder).length ≤ MaxFunders := by
      have h1 := length_setInactive hlow3
      have h2 := hW.lcap
      unfold setActive
      split
      · omega
      · simp; omega
    refine { (hW2.set (f := f) hf2 (nodup_setActive hW2.lnodup _) hlen (fun a ha => mem_setActive.1 ha)
      (fun a ha _ => mem_setActive.2 (Or.inl ha)) (fun d _ => mem_setActive.2 (Or.inr rfl))).finish with bal := ?_ }
    intro d
    show (b' (.mod .funders)).amt d
      = remaining ((w.s.setFunding { low with amounts := Coins.zero, perBundle := Coins.zero }).setFunding f) d
        + w.s.gifts.amt d
    have h1 := remaining_set (w.s.setFunding { low with amounts := Coins.zero, perBundle := Coins.zero }) f d
    rw [hf1, hf2, funding?_set, if_neg (by rintro ⟨e, _⟩; exact hne (by rw [hf1]; exact e.symm))] at h1
    have h0 : remaining (w.s.setFunding { low with amounts := Coins.zero, perBundle := Coins.zero }) d
        + low.amounts.amt d = remaining w.s d := by
      have := remaining_set w.s { low with amounts := Coins.zero, perBundle := Coins.zero } d
      rw [show ({ low with amounts := Coins.zero, perBundle := Coins.zero } : Funding).funder = low.funder from rfl,
        show ({ low with amounts := Coins.zero, perBundle := Coins.zero } : Funding).pool = m.pool from hlow2,
        hlow1] at this
      simpa [hlow2] using this
    have h2 := hs.2 (.mod .funders) d
    have h5 := (Bank.send_ok hb1).2 (.mod .funders) d
    have h6 := (Bank.send_ok hb1).1 d
    have h3 := h.bal d
    have h4 := hamt d
    simp only [reduceCtorEq, if_false, if_true] at h2 h5
    omega

/-- result of a successful `DefundPool` -/
theorem defund_ok {w : World} {m : DefundMsg} {s' : State} {b' : Bank}
    (hr : defundPool w.s w.b m = .ok (s', b')) :
    ∃ l f f', w.s.funding? m.creator m.pool = some f ∧ w.s.active.get? m.pool = some l ∧
      (f.amounts.min m.amounts).isZero = false ∧
      f' = Funding.clean { f with amounts := f.amounts.sub (f.amounts.min m.amounts) } ∧
      w.b.send (.mod .funders) (.user m.creator) (f.amounts.min m.amounts) = .ok b' ∧
      s' = (w.s.setFunding f').setActive m.pool (if f'.amounts.isZero then setInactive l f'.funder else l) := by
  unfold defundPool at hr
  split at hr
  · cases hr
  · split at hr
    · cases hr
    · rename_i f hf
      split at hr
      · cases hr
      · rename_i l hl
        split at hr
        · cases hr
        · rename_i hz
          split at hr
          · cases hr
          · rename_i f' hf'
            unfold finishDefund at hr
            split at hr
            · cases hr
            · rename_i b1 hb1
              cases hr
              exact ⟨l, f, f', hf, hl, by simpa using hz, ensureParams_ok hf', hb1, rfl⟩

theorem Inv.defund {w : World} (h : Inv w) {m : DefundMsg} {s' : State} {b' : Bank}
    (hr : defundPool w.s w.b m = .ok (s', b')) : Inv ⟨s', b'⟩ := by
  obtain ⟨l, f, f', hf, hl, -, hf', hsend, rfl⟩ := defund_ok hr
  have hk := h.key _ _ hf
  simp only [Prod.mk.injEq] at hk
  have hW := h.toWork hl
  have e1 : f'.funder = m.creator := by rw [hf']; exact hk.1
  have e2 : f'.pool = m.pool := by rw [hf']; exact hk.2
  have ea : ∀ d, f'.amounts.amt d = f.amounts.amt d - (f.amounts.min m.amounts).amt d := by
    intro d; rw [hf', clean_amounts]; exact Coins.amt_sub _ _ _
  have hW2 : WInv (w.s.setFunding f') m.pool (if f'.amounts.isZero then setInactive l f'.funder else l) := by
    by_cases hz : f'.amounts.isZero = true
    · rw [if_pos hz]
      refine hW.set e2 (nodup_setInactive hW.lnodup _) (Nat.le_trans (length_setInactive_le _ _) hW.lcap) ?_ ?_ ?_
      · intro a ha; exact Or.inl ((mem_setInactive hW.lnodup).1 ha).1
      · intro a ha hne; exact (mem_setInactive hW.lnodup).2 ⟨ha, hne⟩
      · intro d hd; exact absurd (Coins.isZero_iff.1 hz d) hd
    · rw [if_neg hz]
      refine hW.set e2 hW.lnodup hW.lcap (fun a ha => Or.inl ha) (fun a ha _ => ha) ?_
      intro d hd
      rw [ea d] at hd
      rw [e1]
      exact hW.lact _ f d hf (by omega)
  refine { hW2.finish with bal := ?_ }
  intro d
  show (b' (.mod .funders)).amt d = remaining (w.s.setFunding f') d + w.s.gifts.amt d
  have h1 := remaining_set w.s f' d
  rw [e1, e2, hf] at h1
  simp only at h1
  have h2 := (Bank.send_ok hsend).2 (.mod .funders) d
  have h3 := h.bal d
  have h4 := ea d
  have h5 : (f.amounts.min m.amounts).amt d ≤ f.amounts.amt d := by
    rw [Coins.amt_min]; exact Nat.min_le_left _ _
  simp only [reduceCtorEq, if_false, if_true] at h2
  omega

theorem Inv.createFundingState {w : World} (h : Inv w) {id : Nat} (hn : w.s.active.get? id = none) :
    Inv ⟨w.s.createFundingState id, w.b⟩ := by
  have ga : ∀ p, (w.s.createFundingState id).active.get? p = if p = id then some [] else w.s.active.get? p :=
    fun p => Map.get?_set _ _ _ _
  refine ⟨⟨h.key, ?_, ?_, ?_, ?_, ?_⟩, h.bal⟩
  · intro p l hl
    simp only [ga] at hl
    split at hl
    · cases hl; simp
    · exact h.nodup p l hl
  · intro p l hl
    simp only [ga] at hl
    split at hl
    · cases hl; simp
    · exact h.cap p l hl
  · intro p l a hl ha
    simp only [ga] at hl
    split at hl
    · cases hl; simp at ha
    · exact h.listed p l a hl ha
  · intro a p f d hf hd
    simp only [ga]
    obtain ⟨l, hl, ha⟩ := h.act a p f d hf hd
    rw [if_neg (by rintro rfl; rw [hn] at hl; cases hl)]
    exact ⟨l, hl, ha⟩
  · intro a p f hf
    simp only [ga]
    split
    · exact ⟨[], rfl⟩
    · exact h.has a p f hf

theorem Inv.init (b : Bank) : Inv (World.init b) := by
  refine ⟨⟨?_, ?_, ?_, ?_, ?_, ?_⟩, ?_⟩
  · intro k f h; cases h
  · intro p l h; cases h
  · intro p l h; cases h
  · intro p l a h; cases h
  · intro a p f d h; cases h
  · intro a p f h; cases h
  · intro d; rfl

theorem Inv.step {gov : Addr} {w : World} (h : Inv w) (op : Op) : Inv (step gov w op) := by
  cases op with
  | createFunder a =>
    simp only [Funders.step, createFunder]
    split
    · exact h
    · exact ⟨⟨h.key, h.nodup, h.cap, h.listed, h.act, h.has⟩, h.bal⟩
  | poolCreated id =>
    simp only [Funders.step]
    split
    · exact h
    · rename_i hn
      refine h.createFundingState ?_
      simpa [Map.has] using hn
  | fund ok m =>
    simp only [Funders.step]
    cases hr : fundPool w.s w.b ok m with
    | error e => exact h
    | ok r => exact h.fund (s' := r.1) (b' := r.2) hr
  | defund m =>
    simp only [Funders.step]
    cases hr : defundPool w.s w.b m with
    | error e => exact h
    | ok r => exact h.defund (s' := r.1) (b' := r.2) hr
  | charge id =>
    simp only [Funders.step]
    cases hl : w.s.active.get? id with
    | none => unfold chargeFundersOfPool; rw [hl]; exact h
    | some l =>
      obtain ⟨paid, s', b', hr, hI, -⟩ := charge_ok h hl
      rw [hr]; exact hI
  | updateParams a p =>
    simp only [Funders.step, updateParams]
    split
    · exact h
    split
    · exact h
    · exact ⟨⟨h.key, h.nodup, h.cap, h.listed, h.act, h.has⟩, h.bal⟩
  | external b g =>
    refine ⟨⟨h.key, h.nodup, h.cap, h.listed, h.act, h.has⟩, ?_⟩
    intro d
    have := h.bal d
    show ((w.b (.mod .funders)).add g).amt d = remaining w.s d + (w.s.gifts.add g).amt d
    rw [Coins.amt_add, Coins.amt_add]
    omega

theorem run_snoc (gov : Addr) (w : World) (ops : List Op) (o : Op) : run gov w (ops ++ [o]) = step gov (run gov w ops) o := by
  simp [run, List.foldl_append]

theorem Inv.run {gov : Addr} (b : Bank) (ops : List Op) : Inv (run gov (World.init b) ops) := by
  induction ops using List.reverseRecOn with
  | nil => exact Inv.init b
  | append_singleton ops o ih => rw [run_snoc]; exact ih.step _

end Verif.Funders
