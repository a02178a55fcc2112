import Verif.Funders.Properties

/-!
# C88: the terms every funding has to meet

Exactly which fundings the parameters allow, and exactly when funding and defunding are accepted.
-/

namespace Verif.Funders
open Verif
namespace Spec

/-! ## specification -/

/-- the least amount of coin `d` a funder may have left in a pool (entries of the whitelist for the same coin add up) -/
def Params.least (p : Params) (d : Denom) : Nat := ((p.whitelist.filter (fun e => e.denom = d)).map (·.minAmount)).sum

/-- the least amount of coin `d` a funder may promise per bundle -/
def Params.leastPerBundle (p : Params) (d : Denom) : Nat :=
  ((p.whitelist.filter (fun e => e.denom = d)).map (·.minPerBundle)).sum

/-- The terms: of every coin the funder has left, the minimum amounts are set, at least the minimum is left, at least the
minimum per bundle is promised, and what is left is enough for the given number of bundles.  (The last field: with a
multiple of `2^63` or more the check itself crashes.) -/
structure Terms (p : Params) (left promised : Denom → Nat) : Prop where
  allowed : ∀ d, left d ≠ 0 → Params.least p d ≠ 0 ∧ Params.leastPerBundle p d ≠ 0
  enough : ∀ d, left d ≠ 0 → Params.least p d ≤ left d
  perBundle : ∀ d, left d ≠ 0 → Params.leastPerBundle p d ≤ promised d
  bundles : ∀ d, left d ≠ 0 → promised d * p.minMultiple ≤ left d
  noCrash : (∃ d, left d ≠ 0) → p.minMultiple < 2 ^ 63

/-- what the funder has left after message `m` -/
def leftAfter (w : World) (m : FundMsg) (d : Denom) : Nat := (left w m.creator m.pool).amt d + m.amounts.amt d

/-- what the funder promises per bundle after message `m`: what the message says, or else what it promised before -/
def promisedAfter (w : World) (m : FundMsg) (d : Denom) : Nat :=
  if m.perBundle.amt d = 0 then (promised w m.creator m.pool).amt d else m.perBundle.amt d

/-- There is room for the funder: one of the 50 places is free, or the earliest of the funders with the lowest score is
the funder itself or has no higher score than the funder will have.  (`score` fails if it does not fit into an `int64`.) -/
def Room (w : World) (m : FundMsg) : Prop :=
  (activeIn w m.pool).length < 50 ∨
  ∃ v : Addr → Nat, (∀ a ∈ activeIn w m.pool, score w.s.params (left w a m.pool) = some (v a)) ∧
    ∃ l1 low l2, activeIn w m.pool = l1 ++ low :: l2 ∧ (∀ a ∈ l1, v low < v a) ∧ (∀ a ∈ l2, v low ≤ v a) ∧
      (low = m.creator ∨
        ∃ x, score w.s.params ((left w m.creator m.pool).add m.amounts) = some x ∧ v low ≤ x)

end Spec
open Spec

/-! ## proofs -/

theorem amt_least (p : Params) (d : Denom) : p.minAmounts.amt d = Params.least p d := by
  unfold Params.minAmounts Params.least
  rw [Coins.amt_sumL]
  induction p.whitelist with
  | nil => rfl
  | cons e l ih =>
    simp only [List.map_cons, List.sum_cons, ih, Coins.amt_single]
    by_cases h : e.denom = d
    · rw [List.filter_cons_of_pos (by simpa using h), if_pos h.symm]; rfl
    · rw [List.filter_cons_of_neg (by simpa using h), if_neg (fun x => h x.symm), Nat.zero_add]

theorem amt_leastPerBundle (p : Params) (d : Denom) : p.minPerBundles.amt d = Params.leastPerBundle p d := by
  unfold Params.minPerBundles Params.leastPerBundle
  rw [Coins.amt_sumL]
  induction p.whitelist with
  | nil => rfl
  | cons e l ih =>
    simp only [List.map_cons, List.sum_cons, ih, Coins.amt_single]
    by_cases h : e.denom = d
    · rw [List.filter_cons_of_pos (by simpa using h), if_pos h.symm]; rfl
    · rw [List.filter_cons_of_neg (by simpa using h), if_neg (fun x => h x.symm), Nat.zero_add]

theorem subsetOf_iff (a b : Coins) : subsetOf a b = true ↔ ∀ d, a.amt d ≠ 0 → b.amt d ≠ 0 := by
  unfold subsetOf
  rw [List.all_eq_true]
  constructor
  · intro h d hd; simpa using h d (Coins.mem_denoms.2 hd)
  · intro h d hd; simpa using h d (Coins.mem_denoms.1 hd)

theorem isAnyGT_false (a b : Coins) : isAnyGT a b = false ↔ ∀ d, b.amt d ≠ 0 → a.amt d ≤ b.amt d := by
  unfold isAnyGT
  rw [List.any_eq_false]
  constructor
  · intro h d hd
    by_cases ha : a.amt d = 0
    · omega
    · have := h d (Coins.mem_denoms.2 ha)
      simp only [Bool.and_eq_true, decide_eq_true_eq, bne_iff_ne, not_and] at this
      by_contra hlt
      exact this (by omega) hd
  · intro h d _
    simp only [Bool.and_eq_true, decide_eq_true_eq, bne_iff_ne, not_and]
    intro h1 h2
    have := h d h2
    omega

theorem clean_perBundle (f : Funding) (d : Denom) :
    f.clean.perBundle.amt d = if f.amounts.amt d = 0 then 0 else f.perBundle.amt d := by
  unfold Funding.clean
  simp only [Coins.amt_filter]
  by_cases h : f.amounts.amt d = 0
  · simp [h]
  · simp [h]

/-- the check of the parameters accepts exactly the fundings that meet the terms -/
theorem ensureParams_iff (p : Params) (f f' : Funding) :
    ensureParams p f = .ok f' ↔ f' = f.clean ∧ Terms p f.amounts.amt f.perBundle.amt := by
  have hpb := clean_perBundle f
  have hnz : ∀ d, f.clean.perBundle.amt d ≠ 0 → f.amounts.amt d ≠ 0 := by
    intro d hd e
    rw [hpb, if_pos e] at hd; exact hd rfl
  have hnz' : ∀ d, f.amounts.amt d ≠ 0 → f.clean.perBundle.amt d = f.perBundle.amt d := by
    intro d hd; rw [hpb, if_neg hd]
  have hm : ∀ d, (f.clean.perBundle.mapAmt (· * p.minMultiple)).amt d = f.clean.perBundle.amt d * p.minMultiple :=
    fun d => Coins.amt_mapAmt _ (· * p.minMultiple) (Nat.zero_mul _) d
  constructor
  · intro h
    refine ⟨ensureParams_ok h, ?_⟩
    unfold ensureParams at h
    simp only at h
    split at h
    · cases h
    rename_i h1
    split at h
    · cases h
    rename_i h2
    split at h
    · cases h
    rename_i h3
    split at h
    · cases h
    rename_i h4
    split at h
    · cases h
    rename_i h5
    split at h
    · cases h
    rename_i h6
    split at h
    · cases h
    rename_i h7
    simp only [Bool.not_eq_true', Bool.not_eq_false, subsetOf_iff] at h1 h2 h3
    rw [Bool.not_eq_true, isAnyGT_false] at h4 h5
    refine ⟨fun d hd => ⟨?_, ?_⟩, fun d hd => ?_, fun d hd => ?_, fun d hd => ?_, ?_⟩
    · rw [← amt_least]; exact h2 d hd
    · rw [← amt_leastPerBundle]; exact h3 d (h1 d hd)
    · rw [← amt_least]; exact h4 d hd
    · rw [← amt_leastPerBundle, ← hnz' d hd]; exact h5 d (h1 d hd)
    · by_cases h0 : p.minMultiple = 0
      · rw [h0]; omega
      · have h8 : isAnyGT (f.clean.perBundle.mapAmt (· * p.minMultiple)) f.clean.amounts = false := by
          by_contra hx
          exact h7 ⟨by omega, by simpa using hx⟩
        rw [isAnyGT_false] at h8
        rw [← hnz' d hd, ← hm d]
        exact h8 d hd
    · rintro ⟨d, hd⟩
      by_contra hx
      exact h6 ⟨by omega, Coins.isZero_false_iff.2 ⟨d, h1 d hd⟩⟩
  · rintro ⟨rfl, h⟩
    have hp0 : ∀ d, f.amounts.amt d ≠ 0 → f.clean.perBundle.amt d ≠ 0 := by
      intro d hd
      rw [hnz' d hd]
      have h1 := h.allowed d hd
      have h2 := h.perBundle d hd
      omega
    have e1 : subsetOf f.clean.amounts f.clean.perBundle = true := (subsetOf_iff _ _).2 hp0
    have e2 : subsetOf f.clean.amounts p.minAmounts = true :=
      (subsetOf_iff _ _).2 (fun d hd => by rw [amt_least]; exact (h.allowed d hd).1)
    have e3 : subsetOf f.clean.perBundle p.minPerBundles = true :=
      (subsetOf_iff _ _).2 (fun d hd => by rw [amt_leastPerBundle]; exact (h.allowed d (hnz d hd)).2)
    have e4 : isAnyGT p.minAmounts f.clean.amounts = false :=
      (isAnyGT_false _ _).2 (fun d hd => by rw [amt_least]; exact h.enough d hd)
    have e5 : isAnyGT p.minPerBundles f.clean.perBundle = false :=
      (isAnyGT_false _ _).2 (fun d hd => by
        rw [amt_leastPerBundle, hnz' d (hnz d hd)]; exact h.perBundle d (hnz d hd))
    have e6 : isAnyGT (f.clean.perBundle.mapAmt (· * p.minMultiple)) f.clean.amounts = false :=
      (isAnyGT_false _ _).2 (fun d hd => by rw [hm d, hnz' d hd]; exact h.bundles d hd)
    have e7 : ¬ (p.minMultiple ≥ 2 ^ 63 ∧ f.clean.perBundle.isZero = false) := by
      rintro ⟨h1, h2⟩
      obtain ⟨d, hd⟩ := Coins.isZero_false_iff.1 h2
      have := h.noCrash ⟨d, hnz d hd⟩
      omega
    unfold ensureParams
    simp only [e1, e2, e3, e4, e5, e6, Bool.not_true, Bool.false_eq_true, if_false, and_false]
    rw [if_neg e7]

/-- the earliest of the lowest -/
theorem lowestLoop_iff (p : Params) (v : Funding → Nat) (fs : List Funding) (low : Funding)
    (hv : ∀ f ∈ low :: fs, score p f.amounts = some (v f)) :
    ∃ r, lowestLoop p low fs = some r ∧ r ∈ low :: fs ∧ (∀ f ∈ low :: fs, v r ≤ v f) ∧
      ∃ l1 l2, low :: fs = l1 ++ r :: l2 ∧ ∀ f ∈ l1, v r < v f := by
  induction fs generalizing low with
  | nil => exact ⟨low, rfl, by simp, by simp, [], [], rfl, by simp⟩
  | cons f fs ih =>
    have h1 := hv low (by simp)
    have h2 := hv f (by simp)
    unfold lowestLoop
    rw [h1, h2]
    simp only
    split
    · rename_i hlt
      obtain ⟨r, e, hm, hmin, l1, l2, hl, hl1⟩ := ih f (fun g hg => hv g (List.mem_cons_of_mem _ hg))
      have hrf := hmin f (by simp)
      refine ⟨r, e, List.mem_cons_of_mem _ hm, ?_, low :: l1, l2, by rw [hl]; rfl, ?_⟩
      · intro g hg
        rcases List.mem_cons.1 hg with rfl | hg
        · omega
        · exact hmin g hg
      · intro g hg
        rcases List.mem_cons.1 hg with rfl | hg
        · omega
        · exact hl1 g hg
    · rename_i hge
      obtain ⟨r, e, hm, hmin, l1, l2, hl, hl1⟩ := ih low (fun g hg => by
        rcases List.mem_cons.1 hg with rfl | hg
        · exact h1
        · exact hv g (List.mem_cons_of_mem _ (List.mem_cons_of_mem _ hg)))
      have hrl := hmin low (by simp)
      refine ⟨r, e, ?_, ?_, ?_⟩
      · rcases List.mem_cons.1 hm with rfl | hm
        · simp
        · exact List.mem_cons_of_mem _ (List.mem_cons_of_mem _ hm)
      · intro g hg
        rcases List.mem_cons.1 hg with rfl | hg
        · exact hrl
        · rcases List.mem_cons.1 hg with rfl | hg
          · omega
          · exact hmin g (List.mem_cons_of_mem _ hg)
      · cases l1 with
        | nil =>
          injection hl with e1 e2
          exact ⟨[], f :: l2, by rw [← e1, ← e2]; rfl, by simp⟩
        | cons g l1 =>
          injection hl with e1 e2
          subst e1
          refine ⟨low :: f :: l1, l2, by rw [e2]; rfl, ?_⟩
          intro g hg
          rcases List.mem_cons.1 hg with rfl | hg
          · exact hl1 _ (by simp)
          · rcases List.mem_cons.1 hg with rfl | hg
            · have := hl1 low (by simp)
              omega
            · exact hl1 g (List.mem_cons_of_mem _ hg)

theorem lowestFunding_iff (p : Params) (v : Funding → Nat) (fs : List Funding) (hne : fs ≠ [])
    (hv : ∀ f ∈ fs, score p f.amounts = some (v f)) :
    ∃ r, lowestFunding p fs = some r ∧ ∃ l1 l2, fs = l1 ++ r :: l2 ∧ (∀ f ∈ l1, v r < v f) ∧ ∀ f ∈ l2, v r ≤ v f := by
  cases fs with
  | nil => exact absurd rfl hne
  | cons f fs =>
    obtain ⟨r, e, -, hmin, l1, l2, hl, hl1⟩ := lowestLoop_iff p v fs f hv
    refine ⟨r, ?_, l1, l2, hl, hl1, fun g hg => hmin g (by rw [hl]; simp [hg])⟩
    have h1 := hv f (by simp)
    show lowestLoop p f (f :: fs) = some r
    unfold lowestLoop
    rw [h1]
    simp only [lt_irrefl, if_false]
    exact e

/-- the active fundings of a pool, in order -/
theorem SInv.activeFundings_map {s : State} (h : SInv s) {p : Nat} {l : List Addr} (hl : s.active.get? p = some l) :
    (s.activeFundings p l).map (·.funder) = l := by
  have hx : ∀ a ∈ l, ∃ f, s.funding? a p = some f := fun a ha => h.listed p l a hl ha
  clear hl
  unfold State.activeFundings
  induction l with
  | nil => rfl
  | cons a t ih =>
    obtain ⟨f, hf⟩ := hx a (by simp)
    have hk := h.key _ _ hf
    simp only [Prod.mk.injEq] at hk
    rw [List.filterMap_cons, hf]
    simp only [List.map_cons]
    rw [ih (fun a ha => hx a (by simp [ha])), hk.1]

theorem Inv.covers {w : World} (h : Inv w) {a : Addr} {p : Nat} {f : Funding} (hf : w.s.funding? a p = some f) (d : Denom) :
    f.amounts.amt d ≤ (w.b (.mod .funders)).amt d := by
  rw [h.bal d]
  exact Nat.le_trans (Map.le_sum w.s.fundings (fun _ f => f.amounts.amt d) hf) (Nat.le_add_right _ _)

theorem ensureFreeSlot_iff {w : World} (h : Inv w) {m : FundMsg} {l : List Addr} (hl : w.s.active.get? m.pool = some l)
    (f : Funding) (h1 : f.funder = m.creator) (h2 : f.amounts = (left w m.creator m.pool).add m.amounts) :
    (∃ wk, ensureFreeSlot w.s m.pool l w.b f = .ok wk) ↔ Room w m := by
  have hact : activeIn w m.pool = l := by unfold activeIn; rw [hl]; rfl
  have hlen := h.activeFundings_length hl
  have hmap := h.activeFundings_map hl
  have hspec := (h.activeFundings_spec hl).1
  have hval : ∀ g ∈ w.s.activeFundings m.pool l, left w g.funder m.pool = g.amounts := fun g hg => left_eq (hspec g hg).1
  have h50 : MaxFunders = 50 := rfl
  unfold Room
  rw [hact]
  constructor
  · rintro ⟨wk, hwk⟩
    unfold ensureFreeSlot at hwk
    split at hwk
    · rename_i hlt
      left; omega
    · rename_i hge
      right
      split at hwk
      · cases hwk
      · rename_i low hlow
        obtain ⟨-, y, -, hmin⟩ := lowestFunding_spec hlow
        have hv : ∀ g ∈ w.s.activeFundings m.pool l,
            score w.s.params g.amounts = some ((score w.s.params (left w g.funder m.pool)).getD 0) := by
          intro g hg
          obtain ⟨x, hx, -⟩ := hmin g hg
          rw [hval g hg, hx]; rfl
        have hne : w.s.activeFundings m.pool l ≠ [] := by
          intro e; rw [e] at hge; exact hge (by decide)
        obtain ⟨r, hr, l1, l2, hdec, hl1, hl2⟩ := lowestFunding_iff w.s.params
          (fun g => (score w.s.params (left w g.funder m.pool)).getD 0) _ hne hv
        rw [hlow] at hr
        injection hr with hr
        subst hr
        refine ⟨fun a => (score w.s.params (left w a m.pool)).getD 0, ?_, l1.map (·.funder), low.funder, l2.map (·.funder),
          ?_, ?_, ?_, ?_⟩
        · intro a ha
          rw [← hmap] at ha
          obtain ⟨g, hg, rfl⟩ := List.mem_map.1 ha
          rw [← hv g hg, hval g hg]
        · rw [← hmap, hdec]; simp
        · intro a ha
          obtain ⟨g, hg, rfl⟩ := List.mem_map.1 ha
          exact hl1 g hg
        · intro a ha
          obtain ⟨g, hg, rfl⟩ := List.mem_map.1 ha
          exact hl2 g hg
        · split at hwk
          · rename_i he
            left; rw [he, h1]
          · right
            split at hwk
            · rename_i x y' hx hy'
              split at hwk
              · cases hwk
              · rename_i hxy
                have hlm : low ∈ w.s.activeFundings m.pool l := by rw [hdec]; simp
                refine ⟨x, by rw [← h2]; exact hx, ?_⟩
                show (score w.s.params (left w low.funder m.pool)).getD 0 ≤ x
                rw [hval low hlm, hy']
                exact Nat.not_lt.1 hxy
            · cases hwk
  · rintro (hlt | ⟨v, hv, l1, a, l2, hdec, hl1, hl2, hlow⟩)
    · unfold ensureFreeSlot
      rw [if_pos (by omega)]
      exact ⟨_, rfl⟩
    · unfold ensureFreeSlot
      split
      · exact ⟨_, rfl⟩
      · have hv' : ∀ g ∈ w.s.activeFundings m.pool l, score w.s.params g.amounts = some (v g.funder) := by
          intro g hg
          rw [← hval g hg]
          exact hv _ (hspec g hg).2.2
        have hne : w.s.activeFundings m.pool l ≠ [] := by
          intro e; rw [e] at hmap; rw [← hmap] at hdec; simp at hdec
        obtain ⟨r, hr, k1, k2, kdec, hk1, hk2⟩ := lowestFunding_iff w.s.params (fun g => v g.funder) _ hne hv'
        have hrm : r ∈ w.s.activeFundings m.pool l := by rw [kdec]; simp
        have hra : r.funder = a := by
          have e : l1 ++ a :: l2 = k1.map (·.funder) ++ r.funder :: k2.map (·.funder) := by
            rw [← hdec, ← hmap, kdec]; simp
          rcases List.append_eq_append_iff.1 e with ⟨t, ht1, ht2⟩ | ⟨t, ht1, ht2⟩
          · cases t with
            | nil => simp only [List.nil_append, List.cons.injEq] at ht2; exact ht2.1.symm
            | cons x t =>
              simp only [List.cons_append, List.cons.injEq] at ht2
              obtain ⟨rfl, ht2⟩ := ht2
              have ha1 : a ∈ k1.map (·.funder) := by rw [ht1]; simp
              obtain ⟨g, hg, hga⟩ := List.mem_map.1 ha1
              have h3 := hk1 g hg
              have hr2 : r.funder ∈ l2 := by rw [ht2]; simp
              have h4 := hl2 _ hr2
              have h3 : v r.funder < v g.funder := h3
              rw [hga] at h3
              omega
          · cases t with
            | nil => simp only [List.nil_append, List.cons.injEq] at ht2; exact ht2.1
            | cons x t =>
              simp only [List.cons_append, List.cons.injEq] at ht2
              obtain ⟨rfl, ht2⟩ := ht2
              have hr1 : r.funder ∈ l1 := by rw [ht1]; simp
              have h3 := hl1 _ hr1
              have ha2 : a ∈ k2.map (·.funder) := by rw [ht2]; simp
              obtain ⟨g, hg, hga⟩ := List.mem_map.1 ha2
              have h4 : v r.funder ≤ v g.funder := hk2 g hg
              rw [hga] at h4
              omega
        rw [hr]
        simp only
        split
        · exact ⟨_, rfl⟩
        · rename_i hne'
          rcases hlow with hlow | ⟨x, hx, hle⟩
          · exact absurd (by rw [hra, hlow, h1]) hne'
          · rw [h2, hx, hv' r hrm]
            simp only
            rw [if_neg (by rw [hra]; omega)]
            unfold evict
            obtain ⟨b', hb'⟩ := Bank.send_succeeds (b := w.b) (s := .mod .funders) (t := .user r.funder) (c := r.amounts)
              (fun d => h.covers (hspec r hrm).1 d)
            rw [hb']
            exact ⟨_, rfl⟩

theorem merge_left (w : World) (m : FundMsg) (d : Denom) :
    (mergeFunding (w.s.funding? m.creator m.pool) m).amounts.amt d = leftAfter w m d := by
  rw [mergeFunding_amt]
  unfold leftAfter left State.funding?
  cases w.s.fundings.get? (m.creator, m.pool) <;> rfl

theorem merge_promised (w : World) (m : FundMsg) (d : Denom) :
    (mergeFunding (w.s.funding? m.creator m.pool) m).perBundle.amt d = promisedAfter w m d := by
  unfold promisedAfter promised State.funding?
  cases w.s.fundings.get? (m.creator, m.pool) with
  | none =>
    show m.perBundle.amt d = _
    split
    · rename_i e; rw [e]; rfl
    · rfl
  | some f =>
    show (m.perBundle.add (f.perBundle.filter (fun d => m.perBundle.amt d == 0))).amt d = _
    rw [Coins.amt_add, Coins.amt_filter]
    by_cases e : m.perBundle.amt d = 0
    · simp [e]
    · simp [e]

/-- C88: exactly when funding a pool is accepted. -/
theorem C88_fund_accepted (gov : Addr) (w : World) (hw : Reachable gov w) (ok : Bool) (m : FundMsg) :
    (∃ r, fundPool w.s w.b ok m = .ok r) ↔
      (∃ d, m.amounts.amt d ≠ 0 ∨ m.perBundle.amt d ≠ 0) ∧ w.s.funders.has m.creator = true ∧ ok = true ∧
      w.s.active.has m.pool = true ∧ Terms w.s.params (leftAfter w m) (promisedAfter w m) ∧ Room w m ∧
      ∀ d, m.amounts.amt d ≤ (w.b (.user m.creator)).amt d := by
  have h := hw.inv
  have hk := mergeFunding_key (old := w.s.funding? m.creator m.pool) (m := m) (by
    intro g hg
    have := h.key _ _ hg
    simp only [Prod.mk.injEq] at this
    exact this)
  have hT : Terms w.s.params (mergeFunding (w.s.funding? m.creator m.pool) m).amounts.amt
      (mergeFunding (w.s.funding? m.creator m.pool) m).perBundle.amt ↔
      Terms w.s.params (leftAfter w m) (promisedAfter w m) := by
    rw [show (mergeFunding (w.s.funding? m.creator m.pool) m).amounts.amt = leftAfter w m from
        funext (merge_left w m),
      show (mergeFunding (w.s.funding? m.creator m.pool) m).perBundle.amt = promisedAfter w m from
        funext (merge_promised w m)]
  have hA : (mergeFunding (w.s.funding? m.creator m.pool) m).clean.amounts = (left w m.creator m.pool).add m.amounts := by
    ext d
    rw [clean_amounts, merge_left, Coins.amt_add]; rfl
  have hslot := fun l hl => ensureFreeSlot_iff h (m := m) (l := l) hl
    (mergeFunding (w.s.funding? m.creator m.pool) m).clean hk.1 hA
  constructor
  · rintro ⟨⟨s', b'⟩, hr⟩
    obtain ⟨l, f, wk, h1, h2, h3, h4, -, -, h5, h6, -⟩ := fund_ok h hr
    subst h4
    have hens : ensureParams w.s.params (mergeFunding (w.s.funding? m.creator m.pool) m)
        = .ok (mergeFunding (w.s.funding? m.creator m.pool) m).clean := by
      unfold fundPool at hr
      split at hr
      · cases hr
      split at hr
      · cases hr
      split at hr
      · cases hr
      split at hr
      · cases hr
      split at hr
      · cases hr
      rename_i f hf
      rw [hf, ensureParams_ok hf]
    refine ⟨?_, h2, h1, by unfold Map.has; rw [h3]; rfl, hT.1 ((ensureParams_iff _ _ _).1 hens).2, (hslot l h3).1 ⟨wk, h5⟩, fun d => ?_⟩
    · unfold fundPool at hr
      split at hr
      · cases hr
      · rename_i hz
        by_contra hn
        push Not at hn
        exact hz (by rw [Coins.isZero_iff.2 (fun d => (hn d).1), Coins.isZero_iff.2 (fun d => (hn d).2)]; rfl)
    · have h7 := (Bank.send_ok h6).1 d
      rcases ensureFreeSlot_ok h5 with ⟨rfl, -⟩ | ⟨low, x, y, b1, -, hne, -, -, -, -, -, hb1, rfl⟩
      · exact h7
      · have h8 := (Bank.send_ok hb1).2 (.user m.creator) d
        have hne' : m.creator ≠ low.funder := fun e => hne (by rw [← e]; exact hk.1.symm)
        simp only [reduceCtorEq, if_false, Acct.user.injEq, hne'] at h8
        have h7 : m.amounts.amt d ≤ (b1 (.user m.creator)).amt d := h7
        omega
  · rintro ⟨⟨d0, hd0⟩, h2, h1, h3, h4, h5, h6⟩
    obtain ⟨l, hl⟩ := Option.isSome_iff_exists.1 h3
    obtain ⟨wk, hwk⟩ := (hslot l hl).2 h5
    have hens : ensureParams w.s.params (mergeFunding (w.s.funding? m.creator m.pool) m)
        = .ok (mergeFunding (w.s.funding? m.creator m.pool) m).clean := (ensureParams_iff _ _ _).2 ⟨rfl, hT.2 h4⟩
    have hz : (m.amounts.isZero && m.perBundle.isZero) = false := by
      rw [Bool.and_eq_false_iff]
      rcases hd0 with hd | hd
      · exact Or.inl (Coins.isZero_false_iff.2 ⟨d0, hd⟩)
      · exact Or.inr (Coins.isZero_false_iff.2 ⟨d0, hd⟩)
    have hb : ∃ b', wk.b.send (.user m.creator) (.mod .funders) m.amounts = .ok b' := by
      refine Bank.send_succeeds fun d => ?_
      rcases ensureFreeSlot_ok hwk with ⟨rfl, -⟩ | ⟨low, x, y, b1, -, hne, -, -, -, -, -, hb1, rfl⟩
      · exact h6 d
      · have h8 := (Bank.send_ok hb1).2 (.user m.creator) d
        have hne' : m.creator ≠ low.funder := fun e => hne (by rw [← e]; exact hk.1.symm)
        simp only [reduceCtorEq, if_false, Acct.user.injEq, hne'] at h8
        have := h6 d
        show m.amounts.amt d ≤ (b1 (.user m.creator)).amt d
        omega
    obtain ⟨b', hb'⟩ := hb
    unfold fundPool finishFund
    simp only [hz, h2, h1, hl, hens, hwk, hb']
    exact ⟨_, rfl⟩

/-- C88: exactly when defunding a pool is accepted; a message may ask for more than is left. -/
theorem C88_defund_accepted (gov : Addr) (w : World) (hw : Reachable gov w) (m : DefundMsg) :
    (∃ r, defundPool w.s w.b m = .ok r) ↔
      (∃ d, m.amounts.amt d ≠ 0 ∧ (left w m.creator m.pool).amt d ≠ 0) ∧
      Terms w.s.params (fun d => (left w m.creator m.pool).amt d - m.amounts.amt d) (promised w m.creator m.pool).amt := by
  have h := hw.inv
  constructor
  · rintro ⟨⟨s', b'⟩, hr⟩
    obtain ⟨l, f, f', hf, hl, hnz, hf', hsend, -⟩ := defund_ok hr
    rw [left_eq hf, promised_eq hf]
    obtain ⟨d, hd⟩ := Coins.isZero_false_iff.1 hnz
    rw [Coins.amt_min] at hd
    have hd' : min (f.amounts.amt d) (m.amounts.amt d) ≠ 0 := hd
    refine ⟨⟨d, by omega, by omega⟩, ?_⟩
    have hens : ensureParams w.s.params { f with amounts := f.amounts.sub (f.amounts.min m.amounts) } = .ok f' := by
      unfold defundPool at hr
      rw [hf, hl] at hr
      split at hr
      · cases hr
      · simp only at hr
        split at hr
        · cases hr
        · split at hr
          · cases hr
          · rename_i g hg
            rw [hg, hf', ensureParams_ok hg]
    have := ((ensureParams_iff _ _ _).1 hens).2
    have e : (f.amounts.sub (f.amounts.min m.amounts)).amt = fun d => f.amounts.amt d - m.amounts.amt d := by
      funext d
      rw [Coins.amt_sub, Coins.amt_min]
      show f.amounts.amt d - min (f.amounts.amt d) (m.amounts.amt d) = _
      omega
    simp only [e] at this
    exact this
  · rintro ⟨⟨d0, h1, h2⟩, h3⟩
    cases hf : w.s.funding? m.creator m.pool with
    | none =>
      exfalso
      unfold left at h2
      unfold State.funding? at hf
      rw [hf] at h2
      exact h2 rfl
    | some f =>
      rw [left_eq hf, promised_eq hf] at h3
      rw [left_eq hf] at h2
      obtain ⟨l, hl⟩ := h.has _ _ f hf
      have e : (f.amounts.sub (f.amounts.min m.amounts)).amt = fun d => f.amounts.amt d - m.amounts.amt d := by
        funext d
        rw [Coins.amt_sub, Coins.amt_min]
        show f.amounts.amt d - min (f.amounts.amt d) (m.amounts.amt d) = _
        omega
      have hens : ensureParams w.s.params { f with amounts := f.amounts.sub (f.amounts.min m.amounts) }
          = .ok (Funding.clean { f with amounts := f.amounts.sub (f.amounts.min m.amounts) }) := by
        refine (ensureParams_iff _ _ _).2 ⟨rfl, ?_⟩
        simp only [e]
        exact h3
      have hz : m.amounts.isZero = false := Coins.isZero_false_iff.2 ⟨d0, h1⟩
      have hz2 : (f.amounts.min m.amounts).isZero = false := by
        refine Coins.isZero_false_iff.2 ⟨d0, ?_⟩
        rw [Coins.amt_min]
        show min (f.amounts.amt d0) (m.amounts.amt d0) ≠ 0
        omega
      obtain ⟨b', hb'⟩ := Bank.send_succeeds (b := w.b) (s := .mod .funders) (t := .user m.creator)
        (c := f.amounts.min m.amounts) (by
          intro d
          rw [Coins.amt_min]
          exact Nat.le_trans (Nat.min_le_left _ _) (h.covers hf d))
      unfold defundPool finishDefund
      simp only [hf, hl, hz, hz2, hens, hb']
      exact ⟨_, rfl⟩

/-- C88: an accepted funding adds exactly the coins of the message, promises what the message says (or what was promised
before), and meets the terms. -/
theorem C88_fund (gov : Addr) (w : World) (hw : Reachable gov w) (ok : Bool) (m : FundMsg) (s' : State) (b' : Bank)
    (hr : fundPool w.s w.b ok m = .ok (s', b')) :
    (∀ d, (left ⟨s', b'⟩ m.creator m.pool).amt d = leftAfter w m d) ∧
    (∀ d, (left ⟨s', b'⟩ m.creator m.pool).amt d ≠ 0 →
      (promised ⟨s', b'⟩ m.creator m.pool).amt d = promisedAfter w m d) ∧
    m.creator ∈ activeIn ⟨s', b'⟩ m.pool ∧ s'.params = w.s.params ∧
    Terms s'.params (left ⟨s', b'⟩ m.creator m.pool).amt (promised ⟨s', b'⟩ m.creator m.pool).amt := by
  have h := hw.inv
  have hT := ((C88_fund_accepted gov w hw ok m).1 ⟨_, hr⟩).2.2.2.2.1
  obtain ⟨l, f, wk, -, -, hl, hf, h5, h6, h7, h8, rfl⟩ := fund_ok h hr
  have hget : ((wk.s.setFunding f).setActive m.pool (setActive wk.l f.funder)).funding? m.creator m.pool = some f := by
    have := funding?_set wk.s f m.creator m.pool
    rw [if_pos ⟨h5.symm, h6.symm⟩] at this
    exact this
  have hpar : wk.s.params = w.s.params := by
    rcases ensureFreeSlot_ok h7 with ⟨rfl, -⟩ | ⟨low, x, y, b1, -, -, -, -, -, -, -, -, rfl⟩ <;> rfl
  have hL := left_eq (w := ⟨(wk.s.setFunding f).setActive m.pool (setActive wk.l f.funder), b'⟩) hget
  have hP := promised_eq (w := ⟨(wk.s.setFunding f).setActive m.pool (setActive wk.l f.funder), b'⟩) hget
  rw [hL, hP]
  have e1 : ∀ d, f.amounts.amt d = leftAfter w m d := by
    intro d; rw [hf, clean_amounts, merge_left]
  have e2 : ∀ d, f.amounts.amt d ≠ 0 → f.perBundle.amt d = promisedAfter w m d := by
    intro d hd
    rw [hf, clean_perBundle, if_neg (by rw [hf, clean_amounts] at hd; exact hd), merge_promised]
  refine ⟨e1, e2, ?_, hpar, ?_⟩
  · unfold activeIn
    show m.creator ∈ (((wk.s.setFunding f).active.set m.pool (setActive wk.l f.funder)).get? m.pool).getD []
    rw [Map.get?_set_self]
    exact mem_setActive.2 (Or.inr h5.symm)
  · show Terms wk.s.params _ _
    rw [hpar]
    have e3 : f.amounts.amt = leftAfter w m := funext e1
    refine ⟨fun d hd => hT.allowed d (by rw [← e1]; exact hd), fun d hd => ?_, fun d hd => ?_, fun d hd => ?_, ?_⟩
    · rw [e1 d]; exact hT.enough d (by rw [← e1]; exact hd)
    · rw [e2 d hd]; exact hT.perBundle d (by rw [← e1]; exact hd)
    · rw [e2 d hd, e1 d]; exact hT.bundles d (by rw [← e1]; exact hd)
    · rintro ⟨d, hd⟩; exact hT.noCrash ⟨d, by rw [← e1]; exact hd⟩

/-- C88: after a defund that is accepted, what is left meets the terms. -/
theorem C88_defund (gov : Addr) (w : World) (hw : Reachable gov w) (m : DefundMsg) (s' : State) (b' : Bank)
    (hr : defundPool w.s w.b m = .ok (s', b')) :
    (∀ d, (left ⟨s', b'⟩ m.creator m.pool).amt d ≠ 0 →
      (promised ⟨s', b'⟩ m.creator m.pool).amt d = (promised w m.creator m.pool).amt d) ∧
    Terms s'.params (left ⟨s', b'⟩ m.creator m.pool).amt (promised ⟨s', b'⟩ m.creator m.pool).amt := by
  have h := hw.inv
  have hT := ((C88_defund_accepted gov w hw m).1 ⟨_, hr⟩).2
  have hL := (C36_defund gov w hw m s' b' hr).1
  obtain ⟨l, f, f', hf, hl, hnz, hf', hsend, rfl⟩ := defund_ok hr
  have hk := h.key _ _ hf
  simp only [Prod.mk.injEq] at hk
  have hget : ((w.s.setFunding f').setActive m.pool (if f'.amounts.isZero then setInactive l f'.funder else l)).funding?
      m.creator m.pool = some f' := by
    have := funding?_set w.s f' m.creator m.pool
    rw [if_pos ⟨by rw [hf']; exact hk.1.symm, by rw [hf']; exact hk.2.symm⟩] at this
    exact this
  have hL' := left_eq (w := ⟨(w.s.setFunding f').setActive m.pool (if f'.amounts.isZero then setInactive l f'.funder else l),
    b'⟩) hget
  have hP' := promised_eq (w := ⟨(w.s.setFunding f').setActive m.pool
    (if f'.amounts.isZero then setInactive l f'.funder else l), b'⟩) hget
  rw [hL', hP', promised_eq hf]
  rw [hL'] at hL
  rw [promised_eq hf] at hT
  have e1 : ∀ d, f'.amounts.amt d = (left w m.creator m.pool).amt d - m.amounts.amt d := by
    intro d; rw [hL d]; omega
  have e2 : ∀ d, f'.amounts.amt d ≠ 0 → f'.perBundle.amt d = f.perBundle.amt d := by
    intro d hd
    rw [hf', clean_perBundle]
    exact if_neg (by rw [hf', clean_amounts] at hd; exact hd)
  refine ⟨e2, ?_⟩
  show Terms w.s.params _ _
  refine ⟨fun d hd => hT.allowed d (by rw [← e1]; exact hd), fun d hd => ?_, fun d hd => ?_, fun d hd => ?_, ?_⟩
  · rw [e1 d]; exact hT.enough d (by rw [← e1]; exact hd)
  · rw [e2 d hd]; exact hT.perBundle d (by rw [← e1]; exact hd)
  · rw [e2 d hd, e1 d]; exact hT.bundles d (by rw [← e1]; exact hd)
  · rintro ⟨d, hd⟩; exact hT.noCrash ⟨d, by rw [← e1]; exact hd⟩

end Verif.Funders
