import Verif.Chain.Access
import Verif.Chain.Steps
import Verif.Chain.Sample
import Verif.Bundles.Inflation

/-!
# C29 on the chain: what the begin block pays to the pools
-/

set_option linter.dupNamespace false
namespace Verif.Chain
open Verif
namespace Chain

/-! ## specification -/

/-- the pools that can run, in store order -/
def runners (c : Chain) : List (Nat × Pool.Pool) := c.pool.pools.toList.filter (fun e => (c.runError e.1).isNone)

/-- the pools that cannot run, in store order -/
def stoppers (c : Chain) : List (Nat × Pool.Pool) := c.pool.pools.toList.filter (fun e => !(c.runError e.1).isNone)

/-- the weights of the pools that can run, together -/
def shareWeight (c : Chain) : Nat := (c.runners.map (fun e => e.2.inflationShareWeight)).sum

/-- the part of the block provision, after the team's share, that is reserved for the protocol -/
def reserved (c : Chain) (provision team : Nat) : Nat :=
  Dec.trunc (Dec.mul (Dec.ofNat (provision - team)) c.pool.params.protocolInflationShare)

/-- What a begin block pays to the pools: `paid id` to pool `id`, out of `P` that is reserved for the protocol; `d` is the
chain at the new block time. -/
structure Inflated (d : Chain) (P : Nat) (paid : Nat → Nat) : Prop where
  /-- nothing to nobody -/
  missing : ∀ id, d.pool.pools.get? id = none → paid id = 0
  /-- nothing if nothing is reserved or no pool that can run has a weight -/
  nothing : P = 0 ∨ d.shareWeight = 0 → ∀ id, paid id = 0
  /-- the weighted share, up to one unit and the error of 18 decimals -/
  share : P ≠ 0 → d.shareWeight ≠ 0 → ∀ id p, CanRun d id p →
    2 * Dec.one * (paid id * d.shareWeight) ≤ 2 * Dec.one * (P * p.inflationShareWeight) + P * d.shareWeight ∧
    Dec.one * (P * p.inflationShareWeight) ≤ Dec.one * ((paid id + 1) * d.shareWeight) + P * d.shareWeight
  /-- every pool that cannot run gets the remainder (this is what the code does, not what it should do) -/
  rest : P ≠ 0 → d.shareWeight ≠ 0 → ∀ id p, d.pool.pools.get? id = some p → ¬ CanRun d id p →
    paid id = u64sub P (d.runners.map (fun e => paid e.1)).sum
  /-- not more than is reserved, if at most one pool cannot run and the shares are not rounded up over it -/
  total : P < twoPow64 → d.runners.length * P < 2 * Dec.one → d.stoppers.length ≤ 1 →
    (d.pool.pools.keys.map paid).sum ≤ P

/-! ## proofs -/

variable {c c' : Chain} {id : Nat}

theorem mem_runners {c : Chain} {id : Nat} {p : Pool.Pool} : (id, p) ∈ c.runners ↔ CanRun c id p := by
  unfold runners
  rw [List.mem_filter, Map.mem_iff, Option.isNone_iff_eq_none, runError_none_iff]
  constructor
  · rintro ⟨h1, q, hq⟩
    have := hq.found
    have h1' : c.pool.pools.get? id = some p := h1
    rw [h1'] at this
    cases this; exact hq
  · intro h; exact ⟨h.found, p, h⟩

theorem mem_stoppers {c : Chain} {id : Nat} {p : Pool.Pool} :
    (id, p) ∈ c.stoppers ↔ c.pool.pools.get? id = some p ∧ ¬ CanRun c id p := by
  unfold stoppers
  rw [List.mem_filter, Map.mem_iff]
  refine and_congr_right (fun h => ?_)
  have := @mem_runners c id p
  unfold runners at this
  rw [List.mem_filter, Map.mem_iff] at this
  rw [← this]
  cases (c.runError id).isNone <;> simp [h]

theorem infl_running (c : Chain) : c.inflPools.filter (·.running) =
    c.runners.map (fun e => ⟨e.1, true, e.2.inflationShareWeight⟩) := by
  unfold inflPools runners
  rw [List.filter_map]
  generalize c.pool.pools.toList = l
  induction l with
  | nil => rfl
  | cons e l ih =>
    cases hr : (c.runError e.1).isNone with
    | true =>
      rw [List.filter_cons_of_pos (by simpa using hr), List.filter_cons_of_pos (by simpa using hr), List.map_cons, List.map_cons, ih, hr]
    | false =>
      rw [List.filter_cons_of_neg (by simp [hr]), List.filter_cons_of_neg (by simp [hr]), ih]

theorem infl_stopped (c : Chain) : c.inflPools.filter (fun p => !p.running) =
    c.stoppers.map (fun e => ⟨e.1, false, e.2.inflationShareWeight⟩) := by
  unfold inflPools stoppers
  rw [List.filter_map]
  generalize c.pool.pools.toList = l
  induction l with
  | nil => rfl
  | cons e l ih =>
    cases hr : (c.runError e.1).isNone with
    | true =>
      rw [List.filter_cons_of_neg (by simp [hr]), List.filter_cons_of_neg (by simp [hr]), ih]
    | false =>
      rw [List.filter_cons_of_pos (by simp [hr]), List.filter_cons_of_pos (by simp [hr]), List.map_cons, List.map_cons, ih, hr]

theorem infl_weight (c : Chain) : Bundles.totalWeight c.inflPools = c.shareWeight := by
  unfold Bundles.totalWeight shareWeight
  rw [infl_running, List.map_map]; rfl

/-- what a list of transfers pays to a pool -/
def paidBy (l : List (Nat × Nat)) (id : Nat) : Nat := ((l.filter (fun t => t.1 == id)).map (·.2)).sum

theorem paidBy_append (l l' : List (Nat × Nat)) (id : Nat) : paidBy (l ++ l') id = paidBy l id + paidBy l' id := by
  unfold paidBy; rw [List.filter_append, List.map_append, List.sum_append]

theorem paidBy_absent {l : List (Nat × Nat)} {id : Nat} (h : ∀ t ∈ l, t.1 ≠ id) : paidBy l id = 0 := by
  unfold paidBy
  rw [List.filter_eq_nil_iff.mpr (fun t ht => by simpa using h t ht)]; rfl

theorem paidBy_map {α : Type} (l : List α) (key val : α → Nat) (hn : (l.map key).Nodup) {a : α} (ha : a ∈ l) :
    paidBy (l.map (fun a => (key a, val a))) (key a) = val a := by
  induction l with
  | nil => cases ha
  | cons b l ih =>
    rw [List.map_cons] at hn
    obtain ⟨h1, h2⟩ := List.nodup_cons.mp hn
    have e : paidBy ((b :: l).map (fun a => (key a, val a))) (key a) =
        paidBy [(key b, val b)] (key a) + paidBy (l.map (fun a => (key a, val a))) (key a) := paidBy_append [_] _ _
    rw [e]
    rcases List.mem_cons.mp ha with rfl | ha'
    · have h3 : paidBy (l.map (fun a => (key a, val a))) (key a) = 0 := by
        refine paidBy_absent ?_
        rintro t ht rfl'
        obtain ⟨x, hx, rfl⟩ := List.mem_map.mp ht
        exact h1 (List.mem_map.mpr ⟨x, hx, rfl'⟩)
      rw [h3]
      simp [paidBy]
    · have h3 : paidBy [(key b, val b)] (key a) = 0 := by
        refine paidBy_absent ?_
        intro t ht hk
        rw [List.mem_singleton] at ht
        subst ht
        exact h1 (List.mem_map.mpr ⟨a, ha', hk.symm⟩)
      rw [h3, ih h2 ha', Nat.zero_add]

theorem sum_paidBy (l : List (Nat × Nat)) (ids : List Nat) (hn : ids.Nodup) (h : ∀ t ∈ l, t.1 ∈ ids) :
    (ids.map (paidBy l)).sum = Bundles.transferSum l := by
  induction l with
  | nil =>
    have : ids.map (paidBy []) = ids.map (fun _ => 0) := rfl
    rw [this]; simp [Bundles.transferSum]
  | cons t l ih =>
    have e : ∀ id, paidBy (t :: l) id = (if id = t.1 then t.2 else 0) + paidBy l id := by
      intro id
      have := paidBy_append [t] l id
      rw [show [t] ++ l = t :: l from rfl] at this
      rw [this]
      congr 1
      by_cases hk : id = t.1
      · subst hk; simp [paidBy]
      · rw [if_neg hk]
        exact paidBy_absent (by intro x hx; rw [List.mem_singleton] at hx; subst hx; exact fun e => hk e.symm)
    have e2 : (ids.map (paidBy (t :: l))).sum = (ids.map (fun id => if id = t.1 then t.2 else 0)).sum + (ids.map (paidBy l)).sum := by
      rw [← List.sum_map_add]
      congr 1
      exact List.map_congr_left (fun id _ => e id)
    rw [e2, ih (fun x hx => h x (List.mem_cons_of_mem _ hx))]
    have e3 : (ids.map (fun id => if id = t.1 then t.2 else 0)).sum = t.2 := by
      have hm : t.1 ∈ ids := h t (by simp)
      clear e2 e ih h
      induction ids with
      | nil => cases hm
      | cons a ids ih =>
        obtain ⟨h1, h2⟩ := List.nodup_cons.mp hn
        rw [List.map_cons, List.sum_cons]
        rcases List.mem_cons.mp hm with e | hm'
        · rw [if_pos e.symm]
          have : (ids.map (fun id => if id = t.1 then t.2 else 0)) = ids.map (fun _ => 0) := by
            refine List.map_congr_left (fun x hx => if_neg ?_)
            rintro rfl; exact h1 (e ▸ hx)
          rw [this]; simp
        · rw [if_neg (by intro e; exact h1 (e ▸ hm')), ih h2 hm', Nat.zero_add]
    rw [e3]; rfl

/-- the keys of the pools that can run are different, and so on -/
theorem runners_nodup (c : Chain) : (c.runners.map (·.1)).Nodup := by
  have := Map.keys_nodup c.pool.pools
  unfold Map.keys at this
  exact (List.Sublist.map _ List.filter_sublist).nodup this

theorem stoppers_nodup (c : Chain) : (c.stoppers.map (·.1)).Nodup := by
  have := Map.keys_nodup c.pool.pools
  unfold Map.keys at this
  exact (List.Sublist.map _ List.filter_sublist).nodup this

theorem running_eq (c : Chain) (P : Nat) : Bundles.runningTransfers c.inflPools P =
    c.runners.map (fun e => (e.1, Bundles.poolAmount P c.shareWeight e.2.inflationShareWeight)) := by
  unfold Bundles.runningTransfers
  rw [infl_running, infl_weight, List.map_map]; rfl

theorem remainder_eq (c : Chain) (P : Nat) : Bundles.remainderTransfers c.inflPools P =
    if Bundles.inflationRemainder c.inflPools P = 0 then []
    else c.stoppers.map (fun e => (e.1, Bundles.inflationRemainder c.inflPools P)) := by
  unfold Bundles.remainderTransfers
  rw [infl_stopped, List.map_map]; rfl

theorem notrun_of {c : Chain} {id : Nat} {p : Pool.Pool} (h : CanRun c id p) : ∀ e ∈ c.stoppers, e.1 ≠ id := by
  rintro ⟨i, q⟩ he hi
  have hi' : i = id := hi
  subst hi'
  obtain ⟨h1, h2⟩ := mem_stoppers.mp he
  have := h.found
  rw [h1] at this
  cases this
  exact h2 h

theorem run_of {c : Chain} {id : Nat} {p : Pool.Pool} (hp : c.pool.pools.get? id = some p) (h : ¬ CanRun c id p) :
    ∀ e ∈ c.runners, e.1 ≠ id := by
  rintro ⟨i, q⟩ he hi
  have hi' : i = id := hi
  subst hi'
  have h1 := mem_runners.mp he
  have := h1.found
  rw [hp] at this
  cases this
  exact h h1

theorem ids_of_transfers (c : Chain) (P : Nat) : ∀ t ∈ Bundles.inflationTransfers c.inflPools P, t.1 ∈ c.pool.pools.keys := by
  intro t ht
  unfold Bundles.inflationTransfers at ht
  split at ht
  · cases ht
  split at ht
  · cases ht
  rw [List.mem_append, running_eq, remainder_eq] at ht
  have hsub : ∀ (f : Nat × Pool.Pool → Bool) (e : Nat × Pool.Pool), e ∈ c.pool.pools.toList.filter f → e.1 ∈ c.pool.pools.keys :=
    fun f e he => List.mem_map.mpr ⟨e, (List.mem_filter.mp he).1, rfl⟩
  rcases ht with ht | ht
  · obtain ⟨e, he, rfl⟩ := List.mem_map.mp ht
    exact hsub _ e he
  · split at ht
    · cases ht
    · obtain ⟨e, he, rfl⟩ := List.mem_map.mp ht
      exact hsub _ e he

theorem transfers_eq (c : Chain) {P : Nat} (hP : P ≠ 0) (hW : c.shareWeight ≠ 0) :
    Bundles.inflationTransfers c.inflPools P =
      Bundles.runningTransfers c.inflPools P ++ Bundles.remainderTransfers c.inflPools P := by
  rw [Bundles.inflationTransfers, infl_weight, if_neg hP, if_neg hW]

theorem paid_running {c : Chain} {P : Nat} (hP : P ≠ 0) (hW : c.shareWeight ≠ 0) {id : Nat} {p : Pool.Pool} (hr : CanRun c id p) :
    paidBy (Bundles.inflationTransfers c.inflPools P) id = Bundles.poolAmount P c.shareWeight p.inflationShareWeight := by
  rw [transfers_eq c hP hW, paidBy_append, running_eq, remainder_eq]
  generalize Bundles.inflationRemainder c.inflPools P = R
  generalize hv : (fun w : Dec => Bundles.poolAmount P c.shareWeight w) = v
  have h1 : paidBy (c.runners.map (fun e => (e.1, v e.2.inflationShareWeight))) id = v p.inflationShareWeight :=
    paidBy_map c.runners (·.1) (fun e => v e.2.inflationShareWeight) (runners_nodup c) (mem_runners.mpr hr)
  subst hv
  rw [h1]
  split
  · rw [paidBy_absent (fun t ht => by cases ht), Nat.add_zero]
  · rw [paidBy_absent, Nat.add_zero]
    intro t ht
    obtain ⟨e, he, rfl⟩ := List.mem_map.mp ht
    exact notrun_of hr e he

theorem paid_stopped {c : Chain} {P : Nat} (hP : P ≠ 0) (hW : c.shareWeight ≠ 0) {id : Nat} {p : Pool.Pool}
    (hp : c.pool.pools.get? id = some p) (hn : ¬ CanRun c id p) :
    paidBy (Bundles.inflationTransfers c.inflPools P) id = Bundles.inflationRemainder c.inflPools P := by
  rw [transfers_eq c hP hW, paidBy_append, remainder_eq]
  rw [paidBy_absent (l := Bundles.runningTransfers c.inflPools P) (by
    rw [running_eq]
    intro t ht
    obtain ⟨e, he, rfl⟩ := List.mem_map.mp ht
    exact run_of hp hn e he), Nat.zero_add]
  generalize Bundles.inflationRemainder c.inflPools P = R
  split
  · rename_i h0; rw [h0, paidBy_absent]; intro t ht; cases ht
  · exact paidBy_map c.stoppers (·.1) (fun _ => R) (stoppers_nodup c) (mem_stoppers.mpr ⟨hp, hn⟩)

theorem paid_sum {c : Chain} {P : Nat} (hP : P ≠ 0) (hW : c.shareWeight ≠ 0) :
    (c.runners.map (fun e => paidBy (Bundles.inflationTransfers c.inflPools P) e.1)).sum =
      Bundles.transferSum (Bundles.runningTransfers c.inflPools P) := by
  have e : c.runners.map (fun e => paidBy (Bundles.inflationTransfers c.inflPools P) e.1) =
      c.runners.map (fun e => Bundles.poolAmount P c.shareWeight e.2.inflationShareWeight) := by
    refine List.map_congr_left ?_
    rintro ⟨i, q⟩ hq
    exact paid_running hP hW (mem_runners.mp hq)
  rw [e, running_eq, Bundles.transferSum]
  generalize hv : (fun w : Dec => Bundles.poolAmount P c.shareWeight w) = v
  have h1 : (c.runners.map (fun e => v e.2.inflationShareWeight)).sum =
      ((c.runners.map (fun e => (e.1, v e.2.inflationShareWeight))).map (·.2)).sum := by rw [List.map_map]; rfl
  subst hv
  exact h1

theorem inflated (c : Chain) (P : Nat) : Inflated c P (paidBy (Bundles.inflationTransfers c.inflPools P)) := by
  have hids := ids_of_transfers c P
  refine ⟨?_, ?_, ?_, ?_, ?_⟩
  · intro id hn
    refine paidBy_absent ?_
    rintro t ht rfl
    obtain ⟨p, hp⟩ := (Map.mem_keys_iff _ _).mp (hids t ht)
    rw [hn] at hp; cases hp
  · intro h id
    unfold Bundles.inflationTransfers
    rw [infl_weight]
    rcases h with h | h
    · rw [if_pos h]; exact paidBy_absent (fun t ht => by cases ht)
    · rw [if_pos h]
      split
      · exact paidBy_absent (fun t ht => by cases ht)
      · exact paidBy_absent (fun t ht => by cases ht)
  · intro hP hW id p hr
    rw [paid_running hP hW hr]
    refine ⟨Bundles.poolAmount_upper _ _ _, ?_⟩
    exact Nat.lt_succ_iff.mp (Bundles.poolAmount_lower P c.shareWeight p.inflationShareWeight (Nat.pos_of_ne_zero hW))
  · intro hP hW id p hp hn
    rw [paid_sum hP hW, paid_stopped hP hW hp hn, Bundles.inflationRemainder]
  · intro h1 h2 h3
    rw [sum_paidBy _ _ (Map.keys_nodup _) hids]
    refine Bundles.C29_total_partial c.inflPools P h1 ?_ ?_
    · rw [infl_running, List.length_map]; exact h2
    · rw [infl_stopped, List.length_map]; exact h3

/-! ## the transfers -/

theorem inflTransfers_halted (l : List (Nat × Nat)) {c c' : Chain} (h : inflTransfers l c = some c')
    (hh : c'.halted = false) : c.halted = false := by
  induction l generalizing c with
  | nil => injection h with h; subst h; exact hh
  | cons t l ih =>
    unfold inflTransfers at h
    split at h
    · cases h
    · rename_i x hx
      have := ih h
      unfold inflTransfer at hx
      split at hx
      · cases hx
        have := (Bool.or_eq_false_iff.mp this).1
        exact this
      · cases hx

theorem amt_single (n : Nat) : (Coins.single kyve n).amt kyve = n := by
  rw [Coins.amt_single]; simp

theorem inflTransfers_bank (l : List (Nat × Nat)) {c c' : Chain} (h : inflTransfers l c = some c') (hh : c'.halted = false) :
    (∀ id, (c'.b (.pool id)).amt kyve = (c.b (.pool id)).amt kyve + paidBy l id) ∧
    (c.b (.mod .feeCollector)).amt kyve = (c'.b (.mod .feeCollector)).amt kyve + Bundles.transferSum l := by
  induction l generalizing c with
  | nil => injection h with h; subst h; exact ⟨fun id => rfl, rfl⟩
  | cons t l ih =>
    unfold inflTransfers at h
    split at h
    · cases h
    · rename_i x hx
      have hx0 := inflTransfers_halted l h hh
      obtain ⟨h1, h2⟩ := ih h
      unfold inflTransfer at hx
      split at hx
      · cases hx
        have hf : Bank.failed (c.b.send (.mod .feeCollector) (.pool t.1) (Coins.single kyve t.2)) = false :=
          (Bool.or_eq_false_iff.mp hx0).2
        cases hs : c.b.send (.mod .feeCollector) (.pool t.1) (Coins.single kyve t.2) with
        | error e => rw [hs] at hf; cases hf
        | ok b =>
          simp only [hs] at h1 h2
          obtain ⟨hle, hb⟩ := Bank.send_ok hs
          constructor
          · intro id
            rw [h1 id]
            have e1 := hb (.pool id) kyve
            have e2 : paidBy (t :: l) id = paidBy [t] id + paidBy l id := paidBy_append [t] l id
            have e3 : (Bank.orKeep c.b (.ok b) (.pool id)).amt kyve = (b (.pool id)).amt kyve := rfl
            rw [e3, e1, e2, if_neg (by simp), Nat.sub_zero, amt_single]
            by_cases hk : id = t.1
            · subst hk
              rw [if_pos rfl]
              have : paidBy [t] t.1 = t.2 := by simp [paidBy]
              omega
            · rw [if_neg (by simpa using hk)]
              have : paidBy [t] id = 0 := paidBy_absent (by
                intro x hx; rw [List.mem_singleton] at hx; subst hx; exact fun e => hk e.symm)
              omega
          · have e1 := hb (.mod .feeCollector) kyve
            have e3 : (Bank.orKeep c.b (.ok b) (.mod .feeCollector)).amt kyve = (b (.mod .feeCollector)).amt kyve := rfl
            rw [e3] at h2
            have hle' := hle kyve
            rw [amt_single] at hle'
            rw [if_pos rfl, if_neg (by simp), amt_single, Nat.add_zero] at e1
            have e4 : Bundles.transferSum (t :: l) = t.2 + Bundles.transferSum l := rfl
            omega
      · cases hx

theorem afterSplit_some (c d : Chain) (r : Bool) : c.afterSplit r (some d) = d.queues r := rfl

theorem queues_halted (d : Chain) (r : Bool) : (d.queues r).halted = d.halted := rfl
theorem newBlock_b (c : Chain) (dt : Nat) (r : Bool) : (c.newBlock dt r).b = c.b := rfl
theorem newBlock_infl (c : Chain) (dt : Nat) (r : Bool) :
    (c.newBlock dt r).inflPools = ({ c with now := c.now + dt } : Chain).inflPools := rfl

theorem split_eq (c : Chain) (dt pr te : Nat) (r : Bool) : (c.newBlock dt r).splitInflation pr te =
    inflTransfers (Bundles.inflationTransfers ({ c with now := c.now + dt } : Chain).inflPools (c.reserved pr te))
      (c.newBlock dt r) := by
  rw [splitInflation, newBlock_infl, reserved, Bundles.protocolProvision]
  rfl

theorem outsideP (m : Mod) (id : Nat) : Outside m (.pool id) :=
  ⟨(fun e => by cases e), (fun e => by cases e), (fun e => by cases e), (fun u e => by cases e)⟩

theorem queues_outside (d : Chain) (r : Bool) {a : Acct} (ha : Outside .delegation a) : (d.queues r).b a = d.b a := by
  have h := Delegation.step_frame ha 0 ⟨d.dw, d.now⟩ (.beginBlock 0 r) rfl
  exact h

/-- **C29.** A begin block that neither crashes nor schedules a halt takes from the fee collector exactly what it pays to
the pools, and pays every pool what `Inflated` says, out of the part of the block provision reserved for the protocol;
which pools can run is judged at the new block time. -/
theorem C29_chain (c : Chain) (dt pr te : Nat) (r : Bool) (hc : (c.beginBlock dt pr te r).crashed = false)
    (hh : (c.beginBlock dt pr te r).halted = false) :
    ∃ paid : Nat → Nat, Inflated { c with now := c.now + dt } (c.reserved pr te) paid ∧
      (∀ id, ((c.beginBlock dt pr te r).b (.pool id)).amt kyve = (c.b (.pool id)).amt kyve + paid id) ∧
      (c.b (.mod .feeCollector)).amt kyve =
        ((c.beginBlock dt pr te r).b (.mod .feeCollector)).amt kyve + (c.pool.pools.keys.map paid).sum := by
  have e0 : c.beginBlock dt pr te r = c.afterSplit r ((c.newBlock dt r).splitInflation pr te) := by rw [beginBlock]
  rw [e0] at hc hh ⊢
  cases hs : (c.newBlock dt r).splitInflation pr te with
  | none => rw [hs] at hc; cases hc
  | some d =>
    rw [hs] at hc hh
    rw [afterSplit_some] at hc hh ⊢
    rw [queues_halted] at hh
    rw [split_eq] at hs
    have hi := inflated ({ c with now := c.now + dt } : Chain) (c.reserved pr te)
    have hids : ∀ t ∈ Bundles.inflationTransfers ({ c with now := c.now + dt } : Chain).inflPools (c.reserved pr te),
      t.1 ∈ c.pool.pools.keys := ids_of_transfers ({ c with now := c.now + dt } : Chain) (c.reserved pr te)
    generalize Bundles.inflationTransfers ({ c with now := c.now + dt } : Chain).inflPools (c.reserved pr te) = l at hs hi hids
    obtain ⟨h1, h2⟩ := inflTransfers_bank l hs hh
    rw [newBlock_b] at h2
    refine ⟨_, hi, fun id => ?_, ?_⟩
    · have := h1 id
      rw [newBlock_b] at this
      rw [queues_outside d r (outsideP _ id), this]
    · rw [queues_outside d r ⟨by decide, by decide, by decide, (fun u e => by cases e)⟩,
        sum_paidBy _ _ (Map.keys_nodup _) hids]
      exact h2

theorem inflTransfers_covered (l : List (Nat × Nat)) (c : Chain) (hb : ∀ t ∈ l, t.2 < 2 ^ 63)
    (hf : Bundles.transferSum l ≤ (c.b (.mod .feeCollector)).amt kyve) :
    ∃ c', inflTransfers l c = some c' ∧ c'.crashed = c.crashed ∧ c'.halted = c.halted := by
  induction l generalizing c with
  | nil => exact ⟨c, rfl, rfl, rfl⟩
  | cons t l ih =>
    have e4 : Bundles.transferSum (t :: l) = t.2 + Bundles.transferSum l := rfl
    rw [e4] at hf
    obtain ⟨b, hs⟩ : ∃ b, c.b.send (.mod .feeCollector) (.pool t.1) (Coins.single kyve t.2) = .ok b := by
      refine Bank.send_succeeds (fun d => ?_)
      rw [Coins.amt_single]
      split
      · rename_i e; rw [e]; omega
      · exact Nat.zero_le _
    have e1 := (Bank.send_ok hs).2 (.mod .feeCollector) kyve
    rw [if_pos rfl, if_neg (by simp), amt_single, Nat.add_zero] at e1
    have ex : c.inflTransfer t = some { c with b := b } := by
      rw [inflTransfer, if_pos (hb t (by simp)), hs]
      simp [Bank.orKeep, Bank.failed]
    obtain ⟨c', h1, h2, h3⟩ := ih { c with b := b } (fun x hx => hb x (List.mem_cons_of_mem _ hx)) (by rw [e1]; omega)
    refine ⟨c', ?_, h2, h3⟩
    rw [inflTransfers, ex]
    exact h1

/-- C29: if the fee collector holds the reserved part (x/mint has put the whole provision there), at most one pool cannot
run and the shares are not rounded up over it, the begin block neither crashes nor schedules a halt. -/
theorem C29_covered (c : Chain) (dt pr te : Nat) (r : Bool) (hP : c.reserved pr te < 2 ^ 63)
    (h1 : ({ c with now := c.now + dt } : Chain).runners.length * c.reserved pr te < 2 * Dec.one)
    (h2 : ({ c with now := c.now + dt } : Chain).stoppers.length ≤ 1)
    (hf : c.reserved pr te ≤ (c.b (.mod .feeCollector)).amt kyve) :
    (c.beginBlock dt pr te r).crashed = c.crashed ∧ (c.beginBlock dt pr te r).halted = c.halted := by
  have hP' : c.reserved pr te < twoPow64 := lt_trans hP (by decide)
  have ht := Bundles.C29_total_partial ({ c with now := c.now + dt } : Chain).inflPools (c.reserved pr te) hP'
    (by rw [infl_running, List.length_map]; exact h1) (by rw [infl_stopped, List.length_map]; exact h2)
  have hs := split_eq c dt pr te r
  generalize Bundles.inflationTransfers ({ c with now := c.now + dt } : Chain).inflPools (c.reserved pr te) = l at hs ht
  generalize c.reserved pr te = P at *
  have hle : ∀ t ∈ l, t.2 ≤ Bundles.transferSum l := fun t h => List.single_le_sum (fun _ _ => Nat.zero_le _) _ (List.mem_map.mpr ⟨t, h, rfl⟩)
  obtain ⟨c', e1, e2, e3⟩ := inflTransfers_covered l (c.newBlock dt r)
    (fun t h => lt_of_le_of_lt (le_trans (hle t h) ht) hP) (by rw [newBlock_b]; exact le_trans ht hf)
  have e0 : c.beginBlock dt pr te r = c.afterSplit r ((c.newBlock dt r).splitInflation pr te) := by rw [beginBlock]
  rw [e0, hs, e1, afterSplit_some]
  exact ⟨e2, e3⟩

/-- the sample chain with an inflation share of one half and 1000 in the fee collector -/
def inflating : Chain :=
  { Sample.ready with
    pool := { Sample.ready.pool with params := { Sample.ready.pool.params with protocolInflationShare := 5 * 10 ^ 17 } }
    b := fun a => if a = .mod .feeCollector then Coins.single kyve 1000 else Sample.ready.b a }

example : inflating.reserved 1000 100 = 450 ∧ inflating.runners.map (·.1) = [0] ∧ inflating.stoppers = [] ∧
    inflating.shareWeight ≠ 0 ∧ (inflating.beginBlock 5 1000 100 false).crashed = false ∧
    (inflating.beginBlock 5 1000 100 false).halted = false ∧
    ((inflating.beginBlock 5 1000 100 false).b (.pool 0)).amt kyve = (inflating.b (.pool 0)).amt kyve + 450 := by
  decide +kernel

end Chain
end Verif.Chain
