import Verif.Funders.Inv

/-!
# Properties of x/funders (C32-C36, funders part of C51 and C52)
-/

namespace Verif.Funders
open Verif

namespace Spec

/-- reachable from an empty genesis by any messages, bundle finalizations, parameter changes and foreign transfers -/
def Reachable (gov : Addr) (w : World) : Prop := ∃ b ops, w = run gov (World.init b) ops

/-- the remaining coins of funder `a` in pool `p` -/
def left (w : World) (a : Addr) (p : Nat) : Coins :=
  match w.s.fundings.get? (a, p) with | some f => f.amounts | none => Coins.zero

/-- what funder `a` promised per bundle in pool `p` -/
def promised (w : World) (a : Addr) (p : Nat) : Coins :=
  match w.s.fundings.get? (a, p) with | some f => f.perBundle | none => Coins.zero

/-- what was ever charged from funder `a` in pool `p` -/
def charged (w : World) (a : Addr) (p : Nat) : Coins :=
  match w.s.fundings.get? (a, p) with | some f => f.totalFunded | none => Coins.zero

/-- the active funders of pool `p` -/
def activeIn (w : World) (p : Nat) : List Addr := (w.s.active.get? p).getD []

/-- all coins `d` all funders have left in all pools -/
def totalLeft (w : World) (d : Denom) : Nat := (w.s.fundings.toList.map (fun e => e.2.amounts.amt d)).sum

/-- is coin `d` in the whitelist parameter? -/
def whitelisted (w : World) (d : Denom) : Prop := ∃ e ∈ w.s.params.whitelist, e.denom = d

end Spec
open Spec

theorem Spec.Reachable.inv {gov : Addr} {w : World} (h : Reachable gov w) : Inv w := by
  obtain ⟨b, ops, rfl⟩ := h; exact Inv.run b ops

theorem totalLeft_eq (w : World) (d : Denom) : totalLeft w d = remaining w.s d := rfl

theorem listed_iff (w : World) (d : Denom) : w.s.params.listed d = true ↔ whitelisted w d := by
  unfold Params.listed Params.entry? whitelisted
  rw [List.find?_isSome]
  simp

theorem left_eq {w : World} {a : Addr} {p : Nat} {f : Funding} (h : w.s.funding? a p = some f) : left w a p = f.amounts := by
  unfold left; unfold State.funding? at h; rw [h]

theorem promised_eq {w : World} {a : Addr} {p : Nat} {f : Funding} (h : w.s.funding? a p = some f) :
    promised w a p = f.perBundle := by
  unfold promised; unfold State.funding? at h; rw [h]

theorem charged_eq {w : World} {a : Addr} {p : Nat} {f : Funding} (h : w.s.funding? a p = some f) :
    charged w a p = f.totalFunded := by
  unfold charged; unfold State.funding? at h; rw [h]

/-! ## examples -/

/-- user 1 and 2 are rich -/
def exBank : Bank := fun a => match a with
  | .user _ => Coins.single kyve 10000000000000
  | _ => Coins.zero

/-- a pool, two funders, both funding it -/
def exOps : List Op :=
  [.createFunder 1, .createFunder 2, .poolCreated 0,
   .fund true ⟨1, 0, Coins.single kyve 3000000000, Coins.single kyve 2000000⟩,
   .fund true ⟨2, 0, Coins.single kyve 2000000000, Coins.single kyve 50000000⟩]

def exWorld : World := run 9 (World.init exBank) exOps

theorem exReach : Reachable 9 exWorld := ⟨exBank, exOps, rfl⟩

/-! ## C32 -/

/-- C32: in every reachable state the funders module account holds, of every coin, exactly what all funders have left
in all pools plus what was given to the account from outside the module (`C32_gifts`). -/
theorem C32_exact (gov : Addr) (w : World) (hw : Reachable gov w) (d : Denom) :
    (w.b (.mod .funders)).amt d = totalLeft w d + w.s.gifts.amt d := hw.inv.bal d

/-- C32: the funders module account always covers what all funders have left in all pools. -/
theorem C32_backed (gov : Addr) (w : World) (hw : Reachable gov w) (d : Denom) :
    totalLeft w d ≤ (w.b (.mod .funders)).amt d := by
  rw [C32_exact gov w hw d]; exact Nat.le_add_right _ _

/-- the coins given to the module account from outside in a history -/
def givenIn (ops : List Op) (d : Denom) : Nat :=
  (ops.map (fun o => match o with | .external _ g => g.amt d | _ => 0)).sum

theorem step_gifts (gov : Addr) (w : World) (hw : Inv w) (o : Op) (d : Denom) :
    (step gov w o).s.gifts.amt d = w.s.gifts.amt d + match o with | .external _ g => g.amt d | _ => 0 := by
  cases o with
  | createFunder a =>
    simp only [step, createFunder]
    split <;> rfl
  | poolCreated id =>
    simp only [step]
    split <;> rfl
  | fund ok m =>
    simp only [step]
    cases hr : fundPool w.s w.b ok m with
    | error e => rfl
    | ok r =>
      obtain ⟨s', b'⟩ := r
      obtain ⟨l, f, wk, -, -, -, -, -, -, hwk, -, e⟩ := fund_ok hw hr
      have hg : wk.s.gifts = w.s.gifts := by
        unfold ensureFreeSlot at hwk
        split at hwk
        · cases hwk; rfl
        · split at hwk
          · cases hwk
          · split at hwk
            · cases hwk; rfl
            · split at hwk
              · split at hwk
                · cases hwk
                · unfold evict at hwk
                  split at hwk
                  · cases hwk
                  · cases hwk; rfl
              · cases hwk
      show s'.gifts.amt d = w.s.gifts.amt d
      rw [e, ← hg]; rfl
  | defund m =>
    simp only [step]
    cases hr : defundPool w.s w.b m with
    | error e => rfl
    | ok r =>
      obtain ⟨s', b'⟩ := r
      obtain ⟨l, f, f', -, -, -, -, -, e⟩ := defund_ok hr
      show s'.gifts.amt d = w.s.gifts.amt d
      rw [e]; rfl
  | charge id =>
    simp only [step]
    cases hr : chargeFundersOfPool w.s w.b id with
    | error e => rfl
    | ok r =>
      show r.2.1.gifts.amt d = w.s.gifts.amt d
      unfold chargeFundersOfPool at hr
      split at hr
      · cases hr
      · simp only at hr
        split at hr
        · cases hr; rfl
        · split at hr
          · cases hr
          · cases hr
            exact congrArg (fun c => c.amt d) (charge_gifts _ _)
  | updateParams a p =>
    simp only [step, updateParams]
    split
    · rfl
    · split <;> rfl
  | external b g =>
    show (w.s.gifts.add g).amt d = _
    rw [Coins.amt_add]

/-- C32: the surplus in `C32_exact` is exactly the sum of what was given from outside. -/
theorem C32_gifts (gov : Addr) (b : Bank) (ops : List Op) (d : Denom) :
    ((run gov (World.init b) ops).b (.mod .funders)).amt d
      = totalLeft (run gov (World.init b) ops) d + givenIn ops d := by
  rw [C32_exact gov _ ⟨b, ops, rfl⟩ d]
  congr 1
  induction ops using List.reverseRecOn with
  | nil => rfl
  | append_singleton ops o ih =>
    rw [run_snoc, step_gifts gov _ (Inv.run b ops), ih]
    simp [givenIn]

example : totalLeft exWorld kyve = 5000000000 := by decide +kernel

/-! ## C33 -/

/-- C33: the active list of a pool has no duplicates, at most 50 entries, and contains every
funder with coins left in that pool. -/
theorem C33_active (gov : Addr) (w : World) (hw : Reachable gov w) (p : Nat) :
    (activeIn w p).Nodup ∧ (activeIn w p).length ≤ 50 ∧
    ∀ a d, (left w a p).amt d ≠ 0 → a ∈ activeIn w p := by
  have h := hw.inv
  unfold activeIn
  cases hl : w.s.active.get? p with
  | none =>
    refine ⟨by simp, by simp, ?_⟩
    intro a d hd
    exfalso
    unfold left at hd
    cases hf : w.s.fundings.get? (a, p) with
    | none => rw [hf] at hd; exact hd rfl
    | some f =>
      obtain ⟨l, hl'⟩ := h.has a p f hf
      rw [hl] at hl'; cases hl'
  | some l =>
    refine ⟨h.nodup p l hl, h.cap p l hl, ?_⟩
    intro a d hd
    unfold left at hd
    cases hf : w.s.fundings.get? (a, p) with
    | none => rw [hf] at hd; exact absurd rfl hd
    | some f =>
      rw [hf] at hd
      obtain ⟨l', hl', ha⟩ := h.act a p f d hf hd
      rw [hl] at hl'; cases hl'; exact ha

example : activeIn exWorld 0 = [1, 2] := by decide +kernel

/-- every active funder has coins left -/
def Solid (w : World) : Prop := ∀ p a, a ∈ activeIn w p → ∃ d, (left w a p).amt d ≠ 0

/-- a fund message that adds coins -/
def Adds : Op → Prop
  | .fund _ m => m.amounts.isZero = false
  | _ => True

theorem solid_iff (w : World) : Solid w ↔ ∀ p l a, w.s.active.get? p = some l → a ∈ l →
    ∃ f d, w.s.funding? a p = some f ∧ f.amounts.amt d ≠ 0 := by
  unfold Solid activeIn
  constructor
  · intro h p l a hl ha
    obtain ⟨d, hd⟩ := h p a (by rw [hl]; exact ha)
    unfold left at hd
    cases hf : w.s.fundings.get? (a, p) with
    | none => rw [hf] at hd; exact absurd rfl hd
    | some f => rw [hf] at hd; exact ⟨f, d, hf, hd⟩
  · intro h p a ha
    cases hl : w.s.active.get? p with
    | none => rw [hl] at ha; simp at ha
    | some l =>
      rw [hl] at ha
      obtain ⟨f, d, hf, hd⟩ := h p l a hl ha
      exact ⟨d, by rw [left_eq hf]; exact hd⟩

theorem Solid.step {gov : Addr} {w : World} (hI : Inv w) (h : Solid w) (op : Op) (ho : Adds op) : Solid (step gov w op) := by
  rw [solid_iff] at h ⊢
  cases op with
  | createFunder a =>
    simp only [Funders.step, createFunder]
    split <;> exact h
  | poolCreated id =>
    simp only [Funders.step]
    split
    · exact h
    · intro p l a hl ha
      simp only [State.createFundingState, State.setActive, Map.get?_set] at hl
      split at hl
      · cases hl; simp at ha
      · exact h p l a hl ha
  | fund ok m =>
    simp only [Funders.step]
    cases hr : fundPool w.s w.b ok m with
    | error e => exact h
    | ok r =>
      obtain ⟨l0, f, wk, -, -, hl0, hfc, hf1, hf2, hslot, -, hs'⟩ := fund_ok hI (s' := r.1) (b' := r.2) hr
      have hpos : ∃ d, f.amounts.amt d ≠ 0 := by
        obtain ⟨d, hd⟩ := Coins.isZero_false_iff.1 ho
        refine ⟨d, ?_⟩
        rw [hfc, clean_amounts, mergeFunding_amt]
        omega
      intro p l a hl ha
      have hl1 : (r.1.active.get? p) = some l := hl
      rw [hs'] at hl1
      show ∃ f d, r.1.funding? a p = some f ∧ _
      rw [hs']
      show ∃ g d, (wk.s.setFunding f).funding? a p = some g ∧ _
      rw [funding?_set]
      by_cases e : a = f.funder ∧ p = f.pool
      · rw [if_pos e]
        obtain ⟨d, hd⟩ := hpos
        exact ⟨f, d, rfl, hd⟩
      · rw [if_neg e]
        have hact : ∀ p, p ≠ m.pool → wk.s.active.get? p = w.s.active.get? p := by
          intro q _
          rcases ensureFreeSlot_ok hslot with ⟨rfl, -⟩ | ⟨low, x, y, b1, -, -, -, -, -, -, -, -, rfl⟩ <;> rfl
        have hfund : ∀ a' p', (p' ≠ m.pool ∨ a' ∈ wk.l) → wk.s.funding? a' p' = w.s.funding? a' p' := by
          intro a' p' hor
          rcases ensureFreeSlot_ok hslot with ⟨rfl, -⟩ | ⟨low, x, y, b1, hm, -, -, -, -, -, -, -, rfl⟩
          · rfl
          · rw [funding?_set, if_neg]
            rintro ⟨e1, e2⟩
            have e2' : p' = low.pool := e2
            have hlp := ((hI.activeFundings_spec hl0).1 low hm).2.1
            rcases hor with hor | hor
            · exact hor (e2'.trans hlp)
            · exact ((mem_setInactive (hI.nodup _ _ hl0)).1 hor).2 e1
        have hmem : ∀ a' ∈ wk.l, a' ∈ l0 := by
          intro a' ha'
          rcases ensureFreeSlot_ok hslot with ⟨rfl, -⟩ | ⟨low, x, y, b1, hm, -, -, -, -, -, -, -, rfl⟩
          · exact ha'
          · exact ((mem_setInactive (hI.nodup _ _ hl0)).1 ha').1
        have hl2 : (if p = m.pool then some (setActive wk.l f.funder) else wk.s.active.get? p) = some l := by
          rw [← hl1]; exact (Map.get?_set _ _ _ _).symm
        split at hl2
        · rename_i ep
          cases hl2
          rcases mem_setActive.1 ha with h1 | h1
          · rw [hfund a p (Or.inr h1)]
            exact h p l0 a (ep ▸ hl0) (hmem a h1)
          · exact absurd ⟨h1, ep.trans hf2.symm⟩ e
        · rename_i ep
          rw [hact p ep] at hl2
          rw [hfund a p (Or.inl ep)]
          exact h p l a hl2 ha
  | defund m =>
    simp only [Funders.step]
    cases hr : defundPool w.s w.b m with
    | error e => exact h
    | ok r =>
      obtain ⟨l0, f, f', hf, hl0, -, hf', -, hs'⟩ := defund_ok (s' := r.1) (b' := r.2) hr
      have hk := hI.key _ _ hf
      simp only [Prod.mk.injEq] at hk
      have e1 : f'.funder = m.creator := by rw [hf']; exact hk.1
      have e2 : f'.pool = m.pool := by rw [hf']; exact hk.2
      intro p l a hl ha
      have hl1 : r.1.active.get? p = some l := hl
      rw [hs'] at hl1
      show ∃ f d, r.1.funding? a p = some f ∧ _
      rw [hs']
      show ∃ g d, (w.s.setFunding f').funding? a p = some g ∧ _
      rw [funding?_set, e1, e2]
      have hl2 : (if p = m.pool then some (if f'.amounts.isZero then setInactive l0 f'.funder else l0)
          else w.s.active.get? p) = some l := by
        rw [← hl1]; exact (Map.get?_set _ _ _ _).symm
      split at hl2
      · rename_i ep
        simp only [Option.some.injEq] at hl2
        by_cases ea : a = m.creator
        · rw [if_pos ⟨ea, ep⟩]
          by_cases hz : f'.amounts.isZero = true
          · rw [if_pos hz] at hl2
            rw [← hl2, mem_setInactive (hI.nodup _ _ hl0)] at ha
            exact absurd (ea.trans e1.symm) ha.2
          · obtain ⟨d, hd⟩ := Coins.isZero_false_iff.1 (by simpa using hz)
            exact ⟨f', d, rfl, hd⟩
        · rw [if_neg (fun e => ea e.1)]
          refine h p l0 a (ep ▸ hl0) ?_
          rw [← hl2] at ha
          split at ha
          · exact ((mem_setInactive (hI.nodup _ _ hl0)).1 ha).1
          · exact ha
      · rename_i ep
        rw [if_neg (fun e => ep e.2)]
        exact h p l a hl2 ha
  | charge id =>
    simp only [Funders.step]
    cases hl : w.s.active.get? id with
    | none => unfold chargeFundersOfPool; rw [hl]; exact h
    | some l0 =>
      obtain ⟨paid, s', b', hr, hI', -, -, hact, -, -, hfun, l', hl', hmem⟩ := charge_ok hI hl
      rw [hr]
      intro p l a hl1 ha
      have hl2 : s'.active.get? p = some l := hl1
      by_cases ep : p = id
      · subst ep
        rw [hl'] at hl2; cases hl2
        exact ((hmem a).1 ha).2
      · rw [hact p ep] at hl2
        show ∃ f d, s'.funding? a p = some f ∧ _
        rw [hfun, if_neg (fun e => ep e.1)]
        exact h p l a hl2 ha
  | updateParams a p =>
    simp only [Funders.step, updateParams]
    split
    · exact h
    · split <;> exact h
  | external b g => exact h

/-- C33 for histories whose fund messages carry coins: the active funders of a pool are exactly those with coins left
in it. -/
theorem C33_exact_partial (gov : Addr) (b : Bank) (ops : List Op) (hops : ∀ o ∈ ops, Adds o) (p : Nat) (a : Addr) :
    a ∈ activeIn (run gov (World.init b) ops) p ↔ ∃ d, (left (run gov (World.init b) ops) a p).amt d ≠ 0 := by
  constructor
  · have hS : Solid (run gov (World.init b) ops) := by
      induction ops using List.reverseRecOn with
      | nil =>
        rw [solid_iff]
        intro p l a hl; cases hl
      | append_singleton ops o ih =>
        rw [run_snoc]
        exact Solid.step (Inv.run b ops) (ih (fun o ho => hops o (by simp [ho]))) o (hops o (by simp))
    exact hS p a
  · rintro ⟨d, hd⟩
    exact (C33_active gov _ ⟨b, ops, rfl⟩ p).2.2 a d hd

example : ∀ o ∈ exOps, Adds o := by
  intro o ho
  simp only [exOps, List.mem_cons, List.not_mem_nil, or_false] at ho
  rcases ho with rfl | rfl | rfl | rfl | rfl <;> trivial

/-- C33 is false as stated: a fund message with an amount per bundle but no coins is accepted and makes a funder
without any coins active. -/
theorem C33_false_empty_active : ∃ gov w p a, Reachable gov w ∧ a ∈ activeIn w p ∧ ∀ d, (left w a p).amt d = 0 := by
  refine ⟨9, run 9 (World.init exBank)
    [.createFunder 1, .poolCreated 0, .fund true ⟨1, 0, Coins.zero, Coins.single kyve 2000000⟩], 0, 1, ⟨_, _, rfl⟩,
    by decide +kernel, ?_⟩
  apply Coins.isZero_iff.1
  decide +kernel

/-! ## C34 -/

/-- C34: finalizing a bundle of an existing pool never fails on the funders' side; every active funder pays, of every
coin, exactly the lesser of what it promised per bundle and what it has left if the coin is whitelisted and nothing
otherwise; its remaining plus its charged coins are unchanged; nobody else pays; the pool module receives exactly the
sum, from the funders module. -/
theorem C34_charge (gov : Addr) (w : World) (hw : Reachable gov w) (pool : Nat)
    (hp : w.s.active.has pool = true) :
    ∃ paid s' b', chargeFundersOfPool w.s w.b pool = .ok (paid, s', b') ∧
      (∀ a p d,
        (left ⟨s', b'⟩ a p).amt d + (charged ⟨s', b'⟩ a p).amt d = (left w a p).amt d + (charged w a p).amt d ∧
        (p = pool ∧ a ∈ activeIn w pool → whitelisted w d →
          (left ⟨s', b'⟩ a p).amt d + min ((left w a p).amt d) ((promised w a p).amt d) = (left w a p).amt d) ∧
        (¬ whitelisted w d → (left ⟨s', b'⟩ a p).amt d = (left w a p).amt d) ∧
        (¬ (p = pool ∧ a ∈ activeIn w pool) → left ⟨s', b'⟩ a p = left w a p)) ∧
      (∀ d, paid.amt d
        = ((activeIn w pool).map (fun a => (left w a pool).amt d - (left ⟨s', b'⟩ a pool).amt d)).sum) ∧
      (∀ d, (b' (.mod .funders)).amt d + paid.amt d = (w.b (.mod .funders)).amt d ∧
        (b' (.mod .pool)).amt d = (w.b (.mod .pool)).amt d + paid.amt d) ∧
      (∀ a, a ≠ .mod .funders → a ≠ .mod .pool → b' a = w.b a) := by
  have h := hw.inv
  rw [Map.has, Option.isSome_iff_exists] at hp
  obtain ⟨l, hl⟩ := hp
  have hact : activeIn w pool = l := by unfold activeIn; rw [hl]; rfl
  obtain ⟨paid, s', b', hr, hI', -, -, -, hpaid, hbank, hfun, -⟩ := charge_ok h hl
  refine ⟨paid, s', b', hr, ?_, ?_, ?_, ?_⟩
  · intro a p d
    have hf := hfun a p
    by_cases e : p = pool ∧ a ∈ l
    · rw [if_pos e] at hf
      obtain ⟨rfl, ha⟩ := e
      obtain ⟨f, hf0⟩ := h.listed p l a hl ha
      rw [hf0] at hf
      have hf' : (⟨s', b'⟩ : World).s.funding? a p = some (f.charged w.s.params) := hf
      rw [left_eq hf', charged_eq hf', left_eq hf0, charged_eq hf0, promised_eq hf0, hact]
      have h1 := charged_amounts w.s.params f d
      have h2 : (f.charged w.s.params).totalFunded.amt d = f.totalFunded.amt d + (f.charge w.s.params).amt d := by
        rw [show (f.charged w.s.params).totalFunded = f.totalFunded.add (f.charge w.s.params) from rfl, Coins.amt_add]
      have h3 : (f.charge w.s.params).amt d
          = if w.s.params.listed d then Nat.min (f.amounts.amt d) (f.perBundle.amt d) else 0 := by
        unfold Funding.charge
        rw [Coins.amt_filter, Coins.amt_min]
      refine ⟨by omega, ?_, ?_, ?_⟩
      · intro _ hwl
        rw [if_pos ((listed_iff w d).2 hwl)] at h3
        have h4 : Nat.min (f.amounts.amt d) (f.perBundle.amt d) = min (f.amounts.amt d) (f.perBundle.amt d) := rfl
        omega
      · intro hwl
        rw [if_neg (fun e => hwl ((listed_iff w d).1 e))] at h3
        omega
      · intro hn; exact absurd ⟨rfl, ha⟩ hn
    · rw [if_neg e] at hf
      have e1 : left ⟨s', b'⟩ a p = left w a p := by unfold left; unfold State.funding? at hf; rw [hf]
      have e2 : charged ⟨s', b'⟩ a p = charged w a p := by unfold charged; unfold State.funding? at hf; rw [hf]
      rw [e1, e2, hact]
      exact ⟨rfl, fun h => absurd h e, fun _ => rfl, fun _ => rfl⟩
  · intro d
    rw [hpaid d, hact]
    have : ∀ l', (∀ a ∈ l', a ∈ l) → ((w.s.activeFundings pool l').map (fun f => (f.charge w.s.params).amt d)).sum
        = (l'.map (fun a => (left w a pool).amt d - (left ⟨s', b'⟩ a pool).amt d)).sum := by
      intro l'
      unfold State.activeFundings
      induction l' with
      | nil => intro _; rfl
      | cons a t ih =>
        intro hm
        obtain ⟨f, hf0⟩ := h.listed pool l a hl (hm a (by simp))
        have hf := hfun a pool
        rw [if_pos ⟨rfl, hm a (by simp)⟩, hf0] at hf
        have hf' : (⟨s', b'⟩ : World).s.funding? a pool = some (f.charged w.s.params) := hf
        rw [List.filterMap_cons, hf0]
        simp only [List.map_cons, List.sum_cons]
        rw [ih (fun a ha => hm a (by simp [ha])), left_eq hf', left_eq hf0]
        have := charged_amounts w.s.params f d
        omega
    exact this l (fun _ ha => ha)
  · intro d
    have h1 := hbank (.mod .funders) d
    have h2 := hbank (.mod .pool) d
    have h3 := hI'.bal d
    have h4 := h.bal d
    simp only [if_true, reduceCtorEq, if_false, Acct.mod.injEq] at h1 h2
    obtain ⟨_, _, hsend⟩ : ∃ l : Unit, True ∧ paid.amt d ≤ (w.b (.mod .funders)).amt d := by
      refine ⟨(), trivial, ?_⟩
      rw [h4, hpaid d]
      have hk := charge_loop pool (w.s.activeFundings pool l) ⟨w.s, l, Coins.zero⟩ (h.toSInv.toWork hl)
        (h.activeFundings_spec hl).1 (h.activeFundings_spec hl).2
      have k4 := hk.2.2.2.2.1 d
      have k5 := hk.2.2.2.2.2.1 d
      simp only [Coins.amt_zero] at k4 k5
      omega
    constructor <;> omega
  · intro a h1 h2
    ext d
    have := hbank a d
    simpa [h1, h2] using this

example : exWorld.s.active.has 0 = true ∧ whitelisted exWorld kyve ∧ 1 ∈ activeIn exWorld 0 := by
  refine ⟨by decide +kernel, ⟨⟨kyve, 6, 1000000000, 100000, Dec.one⟩, by decide +kernel, rfl⟩, by decide +kernel⟩

/-! ## C35 -/

/-- C35, the part that holds: if a successful fund message takes away anything from another funder, then all 50 slots
of that pool were taken, the victim was active there, its score was the lowest of all and not above the new funder's
score, the victim lost nothing in other pools, got everything back, and was the only victim. -/
theorem C35_eviction_partial (gov : Addr) (w : World) (hw : Reachable gov w) (ok : Bool) (m : FundMsg) (s' : State)
    (b' : Bank) (hr : fundPool w.s w.b ok m = .ok (s', b')) (v : Addr) (hv : v ≠ m.creator) (p : Nat)
    (hc : left ⟨s', b'⟩ v p ≠ left w v p) :
    p = m.pool ∧ (activeIn w p).length = 50 ∧ v ∈ activeIn w p ∧
    (∃ x y, score w.s.params (left ⟨s', b'⟩ m.creator p) = some x ∧ score w.s.params (left w v p) = some y ∧ y ≤ x ∧
      ∀ a ∈ activeIn w p, ∃ z, score w.s.params (left w a p) = some z ∧ y ≤ z) ∧
    (∀ d, (left ⟨s', b'⟩ v p).amt d = 0) ∧ v ∉ activeIn ⟨s', b'⟩ p ∧
    (∀ d, (b' (.user v)).amt d = (w.b (.user v)).amt d + (left w v p).amt d) ∧
    (∀ u q, u ≠ m.creator → (u, q) ≠ (v, p) → left ⟨s', b'⟩ u q = left w u q) := by
  have h := hw.inv
  obtain ⟨l, f, wk, -, -, hl, hfc, hf1, hf2, hslot, hsend, rfl⟩ := fund_ok h hr
  have hact : activeIn w m.pool = l := by unfold activeIn; rw [hl]; rfl
  have hleft : ∀ u q, u ≠ m.creator → left ⟨(wk.s.setFunding f).setActive m.pool (setActive wk.l f.funder), b'⟩ u q
      = left ⟨wk.s, b'⟩ u q := by
    intro u q hu
    have := funding?_set wk.s f u q
    rw [if_neg (by rintro ⟨e, _⟩; exact hu (e.trans hf1))] at this
    unfold left
    unfold State.funding? at this
    show (match (wk.s.setFunding f).fundings.get? (u, q) with | some f => f.amounts | none => Coins.zero) = _
    rw [this]
  rw [hleft v p hv] at hc ⊢
  rcases ensureFreeSlot_ok hslot with ⟨rfl, -⟩ | ⟨low, x, y, b1, hm, hne, hfull, hx, hy, hxy, hmin, hb1, rfl⟩
  · exact absurd rfl hc
  · obtain ⟨hlow1, hlow2, hlow3⟩ := (h.activeFundings_spec hl).1 low hm
    obtain ⟨lf, lp, la, lpb, lt⟩ := low
    dsimp only at hc hleft hlow1 hlow2 hlow3 hne hy hb1 hsend ⊢
    subst hlow2
    have hset : ∀ u q, left ⟨w.s.setFunding ⟨lf, m.pool, Coins.zero, Coins.zero, lt⟩, b'⟩ u q
        = if u = lf ∧ q = m.pool then Coins.zero else left w u q := by
      intro u q
      have := funding?_set w.s ⟨lf, m.pool, Coins.zero, Coins.zero, lt⟩ u q
      unfold left
      unfold State.funding? at this
      rw [this]
      dsimp only
      by_cases e : u = lf ∧ q = m.pool
      · rw [if_pos e, if_pos e]
      · rw [if_neg e, if_neg e]
    rw [hset] at hc ⊢
    by_cases e : v = lf ∧ p = m.pool
    · obtain ⟨rfl, rfl⟩ := e
      have hlw : left w v m.pool = la := left_eq hlow1
      have hcreator : left ⟨((w.s.setFunding ⟨v, m.pool, Coins.zero, Coins.zero, lt⟩).setFunding
          f).setActive m.pool (setActive (setInactive l v) f.funder), b'⟩ m.creator m.pool = f.amounts := by
        refine left_eq ?_
        show ((w.s.setFunding ⟨v, m.pool, Coins.zero, Coins.zero, lt⟩).setFunding f).funding? m.creator m.pool = some f
        rw [funding?_set, if_pos ⟨hf1.symm, hf2.symm⟩]
      have hlen := h.activeFundings_length hl
      have hcap := h.cap _ _ hl
      have h50 : MaxFunders = 50 := rfl
      rw [hact]
      refine ⟨rfl, by omega, hlow3, ⟨x, y, ?_, ?_, hxy, ?_⟩, ?_, ?_, ?_, ?_⟩
      · rw [hcreator]; exact hx
      · rw [hlw]; exact hy
      · intro a ha
        obtain ⟨g, hg⟩ := h.listed _ l a hl ha
        rw [left_eq hg]
        exact hmin g (mem_activeFundings.2 ⟨a, ha, hg⟩)
      · intro d; rw [if_pos ⟨rfl, rfl⟩]; rfl
      · unfold activeIn
        simp only [State.setActive, Map.get?_set_self, Option.getD_some, mem_setActive,
          mem_setInactive (h.nodup _ _ hl)]
        rintro (h1 | h1)
        · exact h1.2 rfl
        · exact hne h1
      · intro d
        have h1 := (Bank.send_ok hb1).2 (.user v) d
        have h2 := (Bank.send_ok hsend).2 (.user v) d
        simp only [reduceCtorEq, if_false, if_true, Acct.user.injEq, hv] at h1 h2
        rw [hlw]
        omega
      · intro u q hu hne2
        rw [hleft u q hu, hset, if_neg]
        rintro ⟨e1, e2⟩
        exact hne2 (by rw [e1, e2])
    · rw [if_neg e] at hc
      exact absurd rfl hc

/-- 50 funders, all with the same funding -/
def fullOps : List Op :=
  [.poolCreated 0] ++ (List.range 51).map (fun i => Op.createFunder (i + 1)) ++
    (List.range 50).map (fun i => .fund true ⟨i + 1, 0, Coins.single kyve 3000000000, Coins.single kyve 2000000⟩)

def fullWorld : World := run 9 (World.init exBank) fullOps

/-- witness for the hypotheses of `C35_eviction_partial`, and C35 is false as stated: a new funder with an *equal* score
evicts another one. -/
theorem C35_false_equal_score : ∃ s' b', fundPool fullWorld.s fullWorld.b true
      ⟨51, 0, Coins.single kyve 3000000000, Coins.single kyve 2000000⟩ = .ok (s', b') ∧
    left ⟨s', b'⟩ 51 0 = left fullWorld 1 0 ∧ left ⟨s', b'⟩ 1 0 ≠ left fullWorld 1 0 := by
  have h : (match fundPool fullWorld.s fullWorld.b true
      ⟨51, 0, Coins.single kyve 3000000000, Coins.single kyve 2000000⟩ with
      | .ok r => decide (left ⟨r.1, r.2⟩ 51 0 = left fullWorld 1 0 ∧ left ⟨r.1, r.2⟩ 1 0 ≠ left fullWorld 1 0)
      | .error _ => false) = true := by decide +kernel
  split at h
  · rename_i r hr
    exact ⟨r.1, r.2, hr, of_decide_eq_true h⟩
  · cases h

/-- C35 is false as stated: a funder who already has a slot and only tops up its own funding evicts the lowest funder,
although no slot is needed. -/
theorem C35_false_topup : ∃ s' b', 50 ∈ activeIn fullWorld 0 ∧ fundPool fullWorld.s fullWorld.b true
      ⟨50, 0, Coins.single kyve 1, Coins.zero⟩ = .ok (s', b') ∧
    (activeIn ⟨s', b'⟩ 0).length = 49 ∧ (∀ d, (left ⟨s', b'⟩ 1 0).amt d = 0) ∧ (left fullWorld 1 0).amt kyve ≠ 0 := by
  have h : (match fundPool fullWorld.s fullWorld.b true ⟨50, 0, Coins.single kyve 1, Coins.zero⟩ with
      | .ok r => decide (50 ∈ activeIn fullWorld 0 ∧ (activeIn ⟨r.1, r.2⟩ 0).length = 49 ∧
          (left ⟨r.1, r.2⟩ 1 0).isZero = true ∧ (left fullWorld 1 0).amt kyve ≠ 0)
      | .error _ => false) = true := by decide +kernel
  split at h
  · rename_i r hr
    obtain ⟨h1, h2, h3, h4⟩ := of_decide_eq_true h
    exact ⟨r.1, r.2, h1, hr, h2, Coins.isZero_iff.1 h3, h4⟩
  · cases h

/-! ## C36 -/

/-- C36: a successful defund message pays the funder, of every coin, exactly the lesser of the requested amount and
what it has left in that pool, lowers its funding by the same, and changes nobody else's funding or balance. -/
theorem C36_defund (gov : Addr) (w : World) (hw : Reachable gov w) (m : DefundMsg) (s' : State) (b' : Bank)
    (hr : defundPool w.s w.b m = .ok (s', b')) :
    (∀ d, (left ⟨s', b'⟩ m.creator m.pool).amt d
      = (left w m.creator m.pool).amt d - min ((left w m.creator m.pool).amt d) (m.amounts.amt d)) ∧
    (∀ d, (b' (.user m.creator)).amt d
      = (w.b (.user m.creator)).amt d + min ((left w m.creator m.pool).amt d) (m.amounts.amt d)) ∧
    (∀ a p, (a, p) ≠ (m.creator, m.pool) → left ⟨s', b'⟩ a p = left w a p) ∧
    (∀ a p, charged ⟨s', b'⟩ a p = charged w a p) ∧
    (∀ a, a ≠ .user m.creator → a ≠ .mod .funders → b' a = w.b a) := by
  have h := hw.inv
  obtain ⟨l, f, f', hf, hl, -, hf', hsend, rfl⟩ := defund_ok hr
  have hk := h.key _ _ hf
  simp only [Prod.mk.injEq] at hk
  have e1 : f'.funder = m.creator := by rw [hf']; exact hk.1
  have e2 : f'.pool = m.pool := by rw [hf']; exact hk.2
  have hg := fun a p => funding?_set w.s f' a p
  have hs := (Bank.send_ok hsend).2
  set s' := (w.s.setFunding f').setActive m.pool (if f'.amounts.isZero then setInactive l f'.funder else l) with hs'
  have hg' : ∀ a p, (⟨s', b'⟩ : World).s.funding? a p = if a = m.creator ∧ p = m.pool then some f' else w.s.funding? a p := by
    intro a p
    rw [← e1, ← e2]; exact hg a p
  refine ⟨?_, ?_, ?_, ?_, ?_⟩
  · intro d
    have := hg' m.creator m.pool
    rw [if_pos ⟨rfl, rfl⟩] at this
    rw [left_eq this, left_eq hf, hf', clean_amounts]
    show (f.amounts.sub (f.amounts.min m.amounts)).amt d = _
    rw [Coins.amt_sub, Coins.amt_min]
  · intro d
    have := hs (.user m.creator) d
    simp only [reduceCtorEq, if_false, if_true, Coins.amt_min] at this
    rw [left_eq hf, this]
    rfl
  · intro a p hne
    have := hg' a p
    rw [if_neg (by rintro ⟨rfl, rfl⟩; exact hne rfl)] at this
    unfold left
    unfold State.funding? at this
    rw [this]
  · intro a p
    have := hg' a p
    by_cases e : a = m.creator ∧ p = m.pool
    · rw [if_pos e] at this
      rw [charged_eq this, e.1, e.2, charged_eq hf, hf']
      rfl
    · rw [if_neg e] at this
      unfold charged
      unfold State.funding? at this
      rw [this]
  · intro a h1 h2
    ext d
    have := hs a d
    simpa [h1, h2] using this

/-- C36: whoever has coins left in a pool can always get all of them back, whatever the parameters are by then and
whatever happened to the whitelist. -/
theorem C36_withdraw_all (gov : Addr) (w : World) (hw : Reachable gov w) (a : Addr) (p : Nat)
    (hne : ∃ d, (left w a p).amt d ≠ 0) :
    ∃ s' b', defundPool w.s w.b ⟨a, p, left w a p⟩ = .ok (s', b') ∧
      (∀ d, (b' (.user a)).amt d = (w.b (.user a)).amt d + (left w a p).amt d) ∧
      (∀ d, (left ⟨s', b'⟩ a p).amt d = 0) ∧ a ∉ activeIn ⟨s', b'⟩ p := by
  have h := hw.inv
  obtain ⟨d0, hd0⟩ := hne
  cases hf : w.s.funding? a p with
  | none =>
    exfalso
    unfold left at hd0
    unfold State.funding? at hf
    rw [hf] at hd0
    exact hd0 rfl
  | some f =>
    have hlf := left_eq hf
    rw [hlf] at hd0 ⊢
    have hk := h.key _ _ hf
    simp only [Prod.mk.injEq] at hk
    obtain ⟨l, hl⟩ := h.has a p f hf
    have hmin : f.amounts.min f.amounts = f.amounts := by
      ext d; rw [Coins.amt_min]; exact Nat.min_self _
    have hz : f.amounts.isZero = false := Coins.isZero_false_iff.2 ⟨d0, hd0⟩
    have hens := ensureParams_empty w.s.params { f with amounts := f.amounts.sub f.amounts } (by
      intro d
      show (f.amounts.sub f.amounts).amt d = 0
      rw [Coins.amt_sub]; omega)
    obtain ⟨b', hb'⟩ := Bank.send_succeeds (b := w.b) (s := .mod .funders) (t := .user a) (c := f.amounts) (by
      intro d
      rw [h.bal d]
      exact Nat.le_trans (Map.le_sum w.s.fundings (fun _ f => f.amounts.amt d) hf) (Nat.le_add_right _ _))
    have hr : ∃ s', defundPool w.s w.b ⟨a, p, f.amounts⟩ = .ok (s', b') := by
      unfold defundPool finishDefund
      simp only [hf, hl, hmin, hz, hens, hb']
      exact ⟨_, rfl⟩
    obtain ⟨s', hs'⟩ := hr
    have hd := C36_defund gov w hw ⟨a, p, f.amounts⟩ s' b' hs'
    simp only [hlf, Nat.min_self] at hd
    refine ⟨s', b', hs', hd.2.1, fun d => by rw [hd.1 d]; omega, ?_⟩
    obtain ⟨l', g, f', hg, hl', -, hf', -, rfl⟩ := defund_ok hs'
    simp only at hg hl' hf'
    rw [hf] at hg; cases hg
    rw [hl] at hl'; cases hl'
    have hzz : f'.amounts.isZero = true := by
      rw [hf', clean_amounts]
      apply Coins.isZero_iff.2
      intro d
      show (f.amounts.sub (f.amounts.min f.amounts)).amt d = 0
      rw [hmin, Coins.amt_sub]; omega
    unfold activeIn
    simp only [State.setActive, Map.get?_set_self, Option.getD_some, hzz, if_true]
    rw [mem_setInactive (h.nodup _ _ hl)]
    intro hh
    apply hh.2
    rw [hf']; exact hk.1.symm

example : ∃ d, (left exWorld 1 0).amt d ≠ 0 := ⟨kyve, by decide +kernel⟩
example : ∃ s' b', defundPool exWorld.s exWorld.b ⟨1, 0, Coins.single kyve 1000⟩ = .ok (s', b') := by
  have h : (defundPool exWorld.s exWorld.b ⟨1, 0, Coins.single kyve 1000⟩).isOk = true := by decide +kernel
  cases hr : defundPool exWorld.s exWorld.b ⟨1, 0, Coins.single kyve 1000⟩ with
  | ok r => exact ⟨r.1, r.2, rfl⟩
  | error e => rw [hr] at h; cases h

/-! ## C52 -/

/-- C52: a parameter update from anyone but governance changes nothing. -/
theorem C52_funders_params (gov : Addr) (w : World) (a : Addr) (ha : a ≠ gov) (y : ParamsPayload) :
    step gov w (.updateParams a y) = w := by
  have h : gov ≠ a := fun e => ha e.symm
  simp only [step, updateParams]
  split
  · rfl
  · rfl

end Verif.Funders
