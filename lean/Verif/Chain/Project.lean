import Verif.Chain.Steps

/-!
# The modules inside the chain

A history of the chain, seen from one module, is a history of that module: whatever the rest of the chain does is its
`external` action.  So the theorems about the modules hold in every reachable state of the chain.
-/

set_option linter.dupNamespace false
namespace Verif.Chain
open Verif
open Verif.Bundles (Proposal VoteDist)

/-- the side conditions of a history: the rounding errors of the delegation shares stay below one token (as in
`Delegation.Sys.Reachable`), and all delegations together stay below `2^63` (there are `10^15` ukyve) -/
structure Sane (c : Chain) : Prop where
  calm : Delegation.Calm c.del
  small : Delegation.totalAll c.del < 2 ^ 63

/-- The histories of the chain: empty modules with any valid parameters, then any operations. -/
inductive Reachable (gov : Addr) : Chain → Prop
  | init (dp : Delegation.Params) (sp : Stakers.Params) (bp : Bundles.Params) (b : Bank) (now : Nat) :
      dp.validate = true → bp.validate = true → Reachable gov (Chain.init dp sp bp b now)
  | step {c : Chain} (op : Chain.Op) : Reachable gov c → Sane (c.step gov op) → Reachable gov (c.step gov op)

/-! ## small steps and the history of x/delegation -/

namespace Chain

theorem register_eq (c : Chain) (m : SubmitMsg) (n : Option Addr) : ∃ s, c.register m n = { c with bun := s } := by
  unfold register
  split
  · exact ⟨c.bun, rfl⟩
  · exact ⟨_, rfl⟩

theorem finalize_eq (c : Chain) (id : Nat) (v : VoteDist) :
    ∃ s s', c.finalize id v = { c with bun := s, pool := s' } := by
  unfold finalize
  split
  · exact ⟨c.bun, c.pool, rfl⟩
  · exact ⟨_, _, rfl⟩

end Chain

open Chain

theorem bundlesParams_eq (gov : Addr) (c : Chain) (a : Addr) (y : Bundles.ParamsPayload) :
    ∃ s, (Micro.bundlesParams a y).run gov c = { c with bun := s } := by
  show ∃ s, c.orElse _ = _
  cases Bundles.updateParams gov c.bun a y with
  | error e => exact ⟨c.bun, rfl⟩
  | ok s => exact ⟨s, rfl⟩

theorem join_eq {c c' : Chain} {m : Stakers.JoinMsg} (h : c.join m = .ok c') :
    ∃ w, Stakers.joinPool c.sw c.now (c.poolAnswer m.pool) c.del.amount m = .ok w ∧
      c' = (c.withSt (Stakers.noteGift m c.sw w)).noteGifts m := by
  unfold Chain.join at h
  split at h
  · cases h
  · rename_i w hw; cases h; exact ⟨w, hw, rfl⟩

theorem createPool_eq {gov : Addr} {c c' : Chain} {m : Pool.CreateMsg} (h : Chain.createPool gov c m = .ok c') :
    ∃ s, Pool.create gov c.pool c.now m = .ok s ∧
      c' = { c with pool := s, fund := c.fund.createFundingState c.pool.count } := by
  unfold Chain.createPool at h
  split at h
  · cases h
  · rename_i s hs; cases h; exact ⟨s, hs, rfl⟩

theorem micro_later {gov : Addr} {c : Chain} (μ : Micro) :
    Delegation.Later c.del.trace (μ.run gov c).del.trace := by
  cases μ with
  | del act => exact Delegation.step_later gov ⟨c.dw, c.now⟩ act
  | st op => exact .refl _
  | join m =>
    show Delegation.Later _ (c.orElse (c.join m)).del.trace
    cases h : c.join m with
    | error e => exact .refl _
    | ok c' => obtain ⟨w, -, rfl⟩ := join_eq h; exact .refl _
  | fund op => exact .refl _
  | pool op => exact .refl _
  | createPool m =>
    show Delegation.Later _ (c.orElse (Chain.createPool gov c m)).del.trace
    cases h : Chain.createPool gov c m with
    | error e => exact .refl _
    | ok c' => obtain ⟨w, -, rfl⟩ := createPool_eq h; exact .refl _
  | pay b h => exact .refl _
  | blank id n => exact .refl _
  | next id n t => exact .refl _
  | cast id a v => exact .refl _
  | register m n =>
    obtain ⟨s, e⟩ := register_eq c m n
    show Delegation.Later _ (c.register m n).del.trace
    rw [e]; exact .refl _
  | progress id l => exact .refl _
  | finalize id v =>
    obtain ⟨s, s', e⟩ := finalize_eq c id v
    show Delegation.Later _ (c.finalize id v).del.trace
    rw [e]; exact .refl _
  | bundlesParams a y => obtain ⟨s, e⟩ := bundlesParams_eq gov c a y; rw [e]; exact .refl _
  | block dt r => exact Delegation.step_later gov ⟨c.dw, c.now⟩ (.beginBlock dt r)
  | external b gd gs gf => exact .refl _
  | crash => exact .refl _

theorem steps_later {gov : Addr} {c c' : Chain} (h : Steps gov c c') : Delegation.Later c.del.trace c'.del.trace := by
  induction h with
  | refl => exact .refl _
  | tail μ _ _ ih => exact ih.trans (micro_later μ)

/-- an invariant of small steps is one of sequences; x/delegation is calm before because it is calm afterwards -/
theorem Steps.invariant {gov : Addr} {P : Chain → Prop}
    (hP : ∀ c μ, P c → Micro.Ok gov c μ → Delegation.Calm (Micro.run gov c μ).del → P (Micro.run gov c μ))
    {c c' : Chain} (h : Steps gov c c') (hc : Delegation.Calm c'.del) (h0 : P c) : P c' := by
  induction h with
  | refl => exact h0
  | tail μ hs ho ih => exact hP _ μ (ih ((micro_later μ).calm hc)) ho hc

/-! ## x/delegation -/

theorem outside {m n : Mod} (h : n ≠ m) (h1 : n ≠ .pool) (h2 : n ≠ .treasury) : Outside m (.mod n) :=
  ⟨fun e => h (by injection e), fun e => h1 (by injection e), fun e => h2 (by injection e), fun u e => by cases e⟩

/-- x/delegation, as seen in the chain -/
def DelR (gov : Addr) (c : Chain) : Prop := Delegation.Sys.Reachable gov ⟨c.dw, c.now⟩

theorem del_gift {gov : Addr} {s : Delegation.State} {b b' : Bank} {now : Nat} (g : Coins)
    (h : Delegation.Sys.Reachable gov ⟨⟨s, b⟩, now⟩) (hc : Delegation.Calm s)
    (hb : b' (.mod .delegation) = (b (.mod .delegation)).add g) :
    Delegation.Sys.Reachable gov ⟨⟨{ s with gifts := s.gifts.add g }, b'⟩, now⟩ := by
  have := Delegation.Sys.Reachable.step (.external b' g) h hc
  have e : ((⟨⟨s, b⟩, now⟩ : Delegation.Sys).step gov (.external b' g)) =
      ⟨⟨{ s with gifts := s.gifts.add g }, b'⟩, now⟩ := by
    show (⟨⟨_, fun a => if a = .mod .delegation then (b a).add g else b' a⟩, now⟩ : Delegation.Sys) = _
    have : (fun a => if a = Acct.mod .delegation then (b a).add g else b' a) = b' := by
      funext a
      split
      · rename_i ha; rw [ha, hb]
      · rfl
    rw [this]
  rw [e] at this
  exact this

theorem del_ext {gov : Addr} {s : Delegation.State} {b b' : Bank} {now : Nat}
    (h : Delegation.Sys.Reachable gov ⟨⟨s, b⟩, now⟩) (hc : Delegation.Calm s)
    (hb : b' (.mod .delegation) = b (.mod .delegation)) :
    Delegation.Sys.Reachable gov ⟨⟨s, b'⟩, now⟩ := by
  have := del_gift (b' := b') Coins.zero h hc (by rw [Coins.add_zero]; exact hb)
  rw [Coins.add_zero] at this
  exact this

theorem join_bal {c : Chain} {m : Stakers.JoinMsg} {w : Stakers.World}
    (h : Stakers.joinPool c.sw c.now (c.poolAnswer m.pool) c.del.amount m = .ok w) (x : Mod) :
    (Stakers.noteGift m c.sw w).b (.mod x) = (c.b (.mod x)).add (gift m (.mod x)) := by
  have hn : (Stakers.noteGift m c.sw w).b = w.b := by unfold Stakers.noteGift; split <;> rfl
  rw [hn]
  have hs := (Bank.send_ok (Stakers.joinPool_send h)).2 (.mod x)
  ext d
  rw [hs d, Coins.amt_add]
  unfold gift
  have h1 : (Acct.mod x = .user m.creator) = False := by simp
  simp only [h1, if_false, Nat.sub_zero]
  by_cases e : m.dst = .mod x
  · simp [e, Chain.sw]
  · have e' : ¬ (Acct.mod x = m.dst) := fun he => e he.symm
    simp [e, e', Chain.sw]

theorem DelR.micro {gov : Addr} {c : Chain} (μ : Micro) (h : DelR gov c) (ho : μ.Ok gov c)
    (hc : Delegation.Calm (μ.run gov c).del) : DelR gov (μ.run gov c) := by
  have hc0 : Delegation.Calm c.del := (micro_later μ).calm hc
  cases μ with
  | del act =>
    have h1 := Delegation.Sys.Reachable.step act h hc
    have e : ((⟨c.dw, c.now⟩ : Delegation.Sys).step gov act).now = c.now := by
      cases act <;> first | rfl | exact ho.elim
    show Delegation.Sys.Reachable gov ⟨((⟨c.dw, c.now⟩ : Delegation.Sys).step gov act).w, c.now⟩
    have e2 : (⟨((⟨c.dw, c.now⟩ : Delegation.Sys).step gov act).w, c.now⟩ : Delegation.Sys) =
        (⟨c.dw, c.now⟩ : Delegation.Sys).step gov act := by
      generalize (⟨c.dw, c.now⟩ : Delegation.Sys).step gov act = y at e
      obtain ⟨w, n⟩ := y; cases e; rfl
    rw [e2]; exact h1
  | st op =>
    refine del_ext h hc0 (Stakers.step_frame (outside (by decide) (by decide) (by decide)) gov ⟨c.sw, c.now⟩ op ?_)
    cases op <;> first | rfl | exact ho.elim
  | join m =>
    obtain ⟨-, c', h'⟩ := ho
    obtain ⟨w, hw, rfl⟩ := join_eq h'
    have e : (Micro.join m).run gov c = (c.withSt (Stakers.noteGift m c.sw w)).noteGifts m := by
      show c.orElse (c.join m) = _
      rw [h']; rfl
    rw [e]
    exact del_gift (gift m (.mod .delegation)) h hc0 (join_bal hw .delegation)
  | fund op =>
    refine del_ext h hc0 (Funders.step_frame (outside (by decide) (by decide) (by decide)) gov c.fw op ?_)
    cases op <;> first | rfl | exact ho.elim
  | pool op => exact h
  | createPool m =>
    obtain ⟨c', h'⟩ := ho
    obtain ⟨s, hs, rfl⟩ := createPool_eq h'
    have e : (Micro.createPool m).run gov c = { c with pool := s, fund := c.fund.createFundingState c.pool.count } := by
      show c.orElse (Chain.createPool gov c m) = _
      rw [h']; rfl
    rw [e]; exact h
  | pay b hl => exact del_ext h hc0 ho.del
  | blank id n => exact h
  | next id n t => exact h
  | cast id a v => exact h
  | register m n =>
    obtain ⟨s, e⟩ := register_eq c m n
    show DelR gov (c.register m n)
    rw [e]; exact h
  | progress id l => exact h
  | finalize id v =>
    obtain ⟨s, s', e⟩ := finalize_eq c id v
    show DelR gov (c.finalize id v)
    rw [e]; exact h
  | bundlesParams a y => obtain ⟨s, e⟩ := bundlesParams_eq gov c a y; rw [e]; exact h
  | block dt r => exact Delegation.Sys.Reachable.step (.beginBlock dt r) h hc
  | external b gd gs gf =>
    exact del_gift gd h hc0 rfl
  | crash => exact h

/-! ## x/stakers -/

/-- x/stakers, as seen in the chain -/
def StR (gov : Addr) (c : Chain) : Prop := Stakers.Reachable gov ⟨c.sw, c.now⟩

theorem st_gift {gov : Addr} {s : Stakers.State} {b b' : Bank} {now : Nat} (g : Coins)
    (h : Stakers.Reachable gov ⟨⟨s, b⟩, now⟩) (hb : b' (.mod .stakers) = (b (.mod .stakers)).add g) :
    Stakers.Reachable gov ⟨⟨{ s with gifts := s.gifts.add g }, b'⟩, now⟩ := by
  have := Stakers.Reachable.step h (.external b' g) trivial
  have e : (Stakers.Sys.step gov (⟨⟨s, b⟩, now⟩ : Stakers.Sys) (.external b' g)) =
      ⟨⟨{ s with gifts := s.gifts.add g }, b'⟩, now⟩ := by
    show (⟨⟨_, fun a => if a = .mod .stakers then (b a).add g else b' a⟩, now⟩ : Stakers.Sys) = _
    have : (fun a => if a = Acct.mod .stakers then (b a).add g else b' a) = b' := by
      funext a
      split
      · rename_i ha; rw [ha, hb]
      · rfl
    rw [this]
  rw [e] at this
  exact this

theorem st_ext {gov : Addr} {s : Stakers.State} {b b' : Bank} {now : Nat}
    (h : Stakers.Reachable gov ⟨⟨s, b⟩, now⟩) (hb : b' (.mod .stakers) = b (.mod .stakers)) :
    Stakers.Reachable gov ⟨⟨s, b'⟩, now⟩ := by
  have := st_gift (b' := b') Coins.zero h (by rw [Coins.add_zero]; exact hb)
  rw [Coins.add_zero] at this
  exact this

theorem StR.micro {gov : Addr} {c : Chain} (μ : Micro) (h : StR gov c) (ho : μ.Ok gov c) : StR gov (μ.run gov c) := by
  cases μ with
  | del act =>
    refine st_ext h (Delegation.step_frame (outside (by decide) (by decide) (by decide)) gov ⟨c.dw, c.now⟩ act ?_)
    cases act <;> first | rfl | exact ho.elim
  | st op =>
    have h1 := Stakers.Reachable.step h op (by cases op <;> first | trivial | exact ho.elim)
    have e : (Stakers.Sys.step gov ⟨c.sw, c.now⟩ op).now = c.now := by
      cases op <;> first | rfl | exact ho.elim
    show Stakers.Reachable gov ⟨(Stakers.Sys.step gov ⟨c.sw, c.now⟩ op).w, c.now⟩
    have e2 : (⟨(Stakers.Sys.step gov ⟨c.sw, c.now⟩ op).w, c.now⟩ : Stakers.Sys) =
        Stakers.Sys.step gov ⟨c.sw, c.now⟩ op := by
      generalize Stakers.Sys.step gov ⟨c.sw, c.now⟩ op = y at e
      obtain ⟨w, n⟩ := y; cases e; rfl
    rw [e2]; exact h1
  | join m =>
    obtain ⟨ha, c', h'⟩ := ho
    obtain ⟨w, hw, rfl⟩ := join_eq h'
    have e : (Micro.join m).run gov c = (c.withSt (Stakers.noteGift m c.sw w)).noteGifts m := by
      show c.orElse (c.join m) = _
      rw [h']; rfl
    rw [e]
    have h1 := Stakers.Reachable.step h (.join (c.poolAnswer m.pool) c.del.amount m) ha
    have e2 : Stakers.Sys.step gov ⟨c.sw, c.now⟩ (.join (c.poolAnswer m.pool) c.del.amount m) =
        ⟨Stakers.noteGift m c.sw w, c.now⟩ := by
      show (⟨Stakers.joinStep c.sw c.now (c.poolAnswer m.pool) c.del.amount m, c.now⟩ : Stakers.Sys) = _
      unfold Stakers.joinStep
      rw [hw]
    rw [e2] at h1
    exact h1
  | fund op =>
    refine st_ext h (Funders.step_frame (outside (by decide) (by decide) (by decide)) gov c.fw op ?_)
    cases op <;> first | rfl | exact ho.elim
  | pool op => exact h
  | createPool m =>
    obtain ⟨c', h'⟩ := ho
    obtain ⟨s, hs, rfl⟩ := createPool_eq h'
    have e : (Micro.createPool m).run gov c = { c with pool := s, fund := c.fund.createFundingState c.pool.count } := by
      show c.orElse (Chain.createPool gov c m) = _
      rw [h']; rfl
    rw [e]; exact h
  | pay b hl => exact st_ext h ho.st
  | blank id n => exact h
  | next id n t => exact h
  | cast id a v => exact h
  | register m n =>
    obtain ⟨s, e⟩ := register_eq c m n
    show StR gov (c.register m n)
    rw [e]; exact h
  | progress id l => exact h
  | finalize id v =>
    obtain ⟨s, s', e⟩ := finalize_eq c id v
    show StR gov (c.finalize id v)
    rw [e]; exact h
  | bundlesParams a y => obtain ⟨s, e⟩ := bundlesParams_eq gov c a y; rw [e]; exact h
  | block dt r =>
    have h1 := Stakers.Reachable.step h (.beginBlock dt) trivial
    exact st_ext (b := c.b) h1
      (Delegation.beginBlock_frame (outside (by decide) (by decide) (by decide)) c.dw (c.now + dt) r)
  | external b gd gs gf =>
    exact st_gift gs h rfl
  | crash => exact h

/-! ## x/pool -/

/-- x/pool, as seen in the chain -/
def PoolR (gov : Addr) (c : Chain) : Prop := Pool.Spec.Reachable gov c.pool

theorem pool_step {gov : Addr} {s : Pool.State} (h : Pool.Spec.Reachable gov s) (now : Nat) (op : Pool.Op) :
    Pool.Spec.Reachable gov (Pool.step gov s now op) := by
  obtain ⟨ops, rfl⟩ := h
  exact ⟨ops ++ [(now, op)], by rw [Pool.run_snoc]⟩

theorem PoolR.micro {gov : Addr} {c : Chain} (μ : Micro) (h : PoolR gov c) : PoolR gov (μ.run gov c) := by
  cases μ with
  | del act => exact h
  | st op => exact h
  | join m =>
    show PoolR gov (c.orElse (c.join m))
    cases h' : c.join m with
    | error e => exact h
    | ok c' => obtain ⟨w, -, rfl⟩ := join_eq h'; exact h
  | fund op => exact h
  | pool op => exact pool_step h c.now op
  | createPool m =>
    show PoolR gov (c.orElse (Chain.createPool gov c m))
    cases h' : Chain.createPool gov c m with
    | error e => exact h
    | ok c' =>
      obtain ⟨s, hs, rfl⟩ := createPool_eq h'
      have := pool_step h c.now (.create m)
      have e : Pool.step gov c.pool c.now (.create m) = s := by
        show Pool.orElse c.pool (Pool.create gov c.pool c.now m) = s
        rw [hs]; rfl
      rw [e] at this; exact this
  | pay b hl => exact h
  | blank id n => exact h
  | next id n t => exact h
  | cast id a v => exact h
  | register m n =>
    obtain ⟨s, e⟩ := register_eq c m n
    show PoolR gov (c.register m n)
    rw [e]; exact h
  | progress id l => exact h
  | finalize id v =>
    show PoolR gov (c.finalize id v)
    unfold finalize
    split
    · exact h
    · rename_i pl _
      exact pool_step h c.now (.bundleFinalized id _ _ _)
  | bundlesParams a y => obtain ⟨s, e⟩ := bundlesParams_eq gov c a y; rw [e]; exact h
  | block dt r => exact h
  | external b gd gs gf => exact h
  | crash => exact h

/-! ## x/funders -/

/-- x/funders, as seen in the chain; every pool has a funding state -/
structure FundR (gov : Addr) (c : Chain) : Prop where
  reach : Funders.Spec.Reachable gov c.fw
  active : ∀ id, c.fund.active.has id = true ↔ id < c.pool.count

theorem fund_step {gov : Addr} {w : Funders.World} (h : Funders.Spec.Reachable gov w) (op : Funders.Op) :
    Funders.Spec.Reachable gov (Funders.step gov w op) := by
  obtain ⟨b, ops, rfl⟩ := h
  exact ⟨b, ops ++ [op], by rw [Funders.run_snoc]⟩

theorem fund_gift {gov : Addr} {s : Funders.State} {b b' : Bank} (g : Coins)
    (h : Funders.Spec.Reachable gov ⟨s, b⟩) (hb : b' (.mod .funders) = (b (.mod .funders)).add g) :
    Funders.Spec.Reachable gov ⟨{ s with gifts := s.gifts.add g }, b'⟩ := by
  have := fund_step h (.external b' g)
  have e : (Funders.step gov (⟨s, b⟩ : Funders.World) (.external b' g)) =
      ⟨{ s with gifts := s.gifts.add g }, b'⟩ := by
    show (⟨_, fun a => if a = .mod .funders then (b a).add g else b' a⟩ : Funders.World) = _
    have : (fun a => if a = Acct.mod .funders then (b a).add g else b' a) = b' := by
      funext a
      split
      · rename_i ha; rw [ha, hb]
      · rfl
    rw [this]
  rw [e] at this
  exact this

theorem fund_ext {gov : Addr} {s : Funders.State} {b b' : Bank}
    (h : Funders.Spec.Reachable gov ⟨s, b⟩) (hb : b' (.mod .funders) = b (.mod .funders)) :
    Funders.Spec.Reachable gov ⟨s, b'⟩ := by
  have := fund_gift (b' := b') Coins.zero h (by rw [Coins.add_zero]; exact hb)
  rw [Coins.add_zero] at this
  exact this

theorem set_has {m : Map Nat (List Addr)} {k : Nat} {l l' : List Addr} (h : m.get? k = some l) (id : Nat) :
    (m.set k l').has id = m.has id := by
  rw [Stakers.has_set]
  by_cases e : id = k
  · subst e
    have : m.has id = true := (Stakers.has_iff _ _).2 ⟨l, h⟩
    simp [this]
  · simp [e]

/-- only the creation of a pool makes a funding state -/
theorem fund_active {gov : Addr} {w : Funders.World} (hI : Funders.Inv w) {op : Funders.Op}
    (ho : ∀ id, op ≠ .poolCreated id) (id : Nat) :
    (Funders.step gov w op).s.active.has id = w.s.active.has id := by
  cases op with
  | createFunder a =>
    show (Funders.orElseS w (Funders.createFunder w.s a)).s.active.has id = _
    unfold Funders.createFunder
    split <;> rfl
  | poolCreated i => exact absurd rfl (ho i)
  | fund ok m =>
    show (Funders.orElse w (Funders.fundPool w.s w.b ok m)).s.active.has id = _
    cases hr : Funders.fundPool w.s w.b ok m with
    | error e => rfl
    | ok r =>
      obtain ⟨l, f, wk, -, -, hl, -, -, -, hslot, -, hs⟩ := Funders.fund_ok (s' := r.1) (b' := r.2) hI hr
      show r.1.active.has id = _
      rw [hs]
      have hw : wk.s.active = w.s.active := by
        rcases Funders.ensureFreeSlot_ok hslot with ⟨rfl, -⟩ | ⟨low, x, y, b', -, -, -, -, -, -, -, hb, rfl⟩ <;> rfl
      show (wk.s.active.set m.pool _).has id = _
      rw [hw, set_has hl]
  | defund m =>
    show (Funders.orElse w (Funders.defundPool w.s w.b m)).s.active.has id = _
    cases hr : Funders.defundPool w.s w.b m with
    | error e => rfl
    | ok r =>
      obtain ⟨l, f, f', -, hl, -, -, -, hs⟩ := Funders.defund_ok (s' := r.1) (b' := r.2) hr
      show r.1.active.has id = _
      rw [hs]
      exact set_has hl id
  | charge i =>
    show (Funders.orElseC w (Funders.chargeFundersOfPool w.s w.b i)).s.active.has id = _
    cases hl : w.s.active.get? i with
    | none => unfold Funders.chargeFundersOfPool; rw [hl]; rfl
    | some l =>
      unfold Funders.chargeFundersOfPool
      rw [hl]
      simp only
      split
      · rfl
      · split
        · rfl
        · rename_i b' hb
          have hsp := Funders.SInv.activeFundings_spec hI.toSInv hl
          have hloop := Funders.charge_loop i (w.s.activeFundings i l) ⟨w.s, l, Coins.zero⟩ (hI.toSInv.toWork hl)
            hsp.1 hsp.2
          have ha : ((w.s.activeFundings i l).foldl Funders.chargeOne ⟨w.s, l, Coins.zero⟩).s.active = w.s.active :=
            hloop.2.2.1
          show (((w.s.activeFundings i l).foldl Funders.chargeOne ⟨w.s, l, Coins.zero⟩).s.active.set i _).has id = _
          rw [ha]
          exact set_has hl id
  | updateParams a p =>
    show (Funders.orElseS w (Funders.updateParams gov w.s a p)).s.active.has id = _
    unfold Funders.updateParams
    split
    · rfl
    · split <;> rfl
  | external b g => rfl

/-- only the creation of a pool changes the number of pools -/
theorem pool_count {gov : Addr} {s : Pool.State} (hI : Pool.Inv s) (now : Nat) {op : Pool.Op}
    (ho : ∀ m, op ≠ .create m) : (Pool.step gov s now op).count = s.count := by
  have h1 := fun k => (hI.dense k).symm
  cases op with
  | create m => exact absurd rfl (ho m)
  | update a id u =>
    show (Pool.orElse s (Pool.update gov s a id u)).count = _
    unfold Pool.update
    repeat' split
    all_goals rfl
  | enable a id =>
    show (Pool.orElse s (Pool.enable gov s a id)).count = _
    unfold Pool.enable
    repeat' split
    all_goals rfl
  | disable a id =>
    show (Pool.orElse s (Pool.disable gov s a id)).count = _
    unfold Pool.disable
    repeat' split
    all_goals rfl
  | schedule m =>
    show (Pool.orElse s (Pool.schedule gov s now m)).count = _
    unfold Pool.schedule
    repeat' split
    all_goals rfl
  | cancel a r =>
    show (Pool.orElse s (Pool.cancel gov s a r)).count = _
    unfold Pool.cancel
    repeat' split
    all_goals rfl
  | updateParams a y =>
    show (Pool.orElse s (Pool.updateParams gov s a y)).count = _
    unfold Pool.updateParams
    repeat' split
    all_goals rfl
  | bundleFinalized id i k sm =>
    show (Pool.incrementBundleInformation s id i k sm).count = _
    unfold Pool.incrementBundleInformation
    split <;> rfl
  | endBlock => rfl

theorem FundR.micro {gov : Addr} {c : Chain} (μ : Micro) (h : FundR gov c) (hp : PoolR gov c) (ho : μ.Ok gov c) :
    FundR gov (μ.run gov c) := by
  have hI := h.reach.inv
  have hPI : Pool.Inv c.pool := hp.inv
  cases μ with
  | del act =>
    refine ⟨fund_ext h.reach
      (Delegation.step_frame (outside (by decide) (by decide) (by decide)) gov ⟨c.dw, c.now⟩ act ?_), h.active⟩
    cases act <;> first | rfl | exact ho.elim
  | st op =>
    refine ⟨fund_ext h.reach
      (Stakers.step_frame (outside (by decide) (by decide) (by decide)) gov ⟨c.sw, c.now⟩ op ?_), h.active⟩
    cases op <;> first | rfl | exact ho.elim
  | join m =>
    obtain ⟨-, c', h'⟩ := ho
    obtain ⟨w, hw, rfl⟩ := join_eq h'
    have e : (Micro.join m).run gov c = (c.withSt (Stakers.noteGift m c.sw w)).noteGifts m := by
      show c.orElse (c.join m) = _
      rw [h']; rfl
    rw [e]
    exact ⟨fund_gift (gift m (.mod .funders)) h.reach (join_bal hw .funders), h.active⟩
  | fund op =>
    refine ⟨fund_step h.reach op, fun id => ?_⟩
    show (Funders.step gov c.fw op).s.active.has id = true ↔ _
    rw [fund_active hI (by rintro i rfl; exact ho.elim)]
    exact h.active id
  | pool op =>
    refine ⟨h.reach, fun id => ?_⟩
    show c.fund.active.has id = true ↔ id < (Pool.step gov c.pool c.now op).count
    rw [pool_count hPI _ (by rintro i rfl; exact ho.elim)]
    exact h.active id
  | createPool m =>
    obtain ⟨c', h'⟩ := ho
    obtain ⟨s, hs, rfl⟩ := createPool_eq h'
    have e : (Micro.createPool m).run gov c = { c with pool := s, fund := c.fund.createFundingState c.pool.count } := by
      show c.orElse (Chain.createPool gov c m) = _
      rw [h']; rfl
    rw [e]
    have hn : c.fund.active.has c.pool.count = false := by
      cases hh : c.fund.active.has c.pool.count with
      | false => rfl
      | true => exact absurd ((h.active _).1 hh) (lt_irrefl _)
    have hcnt : s.count = c.pool.count + 1 := by
      unfold Pool.create at hs
      repeat' split at hs
      all_goals first | cases hs; done | skip
      all_goals injection hs with hs; rw [← hs]; rfl
    refine ⟨?_, fun id => ?_⟩
    · have := fund_step h.reach (.poolCreated c.pool.count)
      have e2 : Funders.step gov c.fw (.poolCreated c.pool.count) =
          ⟨c.fund.createFundingState c.pool.count, c.b⟩ := by
        show (if c.fund.active.has c.pool.count then c.fw else _ : Funders.World) = _
        rw [hn]; rfl
      rw [e2] at this
      exact this
    · show (c.fund.active.set c.pool.count []).has id = true ↔ id < s.count
      rw [Stakers.has_set, hcnt]
      have := h.active id
      by_cases e : id = c.pool.count
      · simp [e]
      · simp only [e, decide_false, Bool.false_or, this]; omega
  | pay b hl => exact ⟨fund_ext h.reach ho.fund, h.active⟩
  | blank id n => exact ⟨h.reach, h.active⟩
  | next id n t => exact ⟨h.reach, h.active⟩
  | cast id a v => exact ⟨h.reach, h.active⟩
  | register m n =>
    obtain ⟨s, e⟩ := register_eq c m n
    show FundR gov (c.register m n)
    rw [e]; exact ⟨h.reach, h.active⟩
  | progress id l => exact ⟨h.reach, h.active⟩
  | finalize id v =>
    show FundR gov (c.finalize id v)
    unfold finalize
    split
    · exact h
    · rename_i pl _
      refine ⟨h.reach, fun j => ?_⟩
      show c.fund.active.has j = true ↔ j < (Pool.incrementBundleInformation c.pool id _ _ _).count
      have : ∀ i k sm, (Pool.incrementBundleInformation c.pool id i k sm).count = c.pool.count :=
        fun i k sm => pool_count (gov := gov) hPI c.now (op := .bundleFinalized id i k sm) (by rintro m ⟨⟩)
      rw [this]
      exact h.active j
  | bundlesParams a y => obtain ⟨s, e⟩ := bundlesParams_eq gov c a y; rw [e]; exact ⟨h.reach, h.active⟩
  | block dt r =>
    exact ⟨fund_ext h.reach
      (Delegation.beginBlock_frame (outside (by decide) (by decide) (by decide)) c.dw (c.now + dt) r), h.active⟩
  | external b gd gs gf =>
    exact ⟨fund_gift gf h.reach rfl, h.active⟩
  | crash => exact ⟨h.reach, h.active⟩

/-- all modules -/
structure Modules (gov : Addr) (c : Chain) : Prop where
  del : DelR gov c
  st : StR gov c
  pool : PoolR gov c
  fund : FundR gov c

theorem Modules.micro {gov : Addr} {c : Chain} (μ : Micro) (h : Modules gov c) (ho : μ.Ok gov c)
    (hc : Delegation.Calm (μ.run gov c).del) : Modules gov (μ.run gov c) :=
  ⟨h.del.micro μ ho hc, h.st.micro μ ho, h.pool.micro μ, h.fund.micro μ h.pool ho⟩

theorem Modules.init (gov : Addr) (dp : Delegation.Params) (sp : Stakers.Params) (bp : Bundles.Params) (b : Bank)
    (now : Nat) (h : dp.validate = true) : Modules gov (Chain.init dp sp bp b now) := by
  refine ⟨?_, ?_, ⟨[], rfl⟩, ⟨?_, ?_⟩⟩
  · have h1 := Delegation.Sys.Reachable.init (gov := gov) dp (Chain.init dp sp bp b now).b now h
    refine del_ext h1 (fun st => by show (0 : Nat) < Dec.one; decide) ?_
    rfl
  · have h1 : Stakers.Reachable gov (Stakers.Sys.init sp (Chain.init dp sp bp b now).b now) :=
      ⟨sp, (Chain.init dp sp bp b now).b, now, [], by simp, rfl⟩
    refine st_ext h1 ?_
    rfl
  · have h1 : Funders.Spec.Reachable gov (Funders.World.init (Chain.init dp sp bp b now).b) := ⟨_, [], rfl⟩
    refine fund_ext h1 ?_
    rfl
  · intro id
    show (∅ : Map Nat (List Addr)).has id = true ↔ id < 0
    simp [Map.has]

end Verif.Chain
