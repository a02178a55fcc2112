import Verif.Chain.Holdings
import Verif.Chain.Bills

/-!
# C84: what a funder has put into a pool

The coins a funder has left in a pool only change by messages of that funder, by a bundle of that pool becoming final
(then the funder pays exactly what it promised per bundle, as far as it has it), or because another funder takes the
last free place (then everything goes back to the account of the funder).
-/

set_option linter.dupNamespace false
namespace Verif.Chain
open Verif
open Chain

/-! ## specification -/

/-- the coins funder `a` has left in pool `id` -/
def Chain.left (c : Chain) (id : Nat) (a : Addr) (d : Denom) : Nat := (Funders.Spec.left c.fw a id).amt d

/-- the coins funder `a` promised to pay for each bundle of pool `id` -/
def Chain.promised (c : Chain) (id : Nat) (a : Addr) (d : Denom) : Nat := (Funders.Spec.promised c.fw a id).amt d

/-- nothing has happened to the coins and the promise of the funder; if it is one of the active ones then no bundle of the
pool became final -/
structure Untouched (id : Nat) (a : Addr) (c c' : Chain) : Prop where
  coins : ∀ d, c'.left id a d = c.left id a d
  terms : ∀ d, c'.left id a d ≠ 0 → c'.promised id a d = c.promised id a d
  idle : a ∈ Funders.Spec.activeIn c.fw id → ¬ NewBundle id c c'

/-- a bundle of the pool became final and the funder, one of the active ones, paid for it: of every coin on the whitelist
what it promised, as far as it has it; the promise stays for the coins it has left -/
def PaysBundle (id : Nat) (a : Addr) (c c' : Chain) : Prop :=
  NewBundle id c c' ∧ a ∈ Funders.Spec.activeIn c.fw id ∧
  ∀ d, (Funders.Spec.whitelisted c.fw d → c'.left id a d + min (c.left id a d) (c.promised id a d) = c.left id a d) ∧
    (¬ Funders.Spec.whitelisted c.fw d → c'.left id a d = c.left id a d) ∧
    (c'.left id a d ≠ 0 → c'.promised id a d = c.promised id a d)

/-- another funder takes the place: everything the funder had left is back on its account -/
def Replaced (id : Nat) (a : Addr) (op : Op) (c c' : Chain) : Prop :=
  ∃ m, op = .fund m ∧ m.pool = id ∧ m.creator ≠ a ∧ a ∈ Funders.Spec.activeIn c.fw id ∧
    a ∉ Funders.Spec.activeIn c'.fw id ∧
    ∀ d, c'.left id a d = 0 ∧ (c'.b (.user a)).amt d = (c.b (.user a)).amt d + c.left id a d

namespace Chain

/-! ## proofs -/

/-- the fundings of pool `id` are the same -/
structure SameFundings (id : Nat) (c c' : Chain) : Prop where
  params : c'.fund.params = c.fund.params
  active : c'.fund.active.get? id = c.fund.active.get? id
  coins : ∀ a, c'.fund.fundings.get? (a, id) = c.fund.fundings.get? (a, id)

theorem SameFundings.of_eq {id : Nat} {c c' : Chain} (h : c'.fund = c.fund) : SameFundings id c c' := by
  constructor
  · rw [h]
  · rw [h]
  · intro a; rw [h]

theorem SameFundings.left {id : Nat} {c c' : Chain} (h : SameFundings id c c') (a : Addr) (d : Denom) :
    c'.left id a d = c.left id a d := by
  unfold Chain.left Funders.Spec.left
  show Coins.amt (match c'.fund.fundings.get? (a, id) with | some f => f.amounts | none => Coins.zero) d = _
  rw [h.coins]
  rfl

theorem SameFundings.promised {id : Nat} {c c' : Chain} (h : SameFundings id c c') (a : Addr) (d : Denom) :
    c'.promised id a d = c.promised id a d := by
  unfold Chain.promised Funders.Spec.promised
  show Coins.amt (match c'.fund.fundings.get? (a, id) with | some f => f.perBundle | none => Coins.zero) d = _
  rw [h.coins]
  rfl

theorem SameFundings.activeIn {id : Nat} {c c' : Chain} (h : SameFundings id c c') :
    Funders.Spec.activeIn c'.fw id = Funders.Spec.activeIn c.fw id := by
  show (c'.fund.active.get? id).getD [] = (c.fund.active.get? id).getD []
  rw [h.active]

theorem SameFundings.whitelisted {id : Nat} {c c' : Chain} (h : SameFundings id c c') (d : Denom) :
    Funders.Spec.whitelisted c'.fw d ↔ Funders.Spec.whitelisted c.fw d := by
  show (∃ e ∈ c'.fund.params.whitelist, e.denom = d) ↔ (∃ e ∈ c.fund.params.whitelist, e.denom = d)
  rw [h.params]

theorem SameFundings.trans {id : Nat} {c c' c'' : Chain} (h : SameFundings id c c') (h' : SameFundings id c' c'') :
    SameFundings id c c'' :=
  ⟨h'.params.trans h.params, h'.active.trans h.active, fun a => (h'.coins a).trans (h.coins a)⟩

theorem untouched_of_same {id : Nat} {a : Addr} {c c' : Chain} (h : SameFundings id c c')
    (hb : ∀ i, c'.bundle id i = c.bundle id i) : Untouched id a c c' :=
  ⟨fun d => h.left a d, fun d _ => h.promised a d, fun _ => no_bundle hb⟩

theorem untouched_refl (id : Nat) (a : Addr) (c : Chain) : Untouched id a c c :=
  untouched_of_same (SameFundings.of_eq rfl) fun _ => rfl

theorem settles_apart {j id : Nat} {c c' : Chain} (h : Settles j c c') (hj : id ≠ j) : SameFundings id c c' := by
  rcases h with ⟨-, u, f, r, -, -, hp, -⟩ | ⟨-, hm⟩
  · exact ⟨hp.apart.1, (hp.apart.2 id hj).1, (hp.apart.2 id hj).2⟩
  · exact SameFundings.of_eq hm.fund

theorem settles_own {id : Nat} {c c' : Chain} (h : Settles id c c') (a : Addr) :
    Untouched id a c c' ∨ PaysBundle id a c c' := by
  rcases h with ⟨hn, u, f, r, -, -, hp, -⟩ | ⟨hn, hm⟩
  · by_cases ha : a ∈ Funders.Spec.activeIn c.fw id
    · exact Or.inr ⟨hn, ha, fun d => ⟨fun hw => hp.charge a d ha hw, fun hw => hp.free a id d (fun e => hw e.2.2),
        hp.terms a id d⟩⟩
    · exact Or.inl ⟨fun d => hp.free a id d (fun e => ha e.2.1), hp.terms a id, fun e => absurd e ha⟩
  · exact Or.inl ⟨fun d => (SameFundings.of_eq hm.fund).left a d, fun d _ => (SameFundings.of_eq hm.fund).promised a d,
      fun _ => hn⟩

/-- before and after the payment nothing happens to the pool -/
theorem PaysBundle.between {id : Nat} {a : Addr} {c x y c' : Chain} (h : PaysBundle id a x y) (h1 : SameFundings id c x)
    (h2 : SameFundings id y c') (hb : ∀ i, x.bundle id i = c.bundle id i) (hb' : ∀ i, c'.bundle id i = y.bundle id i) :
    PaysBundle id a c c' := by
  obtain ⟨⟨i, n1, n2⟩, ha, hd⟩ := h
  refine ⟨⟨i, by rw [← hb]; exact n1, by rw [hb']; exact n2⟩, by rw [← h1.activeIn]; exact ha, fun d =>
    ⟨fun hw => ?_, fun hw => ?_, fun hw => ?_⟩⟩
  · rw [h2.left, ← h1.left, ← h1.promised]
    exact (hd d).1 ((h1.whitelisted d).2 hw)
  · rw [h2.left, ← h1.left]
    exact (hd d).2.1 (fun e => hw ((h1.whitelisted d).1 e))
  · rw [h2.promised, ← h1.promised]
    exact (hd d).2.2 (by rw [← h2.left]; exact hw)

/-- before and after nothing happens to the pool -/
theorem Untouched.between {id : Nat} {a : Addr} {c x y c' : Chain} (h : Untouched id a x y) (h1 : SameFundings id c x)
    (h2 : SameFundings id y c') (hb : ∀ i, x.bundle id i = c.bundle id i) (hb' : ∀ i, c'.bundle id i = y.bundle id i) :
    Untouched id a c c' := by
  refine ⟨fun d => ?_, fun d hd => ?_, fun ha => ?_⟩
  · rw [h2.left, ← h1.left]; exact h.coins d
  · rw [h2.promised, ← h1.promised]
    exact h.terms d (by rw [← h2.left]; exact hd)
  · rintro ⟨i, n1, n2⟩
    exact h.idle (by rw [h1.activeIn]; exact ha) ⟨i, by rw [hb]; exact n1, by rw [← hb']; exact n2⟩

theorem settled_apart {l : List Nat} {c c' : Chain} (h : Settled l c c') {id : Nat} (hi : id ∉ l) :
    SameFundings id c c' ∧ ∀ i, c'.bundle id i = c.bundle id i := by
  induction h with
  | nil => exact ⟨SameFundings.of_eq rfl, fun _ => rfl⟩
  | @cons j l c d c' hs hb _ ih =>
    obtain ⟨h1, h2⟩ := ih (fun e => hi (List.mem_cons_of_mem _ e))
    have hj : id ≠ j := fun e => hi (by rw [e]; exact List.mem_cons_self)
    exact ⟨(settles_apart hs hj).trans h1, fun i => (h2 i).trans (hb id hj i)⟩

theorem settled_own {l : List Nat} {c c' : Chain} (h : Settled l c c') (hl : l.Nodup) (id : Nat) (a : Addr) :
    Untouched id a c c' ∨ PaysBundle id a c c' := by
  induction h with
  | nil => exact Or.inl (untouched_refl _ _ _)
  | @cons j l c d c' hs hb ht ih =>
    obtain ⟨hj, hl'⟩ := List.nodup_cons.1 hl
    by_cases e : id = j
    · subst e
      obtain ⟨h1, h2⟩ := settled_apart ht hj
      rcases settles_own hs a with hu | hp
      · exact Or.inl (Untouched.between hu (SameFundings.of_eq rfl) h1 (fun _ => rfl) h2)
      · exact Or.inr (PaysBundle.between hp (SameFundings.of_eq rfl) h1 (fun _ => rfl) h2)
    · have h1 := settles_apart hs e
      rcases ih hl' with hu | hp
      · exact Or.inl (Untouched.between hu h1 (SameFundings.of_eq rfl) (hb id e) (fun _ => rfl))
      · exact Or.inr (PaysBundle.between hp h1 (SameFundings.of_eq rfl) (hb id e) (fun _ => rfl))

theorem kickAll_fund (id : Nat) (l : List Addr) (c : Chain) : (kickAll id l c).fund = c.fund := by
  induction l generalizing c with
  | nil => rfl
  | cons a l ih => exact (ih (c.kick id a)).trans rfl

theorem disable_fund {gov : Addr} {c c' : Chain} {x : Addr} {id : Nat} (h : disablePool gov c x id = .ok c') :
    c'.fund = c.fund := by
  unfold disablePool at h
  split at h
  · cases h
  · unfold drain at h
    split at h
    · cases h; rw [kickAll_fund]
    · split at h
      · cases h
      · split at h
        · cases h
        · cases h
          show (kickAll _ _ _).fund = _
          rw [kickAll_fund]

theorem afterSplit_fund (c : Chain) (r : Bool) (o : Option Chain) (h : ∀ x, o = some x → x.fund = c.fund) :
    (c.afterSplit r o).fund = c.fund := by
  unfold afterSplit
  split
  · rename_i x
    exact (show (x.queues r).fund = x.fund from rfl).trans (h x rfl)
  · rfl

/-- defunding by somebody else -/
theorem defund_other {w : Funders.World} (hi : Funders.Inv w) {m : Funders.DefundMsg} {s' : Funders.State} {b' : Bank}
    (h : Funders.defundPool w.s w.b m = .ok (s', b')) {a : Addr} (ha : m.creator ≠ a) (id : Nat) :
    s'.fundings.get? (a, id) = w.s.fundings.get? (a, id) := by
  obtain ⟨l, f, f', hf, -, -, rfl, -, rfl⟩ := Funders.defund_ok h
  have hk := hi.key _ _ hf
  injection hk with k1 k2
  show (Map.set _ (f.funder, f.pool) _).get? _ = _
  rw [Map.get?_set_ne]
  intro e
  injection e with e1 e2
  exact ha (by rw [e1, ← k1])

/-- funding by somebody else: nothing happens, or the funder is the one replaced -/
theorem fund_other {w : Funders.World} (hi : Funders.Inv w) {ok : Bool} {m : Funders.FundMsg} {s' : Funders.State} {b' : Bank}
    (h : Funders.fundPool w.s w.b ok m = .ok (s', b')) {a : Addr} (ha : m.creator ≠ a) (id : Nat) :
    s'.fundings.get? (a, id) = w.s.fundings.get? (a, id) ∨
    (m.pool = id ∧ a ∈ Funders.Spec.activeIn w id ∧ a ∉ Funders.Spec.activeIn ⟨s', b'⟩ id ∧
      (∀ d, (Funders.Spec.left ⟨s', b'⟩ a id).amt d = 0) ∧
      ∀ d, (b' (.user a)).amt d = (w.b (.user a)).amt d + (Funders.Spec.left w a id).amt d) := by
  obtain ⟨l, f, wk, -, -, hl, -, hf1, hf2, hfree, hsend, rfl⟩ := Funders.fund_ok hi h
  have hne : (a, id) ≠ (f.funder, f.pool) := by
    intro e; injection e with e1 e2; exact ha (by rw [e1, hf1])
  have key : ∀ s0 : Funders.State, ((s0.setFunding f).setActive m.pool (Funders.setActive wk.l f.funder)).fundings.get? (a, id)
      = s0.fundings.get? (a, id) := fun s0 => Map.get?_set_ne _ _ hne
  rcases Funders.ensureFreeSlot_ok hfree with ⟨rfl, -⟩ | ⟨low, x, y, b1, hlow, hlf, -, -, -, -, -, hpay, rfl⟩
  · exact Or.inl (key _)
  · obtain ⟨h1, h2⟩ := hi.activeFundings_spec hl
    obtain ⟨g1, g2, g3⟩ := h1 low hlow
    by_cases e : (a, id) = (low.funder, low.pool)
    swap
    · exact Or.inl ((key _).trans (Map.get?_set_ne _ _ e))
    right
    injection e with e1 e2
    rw [g2] at e2
    subst e1
    subst e2
    have hg : w.s.fundings.get? (low.funder, m.pool) = some low := g1
    have hact : Funders.Spec.activeIn w m.pool = l := by unfold Funders.Spec.activeIn; rw [hl]; rfl
    have hleft : Funders.Spec.left w low.funder m.pool = low.amounts := by unfold Funders.Spec.left; rw [hg]
    refine ⟨rfl, by rw [hact]; exact g3, ?_, fun d => ?_, fun d => ?_⟩
    · show low.funder ∉ ((Map.set _ m.pool _).get? m.pool).getD []
      rw [Map.get?_set, if_pos rfl]
      intro hm
      rcases Funders.mem_setActive.1 hm with hm | hm
      · exact ((Funders.mem_setInactive (hi.nodup _ _ hl)).1 hm).2 rfl
      · exact hlf hm
    · have e3 := key (w.s.setFunding { low with amounts := Coins.zero, perBundle := Coins.zero })
      have e4 : (w.s.setFunding { low with amounts := Coins.zero, perBundle := Coins.zero }).fundings.get? (low.funder, m.pool)
          = some { low with amounts := Coins.zero, perBundle := Coins.zero } := by
        show (Map.set _ (low.funder, low.pool) _).get? _ = _
        rw [g2, Map.get?_set, if_pos rfl]
      unfold Funders.Spec.left
      rw [e3, e4]
      rfl
    · have n1 : ¬ Acct.user low.funder = .user m.creator := fun e => ha (by injection e with e; exact e.symm)
      have n2 : ¬ Acct.user low.funder = .mod .funders := by simp
      have e5 := (Bank.send_ok hsend).2 (.user low.funder) d
      have e6 := (Bank.send_ok hpay).2 (.user low.funder) d
      rw [if_neg n1, if_neg n2] at e5
      rw [if_neg n2, if_pos rfl] at e6
      rw [hleft, e5]
      exact e6

theorem fundings_exec (gov : Addr) (c c' : Chain) (h : Reachable gov c) (hs : Sane c') (op : Op) (ho : op.inner = true)
    (he : exec gov c op = .ok c') (id : Nat) (a : Addr) (ha : op.signer ≠ some a) :
    Untouched id a c c' ∨ PaysBundle id a c c' ∨ Replaced id a op c c' := by
  have hg := Reachable.good h
  have hi : Funders.Inv c.fw := hg.mods.fund.reach.inv
  have hk : Keyed c := keyed_of hg.mods.pool rfl
  have hb : op.judges = false → ∀ i, c'.bundle id i = c.bundle id i := fun hj i => by
    unfold bundle; rw [(plain_exec hg hj he).fin]
  have same : c'.fund = c.fund → (op.judges = false) → Untouched id a c c' ∨ PaysBundle id a c c' ∨ Replaced id a op c c' :=
    fun e hj => Or.inl (untouched_of_same (SameFundings.of_eq e) (hb hj))
  have coin : c'.fund.fundings.get? (a, id) = c.fund.fundings.get? (a, id) → op.judges = false → Untouched id a c c' := by
    intro e hj
    refine ⟨fun d => ?_, fun d _ => ?_, fun _ => no_bundle (hb hj)⟩
    · unfold Chain.left Funders.Spec.left
      show Coins.amt (match c'.fund.fundings.get? (a, id) with | some f => f.amounts | none => Coins.zero) d = _
      rw [e]
      rfl
    · unfold Chain.promised Funders.Spec.promised
      show Coins.amt (match c'.fund.fundings.get? (a, id) with | some f => f.perBundle | none => Coins.zero) d = _
      rw [e]
      rfl
  have settle : ∀ j, Settles j c c' → (id ≠ j → ∀ i, c'.bundle id i = c.bundle id i) → Untouched id a c c' ∨ PaysBundle id a c c' ∨ Replaced id a op c c' := by
    intro j hj hbs
    by_cases e : id = j
    · subst e
      rcases settles_own hj a with hu | hp
      · exact Or.inl hu
      · exact Or.inr (Or.inl hp)
    · exact Or.inl (untouched_of_same (settles_apart hj e) (hbs e))
  cases op with
  | submit m => exact settle m.pool (settles_submit hg he) fun e => (apart_submit hk e he).fin
  | skip m => exact settle m.pool (settles_skip hg he) fun e => (apart_skip hk e he).fin
  | endBlock =>
    injection he with he
    subst he
    rcases endBlock_handled h hs with e | hh
    · rw [e]; exact Or.inl (untouched_of_same (SameFundings.of_eq rfl) fun _ => rfl)
    · have h0 : SameFundings id c c.upgradePools := SameFundings.of_eq rfl
      rcases settled_own (settled_handled hh) (Map.keys_nodup _) id a with hu | hp
      · exact Or.inl (Untouched.between hu h0 (SameFundings.of_eq rfl) (fun _ => rfl) fun _ => rfl)
      · exact Or.inr (Or.inl (PaysBundle.between hp h0 (SameFundings.of_eq rfl) (fun _ => rfl) fun _ => rfl))
  | vote m =>
    obtain ⟨-, p, -, rfl⟩ := vote_ok he
    exact same rfl rfl
  | claim x y j =>
    obtain ⟨-, -, -, rfl⟩ := claim_ok he
    exact same rfl rfl
  | createStaker x k n =>
    have he' : c.createStaker x k n = .ok c' := he
    unfold createStaker at he'
    split at he'
    · cases he'
    · split at he'
      · cases he'
      · cases he'; exact same rfl rfl
  | join m =>
    obtain ⟨w, hw, rfl⟩ := join_eq he
    exact Or.inl (coin rfl rfl)
  | leave | updateCommission | updateMetadata | updatePool | enablePool | scheduleUpgrade | cancelUpgrade
    | bundlesParams | stakersParams | poolParams | claimRewards | delegate | redelegate | undelegate | withdraw
    | delegationParams =>
    obtain ⟨s, hr, rfl⟩ := map_ok he
    exact same rfl rfl
  | createFunder x =>
    obtain ⟨s, hr, rfl⟩ := map_ok he
    refine Or.inl (coin ?_ rfl)
    have hr' : Funders.createFunder c.fund x = .ok s := hr
    unfold Funders.createFunder at hr'
    split at hr'
    · cases hr'
    · cases hr'; rfl
  | fundersParams x y =>
    obtain ⟨s, hr, rfl⟩ := map_ok he
    refine Or.inl (coin ?_ rfl)
    have hr' : Funders.updateParams gov c.fund x y = .ok s := hr
    unfold Funders.updateParams at hr'
    repeat (split at hr'; cases hr')
    cases hr'; rfl
  | fund m =>
    obtain ⟨⟨s, b⟩, hr, rfl⟩ := map_ok he
    have hx : m.creator ≠ a := fun e => ha (by rw [← e]; rfl)
    rcases fund_other hi hr hx id with e | ⟨h1, h2, h3, h4, h5⟩
    · exact Or.inl (coin e rfl)
    · exact Or.inr (Or.inr ⟨m, rfl, h1, hx, h2, h3, fun d => ⟨h4 d, h5 d⟩⟩)
  | defund m =>
    obtain ⟨⟨s, b⟩, hr, rfl⟩ := map_ok he
    have hx : m.creator ≠ a := fun e => ha (by rw [← e]; rfl)
    exact Or.inl (coin (defund_other hi hr hx id) rfl)
  | createPool m =>
    obtain ⟨s, -, rfl⟩ := createPool_eq he
    exact Or.inl (coin rfl rfl)
  | disablePool x j => exact same (disable_fund he) rfl
  | beginBlock dt pr te r =>
    injection he with he
    refine same ?_ rfl
    rw [← he]
    refine afterSplit_fund c r ((c.newBlock dt r).splitInflation pr te) fun x hx => ?_
    obtain ⟨b, hl, rfl, -⟩ := splitInflation_eq hx
    rfl
  | external b gd gs gf => cases ho

end Chain

/-- C84: unless the funder signed the message, either nothing happens to the coins it has left in the pool, or a bundle
of the pool became final and it pays exactly what it promised, or another funder takes its place and it gets everything
back. -/
theorem Chain.C84_fundings (gov : Addr) (c : Chain) (h : Reachable gov c) (op : Op) (hs : Sane (c.step gov op))
    (ho : op.inner = true) (id : Nat) (a : Addr) (ha : op.signer ≠ some a) :
    Untouched id a c (c.step gov op) ∨ PaysBundle id a c (c.step gov op) ∨ Replaced id a op c (c.step gov op) := by
  unfold step at hs ⊢
  split
  · exact Or.inl (untouched_refl _ _ _)
  · rename_i hc
    rw [if_neg hc] at hs
    cases he : exec gov c op with
    | error e => exact Or.inl (untouched_refl _ _ _)
    | ok c' =>
      rw [he] at hs
      exact fundings_exec gov c c' h hs op ho he id a ha

/-- the first bundle becomes final: funder 50 pays what it promised -/
example : NewBundle 0 Sample.later Sample.second ∧ (50 : Addr) ∈ Funders.Spec.activeIn Sample.later.fw 0 ∧
    Sample.later.left 0 50 kyve = Sample.second.left 0 50 kyve + Sample.later.promised 0 50 kyve ∧
    0 < Sample.later.promised 0 50 kyve ∧ Sample.later.promised 0 50 kyve < Sample.later.left 0 50 kyve :=
  ⟨⟨0, by decide +kernel, by decide +kernel⟩, by decide +kernel⟩

namespace Sample

/-- funder `a` puts `n` into the pool -/
def puts (a n : Nat) : Op := .fund ⟨a, 0, Coins.single kyve n, Coins.single kyve 1000000⟩
/-- forty-nine more funders, each with more than funder 50 -/
def crowded : Chain :=
  run ready ((List.range 49).flatMap (fun i => [.createFunder (100 + i), puts (100 + i) 2000000001]) ++ [.createFunder 200])

end Sample

theorem Sample.reach_crowded : Reachable Sample.gov Sample.crowded :=
  Sample.run_reachable Sample.reach_ready _ (by decide +kernel)

/-- funder 200 takes the place of funder 50, who gets the 2000 coins back -/
example : (Funders.Spec.activeIn Sample.crowded.fw 0).length = 50 ∧
    (50 : Addr) ∈ Funders.Spec.activeIn Sample.crowded.fw 0 ∧ Sample.crowded.left 0 50 kyve = 2000000000 ∧
    ((Sample.crowded.step Sample.gov (Sample.puts 200 3000000000)).b (.user 50)).amt kyve =
      (Sample.crowded.b (.user 50)).amt kyve + 2000000000 ∧
    (Sample.crowded.step Sample.gov (Sample.puts 200 3000000000)).left 0 50 kyve = 0 ∧
    (Sample.crowded.step Sample.gov (Sample.puts 200 3000000000)).left 0 200 kyve = 3000000000 := by
  decide +kernel

end Verif.Chain
