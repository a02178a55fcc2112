import Verif.Chain.History
import Verif.Bundles.Payout
import Verif.Pool.Properties

/-!
# C22 on the chain: the money of a finalized bundle

A tally of a valid bundle charges the funders and the inflation pool and pays everything out.
-/

set_option linter.dupNamespace false
namespace Verif.Chain
open Verif
open Verif.Bundles (Proposal VoteDist Reward PayoutArgs)

/-! ## specification -/

/-- A bundle of pool `id` uploaded by `u` was paid: `f` by the funders, `i` of the native coin by the pool's inflation
account; `r` says who got what.  Slashed coins move from the delegation account to the treasury at the same time, so
these two are taken together. -/
structure Paid (id : Nat) (u : Addr) (f : Coins) (i : Nat) (r : Reward) (c c' : Chain) : Prop where
  /-- the payouts are the charges -/
  balance : ∀ d, r.treasury.amt d + r.storage.amt d + r.commission.amt d + r.delegation.amt d =
    f.amt d + (if d = kyve then i else 0)
  funders : ∀ d, (c'.b (.mod .funders)).amt d + f.amt d = (c.b (.mod .funders)).amt d
  inflation : ∀ d, (c'.b (.pool id)).amt d + (if d = kyve then i else 0) = (c.b (.pool id)).amt d
  /-- nothing stays in the pool module -/
  pool : ∀ d, (c'.b (.mod .pool)).amt d = (c.b (.mod .pool)).amt d
  stakers : ∀ d, (c'.b (.mod .stakers)).amt d = (c.b (.mod .stakers)).amt d + r.storage.amt d + r.commission.amt d
  treasury : ∀ d, (c'.b (.mod .treasury)).amt d + (c'.b (.mod .delegation)).amt d =
    (c.b (.mod .treasury)).amt d + (c.b (.mod .delegation)).amt d + r.treasury.amt d + r.delegation.amt d
  /-- the uploader can claim its part -/
  uploader : ∀ a d, ((c'.st.stakers.get? a).map (·.rewards.amt d)).getD 0 =
    ((c.st.stakers.get? a).map (·.rewards.amt d)).getD 0 +
      (if a = u then r.storage.amt d + r.commission.amt d else 0)
  others : ∀ a d, a ≠ .mod .funders → a ≠ .pool id → a ≠ .mod .pool → a ≠ .mod .stakers → a ≠ .mod .treasury →
    a ≠ .mod .delegation → (c'.b a).amt d = (c.b a).amt d
  /-- every active funder of the pool pays what it promised, as far as it has it, in whitelisted coins; nobody else pays -/
  charge : ∀ a d, a ∈ Funders.Spec.activeIn c.fw id → Funders.Spec.whitelisted c.fw d →
    (Funders.Spec.left c'.fw a id).amt d +
      min ((Funders.Spec.left c.fw a id).amt d) ((Funders.Spec.promised c.fw a id).amt d) =
    (Funders.Spec.left c.fw a id).amt d
  free : ∀ a p d, ¬(p = id ∧ a ∈ Funders.Spec.activeIn c.fw id ∧ Funders.Spec.whitelisted c.fw d) →
    (Funders.Spec.left c'.fw a p).amt d = (Funders.Spec.left c.fw a p).amt d
  /-- nothing happens to the fundings of the other pools -/
  apart : c'.fund.params = c.fund.params ∧ ∀ p, p ≠ id → c'.fund.active.get? p = c.fund.active.get? p ∧
    ∀ a, c'.fund.fundings.get? (a, p) = c.fund.fundings.get? (a, p)
  /-- what the funders promised to pay per bundle stays, of the coins they have left -/
  terms : ∀ a p d, (Funders.Spec.left c'.fw a p).amt d ≠ 0 →
    (Funders.Spec.promised c'.fw a p).amt d = (Funders.Spec.promised c.fw a p).amt d

namespace Chain

/-! ## slashes move coins from the delegation account to the treasury -/

/-- only slashed coins move; nobody's rewards change -/
structure Moved (c c' : Chain) : Prop where
  rest : ∀ a, a ≠ .mod .delegation → a ≠ .mod .treasury → c'.b a = c.b a
  sum : ∀ d, (c'.b (.mod .treasury)).amt d + (c'.b (.mod .delegation)).amt d =
    (c.b (.mod .treasury)).amt d + (c.b (.mod .delegation)).amt d
  stakers : c'.st.stakers = c.st.stakers
  fund : c'.fund = c.fund

theorem Moved.refl (c : Chain) : Moved c c := ⟨fun _ _ _ => rfl, fun _ => rfl, rfl, rfl⟩
theorem Moved.trans {c c' c'' : Chain} (h : Moved c c') (h' : Moved c' c'') : Moved c c'' :=
  ⟨fun a h1 h2 => (h'.rest a h1 h2).trans (h.rest a h1 h2), fun d => (h'.sum d).trans (h.sum d),
    h'.stakers.trans h.stakers, h'.fund.trans h.fund⟩

theorem moved_slash (c : Chain) (a : Addr) (t : Delegation.SlashType) : Moved c (c.slash a t) := by
  have hb : (c.slash a t).b = (Delegation.slashDelegators c.dw a t).b := rfl
  unfold Delegation.slashDelegators at hb
  split at hb
  · exact ⟨fun x _ _ => by rw [hb]; rfl, fun d => by rw [hb]; rfl, rfl, rfl⟩
  · unfold Delegation.slashTransfer at hb
    cases hs : c.dw.b.send (.mod .delegation) (.mod .treasury)
      (Coins.single kyve (Delegation.slash (c.dw.s.at a) (c.dw.s.params.slashFraction t)).2) with
    | error e =>
      rw [hs] at hb
      exact ⟨fun x _ _ => by rw [hb]; rfl, fun d => by rw [hb]; rfl, rfl, rfl⟩
    | ok b =>
      rw [hs] at hb
      have e : (c.slash a t).b = b := hb
      obtain ⟨h1, h2⟩ := Bank.send_ok hs
      refine ⟨fun x hx hy => ?_, fun d => ?_, rfl, rfl⟩
      · rw [e]; exact Bank.send_ne hs hx hy
      · rw [e, h2, h2]
        have := h1 d
        simp only [Acct.mod.injEq, reduceCtorEq, if_false, if_true]
        show (c.b _).amt d - 0 + _ + ((c.b _).amt d - _ + 0) = _
        have h3 : (c.dw.b (.mod .delegation)).amt d = (c.b (.mod .delegation)).amt d := rfl
        omega

theorem moved_kick (c : Chain) (id : Nat) (a : Addr) : Moved c (c.kick id a) :=
  ⟨fun _ _ _ => rfl, fun _ => rfl, (Stakers.kick_same c.st c.now id a).stakers, rfl⟩

theorem moved_slashAndRemove (c : Chain) (id : Nat) (a : Addr) (t : Delegation.SlashType) :
    Moved c (c.slashAndRemove id a t) := (moved_slash c a t).trans (moved_kick _ id a)

theorem moved_incPoints (c : Chain) (id : Nat) (a : Addr) : Moved c (c.incPoints id a) := by
  refine ⟨fun _ _ _ => rfl, fun _ => rfl, ?_, rfl⟩
  show (c.st.incrementPoints id a).1.stakers = _
  unfold Stakers.State.incrementPoints; split <;> rfl

theorem moved_resetPoints (c : Chain) (id : Nat) (a : Addr) : Moved c (c.resetPoints id a) := by
  refine ⟨fun _ _ _ => rfl, fun _ => rfl, ?_, rfl⟩
  show (c.st.resetPoints id a).stakers = _
  unfold Stakers.State.resetPoints; split <;> rfl

theorem moved_addPoint (c : Chain) (id : Nat) (a : Addr) : Moved c (c.addPoint id a) := by
  unfold addPoint
  split
  · exact (moved_incPoints c id a).trans (moved_slashAndRemove _ id a _)
  · exact moved_incPoints c id a

theorem moved_pointLoop (id : Nat) (vs l : List Addr) (c : Chain) : Moved c (pointLoop id vs l c) := by
  induction l generalizing c with
  | nil => exact Moved.refl c
  | cons a l ih =>
    show Moved c (pointLoop id vs l (if a ∈ vs then c else c.addPoint id a))
    split
    · exact ih c
    · exact (moved_addPoint c id a).trans (ih _)

theorem moved_nonVoters (c : Chain) (id : Nat) : Moved c (c.nonVoters id) := moved_pointLoop id _ _ c

theorem moved_punish (id : Nat) (l : List (Addr × Delegation.SlashType)) (c : Chain) : Moved c (punish id l c) := by
  induction l generalizing c with
  | nil => exact Moved.refl c
  | cons e l ih => exact (moved_slashAndRemove c id e.1 e.2).trans (ih _)

/-! ## what a tally needs -/

/-- the parts of the invariant a tally relies on -/
structure Fit (gov : Addr) (c : Chain) : Prop where
  st : StR gov c
  pool : PoolR gov c
  fund : FundR gov c
  fee : c.bun.params.networkFee ≤ Dec.one

theorem Fit.q {gov : Addr} {c c' : Chain} (h : Fit gov c) (hq : QSteps gov c c') : Fit gov c' := by
  induction hq with
  | refl => exact h
  | tail q _ ho _ ih =>
    exact ⟨ih.st.micro _ ho, ih.pool.micro _, ih.fund.micro _ ih.pool ho, by
      rw [(Quiet.still gov _ q).bun]; exact ih.fee⟩

theorem BunInv.fee {c : Chain} (h : BunInv c) : c.bun.params.networkFee ≤ Dec.one := by
  have := h.params
  unfold Bundles.Params.validate at this
  simp only [Bool.and_eq_true, decide_eq_true_eq] at this
  exact this.1.2

theorem Good.fit {gov : Addr} {c : Chain} (h : Good gov c) : Fit gov c :=
  ⟨h.mods.st, h.mods.pool, h.mods.fund, BunInv.fee h.bun⟩

/-! ## paying -/

theorem delegated_of_amount {c : Chain} {u : Addr} (h : 0 < c.del.amount u) : c.delegated u = true := by
  unfold Delegation.State.amount at h
  unfold delegated
  cases hd : (c.del.at u).data with
  | none => rw [hd] at h; exact absurd h (by decide)
  | some d => rfl

/-- the rewards of a staker -/
def rewardOf (c : Chain) (a : Addr) (d : Denom) : Nat := ((c.st.stakers.get? a).map (·.rewards.amt d)).getD 0

/-- paying the reward of a staker out of the pool module never fails if the pool module has it -/
theorem payReward_ok {c : Chain} {u : Addr} {r : Reward} (hu : c.st.stakers.has u = true)
    (hd : (∃ d, r.delegation.amt d ≠ 0) → c.delegated u = true)
    (hb : ∀ d, r.treasury.amt d + r.storage.amt d + r.commission.amt d + r.delegation.amt d ≤ (c.b (.mod .pool)).amt d) :
    ∃ c', c.payReward (some u) r = .ok c' ∧
      (∀ d, (c'.b (.mod .pool)).amt d + (r.treasury.amt d + r.storage.amt d + r.commission.amt d + r.delegation.amt d) =
        (c.b (.mod .pool)).amt d) ∧
      (∀ d, (c'.b (.mod .stakers)).amt d = (c.b (.mod .stakers)).amt d + r.storage.amt d + r.commission.amt d) ∧
      (∀ d, (c'.b (.mod .treasury)).amt d = (c.b (.mod .treasury)).amt d + r.treasury.amt d) ∧
      (∀ d, (c'.b (.mod .delegation)).amt d = (c.b (.mod .delegation)).amt d + r.delegation.amt d) ∧
      (∀ a d, c'.rewardOf a d = c.rewardOf a d + (if a = u then r.storage.amt d + r.commission.amt d else 0)) ∧
      (∀ a d, a ≠ .mod .pool → a ≠ .mod .stakers → a ≠ .mod .treasury → a ≠ .mod .delegation →
        (c'.b a).amt d = (c.b a).amt d) ∧ c'.fund = c.fund := by
  -- the treasury
  obtain ⟨b1, s1⟩ := Bank.send_succeeds (b := c.b) (s := .mod .pool) (t := .mod .treasury) (c := r.treasury)
    (fun d => by have := hb d; omega)
  have k1 := (Bank.send_ok s1).2
  -- the uploader
  have hinc : ∃ w, Stakers.increaseRewards ⟨c.st, b1⟩ .pool u (r.commission.add r.storage) = .ok w ∧
      (∀ a d, (w.b a).amt d = (b1 a).amt d - (if a = .mod .pool then r.commission.amt d + r.storage.amt d else 0) +
        (if a = .mod .stakers then r.commission.amt d + r.storage.amt d else 0)) ∧
      (∀ a d, ((w.s.stakers.get? a).map (·.rewards.amt d)).getD 0 = c.rewardOf a d +
        (if a = u then r.storage.amt d + r.commission.amt d else 0)) := by
    unfold Stakers.increaseRewards
    split
    · rename_i hz
      have hz' : ∀ d, r.commission.amt d + r.storage.amt d = 0 := fun d => by
        have := Coins.isZero_iff.1 hz d; rw [Coins.amt_add] at this; exact this
      refine ⟨_, rfl, fun a d => ?_, fun a d => ?_⟩
      · rw [hz' d]; simp
      · have := hz' d
        have e : (if a = u then r.storage.amt d + r.commission.amt d else 0) = 0 := by split <;> omega
        rw [e]; rfl
    · obtain ⟨x, hx⟩ := (Stakers.has_iff _ _).1 hu
      show ∃ w, (match c.st.stakers.get? u with
        | none => .error "staker does not exist"
        | some x => match b1.send (.mod .pool) (.mod .stakers) (r.commission.add r.storage) with
          | .error e => .error e
          | .ok b => .ok ⟨{ c.st with stakers := c.st.stakers.set u { x with rewards := x.rewards.add (r.commission.add r.storage) } }, b⟩) =
            Except.ok (ε := String) (α := Stakers.World) w ∧ _
      rw [hx]
      obtain ⟨b2, s2⟩ := Bank.send_succeeds (b := b1) (s := .mod .pool) (t := .mod .stakers)
        (c := r.commission.add r.storage) (fun d => by
          rw [Coins.amt_add, k1]
          have := hb d
          simp
          omega)
      have k2 := (Bank.send_ok s2).2
      simp only
      rw [s2]
      refine ⟨_, rfl, fun a d => ?_, fun a d => ?_⟩
      · show (b2 a).amt d = _
        rw [k2, Coins.amt_add]
      · show (((c.st.stakers.set u _).get? a).map (·.rewards.amt d)).getD 0 = _
        rw [Map.get?_set]
        by_cases e : a = u
        · subst e
          rw [if_pos rfl, if_pos rfl]
          unfold rewardOf
          rw [hx]
          show (x.rewards.add (r.commission.add r.storage)).amt d = x.rewards.amt d + _
          rw [Coins.amt_add, Coins.amt_add]; omega
        · rw [if_neg e, if_neg e]; rfl
  obtain ⟨w, s2, k2, q2⟩ := hinc
  -- the delegators
  have hpay : ∃ v, Delegation.payoutRewards ⟨c.del, w.b⟩ .pool u r.delegation = .ok v ∧
      (∀ a d, (v.b a).amt d = (w.b a).amt d - (if a = .mod .pool then r.delegation.amt d else 0) +
        (if a = .mod .delegation then r.delegation.amt d else 0)) := by
    unfold Delegation.payoutRewards
    split
    · rename_i hz
      have hz' := Coins.isZero_iff.1 hz
      exact ⟨_, rfl, fun a d => by rw [hz' d]; simp⟩
    · rename_i hz
      have hne : ∃ d, r.delegation.amt d ≠ 0 := by
        by_contra hn
        push Not at hn
        exact hz (Coins.isZero_iff.2 hn)
      have hs := hd hne
      unfold delegated at hs
      rw [if_neg (by rw [Option.isNone_iff_eq_none]; intro e; change (c.del.at u).data = none at e; rw [e] at hs; cases hs)]
      obtain ⟨b3, s3⟩ := Bank.send_succeeds (b := w.b) (s := .mod .pool) (t := .mod .delegation)
        (c := r.delegation) (fun d => by
          rw [k2, k1]
          have := hb d
          simp
          omega)
      simp only
      rw [s3]
      refine ⟨_, rfl, fun a d => ?_⟩
      exact (Bank.send_ok s3).2 a d
  obtain ⟨v, s3, k3⟩ := hpay
  refine ⟨{ c with b := v.b, st := w.s, del := v.s }, ?_, fun d => ?_, fun d => ?_, fun d => ?_, fun d => ?_, q2,
    fun a d h1 h2 h3 h4 => ?_, rfl⟩
  · unfold payReward
    rw [s1]
    show payUploader { c with b := b1 } u r = _
    unfold payUploader
    have s2' : Stakers.increaseRewards (Chain.sw { c with b := b1 }) .pool u (r.commission.add r.storage) = .ok w := s2
    rw [s2']
    show payDelegators (({ c with b := b1 } : Chain).withSt w) u r = _
    unfold payDelegators
    have s3' : Delegation.payoutRewards (Chain.dw (({ c with b := b1 } : Chain).withSt w)) .pool u r.delegation = .ok v := s3
    rw [s3']
    rfl
  · show (v.b _).amt d + _ = _
    rw [k3, k2, k1]
    have := hb d
    simp
    omega
  · show (v.b _).amt d = _
    rw [k3, k2, k1]; simp; omega
  · show (v.b _).amt d = _
    rw [k3, k2, k1]; simp
  · show (v.b _).amt d = _
    rw [k3, k2, k1]; simp
  · show (v.b a).amt d = _
    rw [k3, k2, k1]; simp [h1, h2, h3, h4]

/-- what can go wrong in a tally: the data size or the balance of the inflation account do not fit into 63 bits, or the
native coin is not on the whitelist of x/funders -/
structure Payable (c : Chain) (id : Nat) : Prop where
  dataSize : (c.proposal id).dataSize < 2 ^ 63
  inflation : (c.b (.pool id)).amt kyve < 2 ^ 63
  whitelist : c.fund.params.listed kyve = true

/-- the amount the pool's inflation account pays for a bundle -/
def inflationPart (c : Chain) (id : Nat) : Nat :=
  (c.b (.pool id)).amt kyve * c.pool.params.poolInflationPayoutRate / 10 ^ 18

/-- the amount a funder pays for a bundle -/
def fundersPart (c : Chain) (id : Nat) (d : Denom) : Nat :=
  ((Funders.Spec.activeIn c.fw id).map (fun a =>
    if c.fund.params.listed d then min ((Funders.Spec.left c.fw a id).amt d) ((Funders.Spec.promised c.fw a id).amt d)
    else 0)).sum

theorem tallyValid_cases {gov : Addr} {c : Chain} (hf : Fit gov c) {id : Nat} {pl : Pool.Pool}
    (hpl : c.pool.pools.get? id = some pl) {u : Addr} (hu : (c.proposal id).uploader = some u)
    (hs : c.st.stakers.has u = true) (v : VoteDist) :
    (c.tallyValid id (c.proposal id) v = .panicked ∧ ¬ c.Payable id) ∨
    ∃ f r d, c.tallyValid id (c.proposal id) v = .done (slashInvalid id (c.proposal id).invalid d) v ∧
      Paid id u f (c.inflationPart id) r c d ∧ (∀ k, f.amt k = c.fundersPart id k) ∧
      Bundles.splitPayout (c.payoutArgs id u (f.add (Coins.single kyve (c.inflationPart id)))) = some r := by
  have hact : c.fw.s.active.has id = true := by
    show c.fund.active.has id = true
    rw [hf.fund.active]
    exact ((Pool.Spec.Reachable.inv hf.pool).dense id).1 ⟨pl, hpl⟩
  obtain ⟨f, s', b1, hc, hleft, hsum, hb1, hb1'⟩ := Funders.C34_charge gov c.fw hf.fund.reach id hact
  have hc' : Funders.chargeFundersOfPool c.fund c.b id = .ok (f, s', b1) := hc
  have hapart : s'.params = c.fund.params ∧ ∀ p, p ≠ id → s'.active.get? p = c.fund.active.get? p ∧
      ∀ a, s'.fundings.get? (a, p) = c.fund.fundings.get? (a, p) := by
    rw [Map.has, Option.isSome_iff_exists] at hact
    obtain ⟨l, hl⟩ := hact
    obtain ⟨p2, s2, b2, hr, -, h3, -, h4, -, -, h5, -⟩ := Funders.charge_ok hf.fund.reach.inv hl
    rw [hc] at hr
    cases hr
    exact ⟨h3, fun p hp => ⟨h4 p hp, fun a => (h5 a p).trans (if_neg (fun e => hp e.1))⟩⟩
  have hterms : ∀ a p d, (Funders.Spec.left ⟨s', b1⟩ a p).amt d ≠ 0 →
      (Funders.Spec.promised ⟨s', b1⟩ a p).amt d = (Funders.Spec.promised c.fw a p).amt d := by
    rw [Map.has, Option.isSome_iff_exists] at hact
    obtain ⟨l, hl⟩ := hact
    obtain ⟨p2, s2, b2, hr, -, h3, -, h4, -, -, h5, -⟩ := Funders.charge_ok hf.fund.reach.inv hl
    rw [hc] at hr
    cases hr
    intro a p d hd
    have e := h5 a p
    split at e
    · cases hg : c.fw.s.funding? a p with
      | none =>
        rw [hg] at e
        have e : s'.fundings.get? (a, p) = none := e
        unfold Funders.Spec.left at hd
        simp only [e] at hd
        exact absurd rfl hd
      | some g =>
        rw [hg] at e
        have e : (⟨s', b1⟩ : Funders.World).s.funding? a p = some (g.charged c.fund.params) := e
        rw [Funders.left_eq e] at hd
        rw [Funders.promised_eq e, Funders.promised_eq hg]
        show (Coins.filter _ _).amt d = _
        rw [Coins.amt_filter, if_pos]
        exact bne_iff_ne.2 hd
    · have e : s'.fundings.get? (a, p) = c.fund.fundings.get? (a, p) := e
      unfold Funders.Spec.promised
      show Coins.amt (match s'.fundings.get? (a, p) with | some f => f.perBundle | none => Coins.zero) d = _
      rw [e]
      rfl
  have hparams : s'.params = c.fund.params := hapart.1
  have hpart : ∀ k, f.amt k = c.fundersPart id k := by
    intro k
    rw [hsum k]
    unfold fundersPart
    congr 1
    apply List.map_congr_left
    intro a ha
    obtain ⟨-, h2, h3, -⟩ := hleft a id k
    by_cases hw : Funders.Spec.whitelisted c.fw k
    · have hl : c.fund.params.listed k = true := (Funders.listed_iff c.fw k).2 hw
      have := h2 ⟨rfl, ha⟩ hw
      rw [if_pos hl]; omega
    · have hl : ¬ c.fund.params.listed k = true := fun e => hw ((Funders.listed_iff c.fw k).1 e)
      rw [if_neg hl, h3 hw]; omega
  have e0 : c.tallyValid id (c.proposal id) v = (c.withFund ⟨s', b1⟩).tallyInflation id (c.proposal id) v f := by
    unfold tallyValid
    rw [hc']
  have hbal : b1 (.pool id) = c.b (.pool id) := hb1' _ (by simp) (by simp)
  by_cases hlt : (c.b (.pool id)).amt kyve < 2 ^ 63
  swap
  · left
    refine ⟨?_, fun h => hlt h.inflation⟩
    rw [e0]
    unfold tallyInflation
    have : Pool.chargeInflationPool (c.withFund ⟨s', b1⟩).pool (c.withFund ⟨s', b1⟩).b id = .error "overflow" := by
      unfold Pool.chargeInflationPool
      show (match c.pool.pools.get? id with
        | none => Except.error "pool not found"
        | some _ => if (b1 (.pool id)).amt kyve ≥ 2 ^ 63 then Except.error "overflow" else _) = _
      rw [hpl]
      simp only
      rw [if_pos (by rw [hbal]; omega)]
    rw [this]
  · obtain ⟨b2, hb2, hle, h21, h22, h23⟩ := Pool.C39_charge_inflation c.pool b1 id pl hpl
      (Pool.C39_params_valid gov c.pool hf.pool) (by rw [hbal]; exact hlt)
    rw [hbal] at hb2 hle h21 h22
    have hx : (c.b (.pool id)).amt kyve * c.pool.params.poolInflationPayoutRate / 10 ^ 18 = c.inflationPart id := rfl
    rw [hx] at hb2 hle h21 h22
    generalize hX : c.inflationPart id = x at *
    let e : Chain := { c with fund := s', b := b2, halted := c.halted || false }
    have e1 : c.tallyValid id (c.proposal id) v = e.tallyPay id (c.proposal id) v (f.add (Coins.single kyve x)) := by
      rw [e0]
      unfold tallyInflation
      have : Pool.chargeInflationPool (c.withFund ⟨s', b1⟩).pool (c.withFund ⟨s', b1⟩).b id = .ok (x, b2, false) := hb2
      rw [this]
      rfl
    have hargs : ∀ t, e.payoutArgs id u t = c.payoutArgs id u t := by
      intro t
      show Bundles.PayoutArgs.mk _ _ _ _ s'.params _ _ = _
      rw [hparams]; rfl
    have hpo : e.payouts id (f.add (Coins.single kyve x)) =
        Bundles.splitPayout (c.payoutArgs id u (f.add (Coins.single kyve x))) := by
      unfold payouts
      have : (e.proposal id).uploader = some u := hu
      rw [this]
      show Bundles.calculatePayouts (c.st.stakers.has u) _ = _
      rw [hs, hargs]
      rfl
    have htot : ∀ k, (f.add (Coins.single kyve x)).amt k = f.amt k + (if k = kyve then x else 0) := by
      intro k
      rw [Coins.amt_add, Coins.amt_single]
    cases hr : Bundles.splitPayout (c.payoutArgs id u (f.add (Coins.single kyve x))) with
    | none =>
      left
      refine ⟨?_, fun h => ?_⟩
      · rw [e1]
        unfold tallyPay
        rw [hpo, hr]
      · obtain ⟨r, hr'⟩ := Bundles.C22_total_partial (c.payoutArgs id u (f.add (Coins.single kyve x))) hf.fee
          (by
            show c.st.commission u ≤ Dec.one
            unfold Stakers.State.commission
            obtain ⟨y, hy⟩ := (Stakers.has_iff _ _).1 hs
            rw [hy]
            exact hf.st.inv.rate u y hy)
          (by
            intro k hk
            show c.fund.params.listed k = true
            have hk' : (f.add (Coins.single kyve x)).amt k ≠ 0 := Coins.mem_denoms.1 hk
            rw [htot] at hk'
            by_cases ek : k = kyve
            · rw [ek]; exact h.whitelist
            · rw [if_neg ek, hpart k] at hk'
              by_contra hl
              apply hk'
              unfold fundersPart
              rw [show (fun a => if c.fund.params.listed k = true then
                min ((Funders.Spec.left c.fw a id).amt k) ((Funders.Spec.promised c.fw a id).amt k) else 0) = fun _ => 0 from
                  funext (fun a => if_neg hl)]
              simp)
          h.dataSize
        rw [hr] at hr'; cases hr'
    | some r =>
      right
      have hcons := fun k => (Bundles.C22_conserved _ r hr k).1
      have hcom := fun k => (Bundles.C22_commission _ r hr k).2
      have hbp : ∀ k, (e.b (.mod .pool)).amt k = (c.b (.mod .pool)).amt k + (f.amt k + (if k = kyve then x else 0)) := by
        intro k
        show (b2 (.mod .pool)).amt k = _
        have h1 := (hb1 k).2
        change (b1 (.mod .pool)).amt k = (c.b (.mod .pool)).amt k + f.amt k at h1
        by_cases ek : k = kyve
        · subst ek; rw [h22, h1, if_pos rfl]; omega
        · rw [h23 _ _ (Or.inr ek), h1, if_neg ek]; omega
      obtain ⟨d, p1, p2, p3, p4, p5, p6, p7, p8⟩ := payReward_ok (c := e) (u := u) (r := r) hs
        (by
          rintro ⟨k, hk⟩
          have hd : c.delegated u = true := by
            apply delegated_of_amount
            by_contra hn
            exact hk (hcom k (by show decide (0 < c.del.amount u) = false; simpa using hn)).1
          exact hd)
        (fun k => by
          have h1 := hcons k
          change _ = (f.add (Coins.single kyve x)).amt k at h1
          rw [htot] at h1
          rw [hbp, h1]
          omega)
      refine ⟨f, r, d, ?_, ?_, hpart, hr⟩
      · rw [e1]
        unfold tallyPay
        rw [hpo, hr]
        simp only
        rw [hu, p1]
      · have hbal2 : ∀ k, r.treasury.amt k + r.storage.amt k + r.commission.amt k + r.delegation.amt k =
            f.amt k + (if k = kyve then x else 0) := fun k => by
          have h1 := hcons k
          change _ = (f.add (Coins.single kyve x)).amt k at h1
          rw [htot] at h1; exact h1
        have hsame : ∀ a k, a ≠ .pool id → a ≠ .mod .pool → a ≠ .mod .funders → (e.b a).amt k = (c.b a).amt k := by
          intro a k h1 h2 h3
          show (b2 a).amt k = _
          rw [h23 a k (Or.inl ⟨h1, h2⟩), hb1' a h3 h2]; rfl
        refine ⟨hbal2, fun k => ?_, fun k => ?_, fun k => ?_, fun k => ?_, fun k => ?_, p6, fun a k g1 g2 g3 g4 g5 g6 => ?_,
          fun a k g1 g2 => ?_, fun a p k hh => ?_, ?_, fun a p k hk => ?_⟩
        · rw [p7 _ k (by simp) (by simp) (by simp) (by simp)]
          show (b2 _).amt k + _ = _
          rw [h23 _ k (Or.inl ⟨by simp, by simp⟩)]
          exact (hb1 k).1
        · rw [p7 _ k (by simp) (by simp) (by simp) (by simp)]
          show (b2 _).amt k + _ = _
          by_cases ek : k = kyve
          · subst ek; rw [h21, if_pos rfl]; omega
          · rw [h23 _ k (Or.inr ek), hbal, if_neg ek]; omega
        · have h1 := p2 k
          rw [hbp, hbal2] at h1
          omega
        · rw [p3, hsame _ k (by simp) (by simp) (by simp)]
        · rw [p4, p5, hsame _ k (by simp) (by simp) (by simp), hsame _ k (by simp) (by simp) (by simp)]; omega
        · rw [p7 a k g3 g4 g5 g6, hsame a k g2 g3 g1]
        · have hl : Funders.Spec.left d.fw a id = Funders.Spec.left ⟨s', b1⟩ a id := by
            unfold Funders.Spec.left Chain.fw
            rw [p8]
          rw [hl]
          obtain ⟨q1, q2, q3, q4⟩ := hleft a id k
          exact q2 ⟨rfl, g1⟩ g2
        · have hl : Funders.Spec.left d.fw a p = Funders.Spec.left ⟨s', b1⟩ a p := by
            unfold Funders.Spec.left Chain.fw
            rw [p8]
          rw [hl]
          obtain ⟨q1, q2, q3, q4⟩ := hleft a p k
          by_cases hw : Funders.Spec.whitelisted c.fw k
          · rw [q4 (fun h => hh ⟨h.1, h.2, hw⟩)]
          · rw [q3 hw]
        · rw [p8]; exact hapart
        · have q1 : Funders.Spec.left d.fw a p = Funders.Spec.left ⟨s', b1⟩ a p := by
            unfold Funders.Spec.left Chain.fw; rw [p8]
          have q2 : Funders.Spec.promised d.fw a p = Funders.Spec.promised ⟨s', b1⟩ a p := by
            unfold Funders.Spec.promised Chain.fw; rw [p8]
          rw [q2]
          exact hterms a p k (by rw [← q1]; exact hk)

/-- Specification: a byte at storage provider `i` costs `x`: this is the first price listed for the provider, or nothing if
there is none -/
def Priced (p : Bundles.Params) (i : Nat) (x : Dec) : Prop :=
  (∃ before later, p.storageCosts = before ++ (i, x) :: later ∧ ∀ e ∈ before, e.1 ≠ i) ∨
  ((∀ e ∈ p.storageCosts, e.1 ≠ i) ∧ x = 0)

theorem priced (p : Bundles.Params) (i : Nat) : Priced p i (p.storageCost i) := by
  unfold Bundles.Params.storageCost Priced
  generalize p.storageCosts = l
  induction l with
  | nil => exact Or.inr ⟨fun e he => (by cases he), rfl⟩
  | cons e l ih =>
    rw [List.find?_cons]
    by_cases h : e.1 = i
    · left
      refine ⟨[], l, ?_, fun e he => by cases he⟩
      rw [show (e.1 == i) = true by simpa using h, ← h]; rfl
    · rw [show (e.1 == i) = false by simpa using h]
      rcases ih with ⟨b, t, h1, h2⟩ | ⟨h1, h2⟩
      · left
        refine ⟨e :: b, t, ?_, fun f hf => ?_⟩
        · rw [List.cons_append, ← h1]
        · rcases List.mem_cons.mp hf with rfl | hf
          · exact h
          · exact h2 f hf
      · right
        refine ⟨fun f hf => ?_, h2⟩
        rcases List.mem_cons.mp hf with rfl | hf
        · exact h
        · exact h1 f hf

/-- the reward of a bundle is computed from the charged coins, the network fee, the storage cost of the proposal's provider,
its data size, the whitelist and the uploader's commission; the delegators get their part if there are any -/
def RewardOf (c : Chain) (id : Nat) (u : Addr) (f : Coins) (r : Reward) : Prop :=
  ∃ (delegated : Bool) (cost : Dec), (delegated = true ↔ 0 < c.del.amount u) ∧
    Priced c.bun.params (c.proposal id).storageProviderId cost ∧ Bundles.splitPayout
    { total := f.add (Coins.single kyve (c.inflationPart id))
      fee := c.bun.params.networkFee
      cost := cost
      dataSize := (c.proposal id).dataSize
      whitelist := c.fund.params
      commission := c.st.commission u
      delegated := delegated } = some r

/-- the bundle is paid -/
def PaidFor (c c' : Chain) (id : Nat) : Prop :=
  ∃ u f r, (c.proposal id).uploader = some u ∧ (∀ d, f.amt d = c.fundersPart id d) ∧
    Paid id u f (c.inflationPart id) r c c' ∧ RewardOf c id u f r

theorem paid_left {id : Nat} {u : Addr} {f : Coins} {i : Nat} {r : Reward} {c d c' : Chain} (hm : Moved c d)
    (h : Paid id u f i r d c') : Paid id u f i r c c' := by
  have hr : ∀ a, a ≠ .mod .delegation → a ≠ .mod .treasury → ∀ k, (d.b a).amt k = (c.b a).amt k :=
    fun a h1 h2 k => by rw [hm.rest a h1 h2]
  refine ⟨h.balance, fun k => ?_, fun k => ?_, fun k => ?_, fun k => ?_, fun k => ?_, fun a k => ?_,
    fun a k g1 g2 g3 g4 g5 g6 => ?_, fun a k g1 g2 => ?_, fun a p k hh => ?_, ?_, fun a p k hk => ?_⟩
  · rw [h.funders, hr _ (by simp) (by simp)]
  · rw [h.inflation, hr _ (by simp) (by simp)]
  · rw [h.pool, hr _ (by simp) (by simp)]
  · rw [h.stakers, hr _ (by simp) (by simp)]
  · rw [h.treasury, hm.sum]
  · rw [h.uploader, hm.stakers]
  · rw [h.others a k g1 g2 g3 g4 g5 g6, hr a g6 g5]
  · have e := h.charge a k
    have e1 : Funders.Spec.left d.fw a id = Funders.Spec.left c.fw a id := by
      unfold Funders.Spec.left Chain.fw; rw [hm.fund]
    have e2 : Funders.Spec.promised d.fw a id = Funders.Spec.promised c.fw a id := by
      unfold Funders.Spec.promised Chain.fw; rw [hm.fund]
    have e3 : Funders.Spec.activeIn d.fw id = Funders.Spec.activeIn c.fw id := by
      unfold Funders.Spec.activeIn Chain.fw; rw [hm.fund]
    have e4 : Funders.Spec.whitelisted d.fw k = Funders.Spec.whitelisted c.fw k := by
      unfold Funders.Spec.whitelisted Chain.fw; rw [hm.fund]
    rw [e1, e2, e3, e4] at e
    exact e g1 g2
  · have e := h.free a p k
    have e1 : Funders.Spec.left d.fw a p = Funders.Spec.left c.fw a p := by
      unfold Funders.Spec.left Chain.fw; rw [hm.fund]
    have e3 : Funders.Spec.activeIn d.fw id = Funders.Spec.activeIn c.fw id := by
      unfold Funders.Spec.activeIn Chain.fw; rw [hm.fund]
    have e4 : Funders.Spec.whitelisted d.fw k = Funders.Spec.whitelisted c.fw k := by
      unfold Funders.Spec.whitelisted Chain.fw; rw [hm.fund]
    rw [e1, e3, e4] at e
    exact e hh
  · have e := h.apart; rw [hm.fund] at e; exact e
  · have e : ∀ p, Funders.Spec.promised d.fw a p = Funders.Spec.promised c.fw a p := fun p => by
      unfold Funders.Spec.promised Chain.fw; rw [hm.fund]
    rw [← e]
    exact h.terms a p k hk

theorem paid_right {id : Nat} {u : Addr} {f : Coins} {i : Nat} {r : Reward} {c d c' : Chain}
    (h : Paid id u f i r c d) (hm : Moved d c') : Paid id u f i r c c' := by
  have hr : ∀ a, a ≠ .mod .delegation → a ≠ .mod .treasury → ∀ k, (c'.b a).amt k = (d.b a).amt k :=
    fun a h1 h2 k => by rw [hm.rest a h1 h2]
  refine ⟨h.balance, fun k => ?_, fun k => ?_, fun k => ?_, fun k => ?_, fun k => ?_, fun a k => ?_,
    fun a k g1 g2 g3 g4 g5 g6 => ?_, fun a k g1 g2 => ?_, fun a p k hh => ?_, ?_, fun a p k hk => ?_⟩
  · rw [hr _ (by simp) (by simp), h.funders]
  · rw [hr _ (by simp) (by simp), h.inflation]
  · rw [hr _ (by simp) (by simp), h.pool]
  · rw [hr _ (by simp) (by simp), h.stakers]
  · rw [hm.sum, h.treasury]
  · rw [hm.stakers, h.uploader]
  · rw [hr a g6 g5, h.others a k g1 g2 g3 g4 g5 g6]
  · have e : Funders.Spec.left c'.fw a id = Funders.Spec.left d.fw a id := by
      unfold Funders.Spec.left Chain.fw; rw [hm.fund]
    rw [e]; exact h.charge a k g1 g2
  · have e : Funders.Spec.left c'.fw a p = Funders.Spec.left d.fw a p := by
      unfold Funders.Spec.left Chain.fw; rw [hm.fund]
    rw [e]; exact h.free a p k hh
  · rw [hm.fund]; exact h.apart
  · have e : Funders.Spec.left c'.fw a p = Funders.Spec.left d.fw a p := by
      unfold Funders.Spec.left Chain.fw; rw [hm.fund]
    have e' : Funders.Spec.promised c'.fw a p = Funders.Spec.promised d.fw a p := by
      unfold Funders.Spec.promised Chain.fw; rw [hm.fund]
    rw [e']
    exact h.terms a p k (by rw [← e]; exact hk)

theorem amount_addPoint (c : Chain) (id : Nat) {a u : Addr} (h : u ≠ a) : (c.addPoint id a).del.amount u = c.del.amount u := by
  unfold addPoint
  split
  · show (Delegation.slashDelegators (c.incPoints id a).dw a .timeout).s.amount u = _
    unfold Delegation.slashDelegators
    split
    · rfl
    · show ((c.incPoints id a).del.applyIndexed a _).amount u = _
      unfold Delegation.State.amount
      rw [Delegation.at_applyIndexed, if_neg h]; rfl
  · rfl

/-- a voter gets no point, and so is not slashed for it -/
theorem amount_pointLoop (id : Nat) (vs l : List Addr) (c : Chain) {u : Addr} (hu : u ∈ vs) :
    (pointLoop id vs l c).del.amount u = c.del.amount u := by
  induction l generalizing c with
  | nil => rfl
  | cons a l ih =>
    show (pointLoop id vs l (if a ∈ vs then c else c.addPoint id a)).del.amount u = _
    rw [ih]
    split
    · rfl
    · rename_i h
      exact amount_addPoint c id (fun e => h (e ▸ hu))

theorem Moved.inflationPart {c d : Chain} (hm : Moved c d) (hp : d.pool = c.pool) (id : Nat) :
    d.inflationPart id = c.inflationPart id := by
  unfold Chain.inflationPart
  rw [hm.rest (.pool id) (by simp) (by simp), hp]

theorem Moved.fundersPart {c d : Chain} (hm : Moved c d) (id : Nat) (k : Denom) :
    d.fundersPart id k = c.fundersPart id k := by
  unfold Chain.fundersPart Funders.Spec.activeIn Funders.Spec.left Funders.Spec.promised Chain.fw
  rw [hm.fund]

/-- a tally panics only if the bundle can not be paid; otherwise it ends, and a valid bundle is paid -/
theorem tally_cases {gov : Addr} {c : Chain} (hf : Fit gov c) {id : Nat} {pl : Pool.Pool}
    (hpl : c.pool.pools.get? id = some pl) (hp : PropOk c id (c.proposal id)) :
    (c.tally id (c.proposal id) = .panicked ∧ ¬ c.Payable id ∧ ((c.nonVoters id).dist id).status = .valid) ∨
    ∃ c' v, c.tally id (c.proposal id) = .done c' v ∧ (v.status = .valid → PaidFor c c' id) ∧
      (v.status ≠ .valid → Moved c c') := by
  have hm := moved_nonVoters c id
  have hq := nonVoters_q gov c id
  have hs := hq.still
  have hpr : (c.nonVoters id).proposal id = c.proposal id := hs.proposal id
  by_cases hv : ((c.nonVoters id).dist id).status = .valid
  · have hne : (c.proposal id).valid ≠ [] := by
      have := (dist_valid hv).2
      rw [hpr] at this; exact this
    have h0 : (c.proposal id).storageId ≠ 0 := fun e => by
      rw [hp.empty e] at hne; exact hne rfl
    obtain ⟨u, hu, hmem⟩ := (hp.full h0).2
    have hst : (c.nonVoters id).st.stakers.has u = true := by
      rw [hm.stakers]
      exact hp.voter u (by unfold voters; simp [hmem])
    have e : c.tally id (c.proposal id) = (c.nonVoters id).tallyValid id ((c.nonVoters id).proposal id)
        ((c.nonVoters id).dist id) := by
      unfold tally tallyOutcome
      rw [hv, hpr]
    rcases tallyValid_cases (hf.q hq) (by rw [hs.pool]; exact hpl) (by rw [hpr]; exact hu) hst
      ((c.nonVoters id).dist id) with ⟨h1, h2⟩ | ⟨f, r, d, h1, h2, h3, h4⟩
    · left
      refine ⟨e.trans h1, fun h => h2 ⟨?_, ?_, ?_⟩, hv⟩
      · rw [hpr]; exact h.dataSize
      · rw [hm.rest _ (by simp) (by simp)]; exact h.inflation
      · rw [hm.fund]; exact h.whitelist
    · right
      refine ⟨_, _, e.trans h1, fun _ => ?_, fun hn => absurd hv hn⟩
      rw [slashInvalid_punish]
      rw [hm.inflationPart hs.pool] at h2 h4
      refine ⟨u, f, r, hu, fun k => by rw [h3 k, hm.fundersPart], ?_, ?_⟩
      · exact paid_right (paid_left hm h2) (moved_punish _ _ _)
      · have hdel : (c.nonVoters id).del.amount u = c.del.amount u :=
          amount_pointLoop id _ _ c (by unfold voters; simp [hmem])
        refine ⟨decide (0 < c.del.amount u), _, decide_eq_true_iff, priced _ _, ?_⟩
        unfold payoutArgs at h4
        rw [hdel] at h4
        rw [hpr, hs.bun, hm.fund] at h4
        unfold Stakers.State.commission at h4 ⊢
        rw [hm.stakers] at h4
        exact h4
  · right
    have hn : ∀ v : VoteDist, v.status ≠ .valid → ∃ c', (c.nonVoters id).tallyOutcome id (c.proposal id) v = .done c' v ∧
        Moved c c' := by
      intro v hv
      unfold tallyOutcome
      split
      · rename_i h; exact absurd h hv
      · exact ⟨_, rfl, by rw [slashValid_punish]; exact hm.trans (moved_punish _ _ _)⟩
      · exact ⟨_, rfl, hm⟩
    obtain ⟨c', h1, h2⟩ := hn _ hv
    exact ⟨c', _, h1, fun h => absurd h hv, fun _ => h2⟩

/-- a tally never fails half-way -/
theorem tally_not_failed {gov : Addr} {c : Chain} (hf : Fit gov c) {id : Nat} {pl : Pool.Pool}
    (hpl : c.pool.pools.get? id = some pl) (hp : PropOk c id (c.proposal id)) (x : Chain) :
    c.tally id (c.proposal id) ≠ .failed x := by
  rcases tally_cases hf hpl hp with ⟨h, -⟩ | ⟨c', v, h, -⟩ <;> rw [h] <;> simp

/-! ## C22 for messages -/

theorem finalize_bank (c : Chain) (id : Nat) (v : VoteDist) :
    (c.finalize id v).b = c.b ∧ (c.finalize id v).st = c.st ∧ (c.finalize id v).fund = c.fund := by
  unfold finalize; split <;> exact ⟨rfl, rfl, rfl⟩

theorem register_bank (c : Chain) (m : SubmitMsg) (n : Option Addr) :
    (c.register m n).b = c.b ∧ (c.register m n).st = c.st ∧ (c.register m n).fund = c.fund := by
  unfold register; split <;> exact ⟨rfl, rfl, rfl⟩

theorem moved_of_eq {c c' : Chain} (h1 : c'.b = c.b) (h2 : c'.st = c.st) (h3 : c'.fund = c.fund) : Moved c c' :=
  ⟨fun _ _ _ => by rw [h1], fun _ => by rw [h1], by rw [h2], h3⟩

theorem PaidFor.right {c d c' : Chain} {id : Nat} (h : PaidFor c d id) (hm : Moved d c') : PaidFor c c' id := by
  obtain ⟨u, f, r, h1, h2, h3, h4⟩ := h
  exact ⟨u, f, r, h1, h2, paid_right h3 hm, h4⟩

theorem PaidFor.left {c d c' : Chain} {id : Nat} (hm : Moved c d) (hs : Still c d) (hd : d.del = c.del)
    (h : PaidFor d c' id) : PaidFor c c' id := by
  obtain ⟨u, f, r, h1, h2, h3, dl, k, h5, h6, h4⟩ := h
  have hpr := hs.proposal id
  rw [hm.inflationPart hs.pool] at h3 h4
  rw [hpr] at h1 h4
  rw [hs.bun, hm.fund] at h4
  rw [hd] at h5
  rw [hs.bun, hpr] at h6
  unfold Stakers.State.commission at h4
  rw [hm.stakers] at h4
  exact ⟨u, f, r, h1, fun k => by rw [h2 k, hm.fundersPart], paid_left hm h3, dl, k, h5, h6, h4⟩

/-- what a message of x/bundles does with money: it finalizes the proposal and pays for it, or it moves nothing but slashed
coins -/
theorem money_submit {gov : Addr} {c c' : Chain} (h : Good gov c) {m : SubmitMsg} (hx : c.submit m = .ok c') :
    (c.bun.finalized = c'.bun.finalized ∧ Moved c c') ∨
    (PaidFor c c' m.pool ∧ ∃ pl, c.pool.pools.get? m.pool = some pl ∧
      (c'.bun.finalized.get? (m.pool, pl.totalBundles)).isSome = true) := by
  obtain ⟨h1, -, -⟩ := submit_ok hx
  obtain ⟨pl, hpl, -⟩ := canPropose_none h1
  have hpl := hpl.found
  have m0 := moved_resetPoints c m.pool m.staker
  have s0 := (resetPoints_fixed c m.pool m.staker).still
  rcases submit_cases hx with ⟨-, rfl⟩ | ⟨h0, y, v, ht, hh⟩
  · left
    unfold submitFirst
    obtain ⟨e1, e2, e3⟩ := register_bank ((c.resetPoints m.pool m.staker).setProgress m.pool
      ((c.resetPoints m.pool m.staker).choice m.pool []).2) m ((c.resetPoints m.pool m.staker).choice m.pool []).1
    refine ⟨?_, m0.trans (moved_of_eq e1 e2 e3)⟩
    rw [register_get (c := (c.resetPoints m.pool m.staker).setProgress m.pool _) hpl]
    rfl
  · have hfit : Fit gov (c.resetPoints m.pool m.staker) := (Good.fit h).q (.one (.reset m.pool m.staker) trivial)
    have hpo : PropOk (c.resetPoints m.pool m.staker) m.pool ((c.resetPoints m.pool m.staker).proposal m.pool) :=
      (h.bun.prop m.pool).mono (fun a ha => by rw [m0.stakers]; exact ha) (le_refl _)
    have ht' : (c.resetPoints m.pool m.staker).tally m.pool ((c.resetPoints m.pool m.staker).proposal m.pool) = .done y v := ht
    obtain ⟨f1, -, -⟩ := tally_spec ht
    have s1 := Still.trans s0 f1.still
    rcases tally_cases hfit hpl hpo with ⟨hc, -⟩ | ⟨y', v', hc, hp1, hp2⟩
    · rw [ht'] at hc; cases hc
    · rw [ht'] at hc; injection hc with e1 e2; subst e1; subst e2
      rcases hh with ⟨hval, rfl⟩ | ⟨hinv, rfl⟩
      · right
        have hpy : y.pool.pools.get? m.pool = some pl := by rw [s1.pool]; exact hpl
        have hmv : Moved y (y.submitNext m (c.proposal m.pool) v) := by
          unfold submitNext
          obtain ⟨e1, e2, e3⟩ := register_bank ((y.setProgress m.pool (y.choiceFrom m.pool (c.proposal m.pool).valid).2).finalize
            m.pool v) m (y.choiceFrom m.pool (c.proposal m.pool).valid).1
          obtain ⟨f1, f2, f3⟩ := finalize_bank (y.setProgress m.pool (y.choiceFrom m.pool (c.proposal m.pool).valid).2) m.pool v
          exact moved_of_eq (e1.trans f1) (e2.trans f2) (e3.trans f3)
        refine ⟨((hp1 hval).left m0 s0 rfl).right hmv, pl, hpl, ?_⟩
        have hky0 : Keyed y := keyed_still (keyed_of h.mods.pool rfl) s1
        have hky : Keyed (y.setProgress m.pool (y.choiceFrom m.pool (c.proposal m.pool).valid).2) := hky0
        obtain ⟨pl', hpl', -⟩ := finalize_pool_get hky hpy v
        unfold submitNext
        rw [register_get hpl']
        show (((y.setProgress m.pool _).finalize m.pool v).bun.finalized.get? _).isSome = true
        unfold finalize
        have hpy' : (y.setProgress m.pool (y.choiceFrom m.pool (c.proposal m.pool).valid).2).pool.pools.get? m.pool = some pl := hpy
        rw [hpy']
        show ((Map.set _ _ _).get? _).isSome = true
        rw [Map.get?_set_self]; rfl
      · left
        refine ⟨by rw [← s1.bun]; rfl, (m0.trans (hp2 (by rw [hinv]; simp))).trans (moved_of_eq rfl rfl rfl)⟩

end Chain
end Verif.Chain
