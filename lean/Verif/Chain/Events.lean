import Verif.Chain.Spending
import Verif.Chain.Queues
import Verif.Chain.SampleReach

/-!
# C109: the events account for every change of a balance

Somebody who follows the chain by its events (an indexer, an exchange, a tax report) adds up what the events say an account
paid and received.  The model of the events that tell of coins on user accounts, and the property: these sums are the changes
of the balances.  It is false of the code for funders that lose their slot: the event says that nothing was paid back.
-/

set_option linter.dupNamespace false
namespace Verif.Chain
open Verif
open Verif.Bundles (Proposal VoteDist Status)

/-- the events that tell of coins of users -/
inductive Event where
  /-- `EventFundPool` of x/funders -/
  | funded (pool : Nat) (who : Addr) (amounts perBundle : Coins)
  /-- `EventDefundPool` of x/funders -/
  | defunded (pool : Nat) (who : Addr) (amounts : Coins)
  /-- `EventDelegate` of x/delegation -/
  | delegated (who staker : Addr) (amount : Nat)
  /-- `EventUndelegate` of x/delegation -/
  | undelegated (who staker : Addr) (amount : Nat)
  /-- `EventWithdrawRewards` of x/delegation -/
  | withdrawn (who staker : Addr) (amounts : Coins)
  /-- `EventClaimCommissionRewards` of x/stakers -/
  | claimed (staker : Addr) (amounts : Coins)
  /-- `EventJoinPool` of x/stakers; the receiver is the valaddress -/
  | joined (pool : Nat) (staker : Addr) (receiver : Acct) (amount : Nat)

/-! ## which events are emitted -/

namespace Chain

/-- /repo/x/delegation/keeper/logic_delegation.go:62-78 `performWithdrawal`: an event, unless the transfer fails -/
def withdrawal (w : Delegation.World) (st : Addr) (op : Delegation.Op) (who : Addr) : List Event :=
  match Delegation.rewardTransfer w st op who with
  | .error _ => []
  | .ok _ => [.withdrawn who st (Delegation.f1Reward (w.s.at st) op)]

/-- logic_delegation.go:11-31 `performDelegation`: a withdrawal, if there is a delegation already -/
def delegation (w : Delegation.World) (st who : Addr) (n : Nat) : List Event :=
  if (w.s.at st).dels.has who then withdrawal w st (.delegate who n) who else []

/-- one round of /repo/x/delegation/keeper/logic_unbonding.go:44-84; the event of the undelegation (74-78) is emitted even if
the transfer fails -/
def roundEvents (w : Delegation.World) (now : Nat) : List Event :=
  match w.s.queue.get? (w.s.low + 1) with
  | none => []
  | some e =>
    if Delegation.due w.s.params now e then
      withdrawal w e.staker (.undelegate e.delegator e.amount) e.delegator ++
        [.undelegated e.delegator e.staker (Delegation.entryPays w.s e)]
    else []

/-- the loop of logic_unbonding.go:44-84, as `Delegation.queueLoop` -/
def loopEvents (now : Nat) : Nat → Delegation.World → List Event
  | 0, _ => []
  | fuel + 1, w => match Delegation.queueRound w now with
    | none => []
    | some w' => roundEvents w now ++ loopEvents now fuel w'

/-- the queue of x/delegation, as `Delegation.processQueue` and `Delegation.beginBlock` -/
def queueEvents (w : Delegation.World) (now : Nat) (restarted : Bool) : List Event :=
  loopEvents now
    ((if restarted then (⟨Delegation.initMemStore w.s, w.b⟩ : Delegation.World) else w).s.high -
      (if restarted then (⟨Delegation.initMemStore w.s, w.b⟩ : Delegation.World) else w).s.low +
      (if restarted then (⟨Delegation.initMemStore w.s, w.b⟩ : Delegation.World) else w).s.queue.size)
    (if restarted then ⟨Delegation.initMemStore w.s, w.b⟩ else w)

/-- the event of /repo/x/funders/keeper/logic_funders.go:195-238 `ensureFreeSlot`, when a funder loses its slot.  The amounts
are those of the variable `lowestFunding`, which were set to zero a few lines above (223). -/
def evictionEvents (s : Funders.State) (m : Funders.FundMsg) : List Event :=
  match s.active.get? m.pool with
  | none => []
  | some l => match Funders.ensureParams s.params (Funders.mergeFunding (s.funding? m.creator m.pool) m) with
    | .error _ => []
    | .ok f =>
      if (s.activeFundings m.pool l).length < Funders.MaxFunders then []
      else match Funders.lowestFunding s.params (s.activeFundings m.pool l) with
        | none => []
        | some low =>
          if low.funder = f.funder then []
          else [.defunded m.pool low.funder ({ low with amounts := Coins.zero, perBundle := Coins.zero } : Funders.Funding).amounts]

/-- the events of a begin block; none, if it panics -/
def splitEvents (restarted : Bool) : Option Chain → List Event
  | none => []
  | some x => queueEvents x.dw x.now restarted

/-- the events of an operation that succeeds:
x/funders/keeper/msg_server_fund_pool.go:88-93, msg_server_defund_pool.go:61-65, x/delegation/keeper/msg_server_delegate.go:33-37,
msg_server_redelegate.go:44-50, msg_server_withdraw_rewards.go, x/stakers/keeper/msg_server_create_staker.go:35-43 (the
self-delegation is a `MsgDelegate`), msg_server_join_pool.go:80-85, msg_server_claim_commission_rewards.go:38-41, and the begin
block of x/delegation.  `EventCreateStaker` and `EventRedelegate` repeat amounts and are left out, as are events without coins
of users. -/
def emitted (c : Chain) : Op → List Event
  | .fund m => evictionEvents c.fund m ++ [.funded m.pool m.creator m.amounts m.perBundle]
  | .defund m => match c.fund.funding? m.creator m.pool with
    | none => []
    | some f => [.defunded m.pool m.creator (f.amounts.min m.amounts)]
  | .delegate a st n => delegation c.dw st a n ++ [.delegated a st n]
  | .createStaker a _ n => delegation c.dw a a n ++ [.delegated a a n]
  | .redelegate m => match Delegation.consumeSpell c.del c.now m.creator with
    | .error _ => []
    | .ok s => withdrawal ⟨s, c.b⟩ m.src (.undelegate m.creator m.amount) m.creator ++
        delegation (Delegation.performUndelegation ⟨s, c.b⟩ m.src m.creator m.amount) m.dst m.creator m.amount
  | .withdraw a st => withdrawal c.dw st (.withdraw a) a
  | .claimRewards a x => [.claimed a x]
  | .join m => [.joined m.pool m.creator m.dst m.amount]
  | .beginBlock dt pr te r => splitEvents r ((c.newBlock dt r).splitInflation pr te)
  | _ => []

/-- the events of an operation; the events of a failing message are dropped with it -/
def events (gov : Addr) (c : Chain) (op : Op) : List Event :=
  if c.crashed then []
  else match exec gov c op with
    | .error _ => []
    | .ok _ => c.emitted op

end Chain

/-! ## specification -/

namespace Spec

/-- what the event says `u` received of the coin `d` -/
def gets (u : Addr) (d : Denom) : Event → Nat
  | .defunded _ w x => if w = u then x.amt d else 0
  | .undelegated w _ n => if w = u ∧ d = kyve then n else 0
  | .withdrawn w _ x => if w = u then x.amt d else 0
  | .claimed w x => if w = u then x.amt d else 0
  | .joined _ _ a n => if a = .user u ∧ d = kyve then n else 0
  | _ => 0

/-- what the event says `u` paid of the coin `d` -/
def gives (u : Addr) (d : Denom) : Event → Nat
  | .funded _ w x _ => if w = u then x.amt d else 0
  | .delegated w _ n => if w = u ∧ d = kyve then n else 0
  | .joined _ w _ n => if w = u ∧ d = kyve then n else 0
  | _ => 0

/-- what `u` received according to the events -/
def received (l : List Event) (u : Addr) (d : Denom) : Nat := (l.map (gets u d)).sum

/-- what `u` paid according to the events -/
def paid (l : List Event) (u : Addr) (d : Denom) : Nat := (l.map (gives u d)).sum

/-- the events explain the change of the balances of `u` -/
def Explains (l : List Event) (u : Addr) (b b' : Bank) : Prop :=
  ∀ d, (b' (.user u)).amt d + paid l u d = (b (.user u)).amt d + received l u d

/-- the active funders of a pool -/
def fundersOf (c : Chain) (id : Nat) : List Addr := (c.fund.active.get? id).getD []

/-- `u` loses its slot in a pool because somebody else funds it -/
def LosesSlot (c c' : Chain) (op : Chain.Op) (u : Addr) : Prop :=
  ∃ m, op = .fund m ∧ u ≠ m.creator ∧ u ∈ fundersOf c m.pool ∧ u ∉ fundersOf c' m.pool

end Spec

open Spec
namespace Chain
variable {gov : Addr} {c c' : Chain} {u : Addr}

theorem received_append (l l' : List Event) (u : Addr) (d : Denom) : received (l ++ l') u d = received l u d + received l' u d := by
  unfold received; rw [List.map_append, List.sum_append]

theorem paid_append (l l' : List Event) (u : Addr) (d : Denom) : paid (l ++ l') u d = paid l u d + paid l' u d := by
  unfold paid; rw [List.map_append, List.sum_append]

theorem Explains.refl (b : Bank) : Explains [] u b b := fun _ => rfl

theorem Explains.of_eq {b b' : Bank} (h : b' (.user u) = b (.user u)) : Explains [] u b b' := fun d => by rw [h]; rfl

theorem Explains.append {l l' : List Event} {b b' b'' : Bank} (h : Explains l u b b') (h' : Explains l' u b' b'') :
    Explains (l ++ l') u b b'' := fun d => by
  have := h d; have := h' d
  rw [received_append, paid_append]
  omega

/-- a payment of a module to a user -/
theorem Explains.get {b b' : Bank} {m : Mod} {w : Addr} {x : Coins} (h : b.send (.mod m) (.user w) x = .ok b') {e : Event}
    (hg : ∀ d, gets u d e = if w = u then x.amt d else 0) (hn : ∀ d, gives u d e = 0) : Explains [e] u b b' := fun d => by
  have := (Bank.send_ok h).2 (.user u) d
  rw [if_neg (by rintro ⟨⟩)] at this
  show _ + (gives u d e + 0) = _ + (gets u d e + 0)
  rw [hg, hn, this]
  by_cases hw : w = u
  · rw [if_pos hw, if_pos (by rw [hw])]; omega
  · rw [if_neg hw, if_neg (by rintro ⟨⟩; exact hw rfl)]; omega

/-- a payment of a user to a module -/
theorem Explains.give {b b' : Bank} {m : Mod} {w : Addr} {x : Coins} (h : b.send (.user w) (.mod m) x = .ok b') {e : Event}
    (hg : ∀ d, gives u d e = if w = u then x.amt d else 0) (hn : ∀ d, gets u d e = 0) : Explains [e] u b b' := fun d => by
  obtain ⟨h1, h2⟩ := Bank.send_ok h
  have := h2 (.user u) d
  rw [if_neg (show ¬ Acct.user u = .mod m by rintro ⟨⟩)] at this
  show _ + (gives u d e + 0) = _ + (gets u d e + 0)
  rw [hg, hn, this]
  by_cases hw : w = u
  · subst hw
    have := h1 d
    rw [if_pos rfl, if_pos rfl]; omega
  · rw [if_neg hw, if_neg (by rintro ⟨⟩; exact hw rfl)]; omega

theorem single_amt (n : Nat) (w : Addr) (d : Denom) :
    (if w = u ∧ d = kyve then n else 0) = if w = u then (Coins.single kyve n).amt d else 0 := by
  rw [Coins.amt_single]
  by_cases h1 : w = u <;> by_cases h2 : d = kyve <;> simp [h1, h2]

/-! ## x/delegation -/

/-- the bank after an F1 operation with its withdrawal -/
theorem explains_performOp (w : Delegation.World) (st : Addr) (op : Delegation.Op) (who : Addr) :
    Explains (withdrawal w st op who) u w.b (Delegation.performOp w st op who).b := by
  have e : (Delegation.performOp w st op who).b = w.b.orKeep (Delegation.rewardTransfer w st op who) := rfl
  rw [e]
  unfold withdrawal
  cases h : Delegation.rewardTransfer w st op who with
  | error _ => exact Explains.refl _
  | ok b => exact Explains.get h (fun _ => rfl) (fun _ => rfl)

theorem explains_delegation (w : Delegation.World) (st who : Addr) (n : Nat) :
    Explains (delegation w st who n) u w.b (Delegation.performDelegation w st who n).b := by
  unfold delegation
  split
  · exact explains_performOp w st _ who
  · rename_i hn
    have hz : Delegation.f1Reward (w.s.at st) (.delegate who n) = Coins.zero := by
      show (Delegation.delegate _ _ _).2 = _
      rw [Delegation.delegate_snd]
      unfold Delegation.withdraw
      have : (w.s.at st).dels.get? who = none := by
        unfold Map.has at hn
        simpa using hn
      rw [this]
    have := explains_performOp (u := u) w st (.delegate who n) who
    intro d
    have := this d
    refine Eq.trans ?_ (this.trans ?_)
    · show _ + 0 = _ + paid (withdrawal w st (.delegate who n) who) u d
      unfold withdrawal
      split <;> rfl
    · show _ + received (withdrawal w st (.delegate who n) who) u d = _ + 0
      unfold withdrawal
      split
      · rfl
      · rw [hz]
        show _ + ((if who = u then (Coins.zero).amt d else 0) + 0) = _
        rw [show (Coins.zero).amt d = 0 from rfl, ite_self]

theorem explains_delegateMsg {w w' : Delegation.World} {ex : Bool} {a st : Addr} {n : Nat}
    (h : Delegation.delegateMsg w ex a st n = .ok w') :
    Explains (delegation w st a n ++ [.delegated a st n]) u w.b w'.b := by
  unfold Delegation.delegateMsg at h
  split at h
  · cases h
  · split at h
    · cases h
    · rename_i b hb
      cases h
      refine Explains.append (explains_delegation w st a n) ?_
      unfold Delegation.transferUser at hb
      split at hb
      · exact Explains.give hb (fun d => single_amt n a d) (fun _ => rfl)
      · cases hb

theorem explains_loop (now fuel : Nat) (w : Delegation.World) (hh : (Delegation.queueLoop now fuel w).s.halted = false) :
    Explains (loopEvents now fuel w) u w.b (Delegation.queueLoop now fuel w).b := by
  induction fuel generalizing w with
  | zero => exact Explains.refl _
  | succ n ih =>
    unfold Delegation.queueLoop at hh ⊢
    unfold loopEvents
    cases hr : Delegation.queueRound w now with
    | none => exact Explains.refl _
    | some w' =>
      rw [hr] at hh
      have hh : (Delegation.queueLoop now n w').s.halted = false := hh
      refine Explains.append ?_ (ih w' hh)
      unfold Delegation.queueRound at hr
      unfold roundEvents
      split at hr
      · rename_i hq
        rw [hq]
        split at hr
        · injection hr with hr; rw [← hr]; exact Explains.refl _
        · cases hr
      · rename_i e hq
        rw [hq]
        split at hr
        · rename_i hd
          injection hr with hr
          rw [← hr] at hh ⊢
          have h1 := Delegation.queueLoop_halted _ _ _ hh
          have hh' : ((Delegation.performUndelegation w e.staker e.delegator e.amount).s.halted
              || Bank.failed (Delegation.entryTransfer w e)) = false := h1
          rw [Bool.or_eq_false_iff] at hh'
          show Explains (if Delegation.due w.s.params now e then _ else _) u w.b _
          rw [if_pos hd]
          refine Explains.append (explains_performOp w e.staker (.undelegate e.delegator e.amount) e.delegator) ?_
          show Explains _ u (Delegation.performUndelegation w e.staker e.delegator e.amount).b
            ((Delegation.performUndelegation w e.staker e.delegator e.amount).b.orKeep (Delegation.entryTransfer w e))
          cases ht : Delegation.entryTransfer w e with
          | error x => rw [ht] at hh'; cases hh'.2
          | ok b => exact Explains.get ht (fun d => single_amt _ _ d) (fun _ => rfl)
        · cases hr

theorem explains_queue (w : Delegation.World) (now : Nat) (r : Bool) (hh : (Delegation.beginBlock w now r).s.halted = false) :
    Explains (queueEvents w now r) u w.b (Delegation.beginBlock w now r).b := by
  have hb : (if r then (⟨Delegation.initMemStore w.s, w.b⟩ : Delegation.World) else w).b = w.b := by split <;> rfl
  rw [← hb]
  exact explains_loop now _ _ hh

/-! ## x/bundles: nothing happens on the accounts of users -/

theorem user_micro (μ : Micro) (ho : μ.Ok gov c) (hj : μ.judging = true) : (μ.run gov c).b (.user u) = c.b (.user u) := by
  have hm : ∀ {b b' : Bank} {m m' : Mod} {x : Coins}, b.send (.mod m) (.mod m') x = .ok b' → b' (.user u) = b (.user u) :=
    fun {b b' m m' x} h => Coins.ext fun d => by
      have := (Bank.send_ok h).2 (.user u) d
      rw [if_neg (by rintro ⟨⟩), if_neg (by rintro ⟨⟩)] at this
      exact this
  cases μ with
  | del act =>
    cases act <;> first | (cases hj; done) | skip
    · rename_i st x
      show (Delegation.orElse c.dw (Delegation.payoutRewards c.dw .pool st x)).b (.user u) = _
      cases h : Delegation.payoutRewards c.dw .pool st x with
      | error e => rfl
      | ok w' =>
        unfold Delegation.payoutRewards at h
        split at h
        · cases h; rfl
        · split at h
          · cases h
          · split at h
            · cases h
            · rename_i b hb
              cases h
              exact hm hb
    · rename_i st t
      show (Delegation.slashDelegators c.dw st t).b (.user u) = _
      unfold Delegation.slashDelegators
      split
      · rfl
      · show (c.b.orKeep (Delegation.slashTransfer c.dw st _)) (.user u) = _
        cases hs : Delegation.slashTransfer c.dw st (c.dw.s.params.slashFraction t) with
        | error e => rfl
        | ok b => exact hm hs
  | st op =>
    cases op <;> first | (cases hj; done) | skip
    · rfl
    · rfl
    · rfl
    · rename_i st x
      show (Stakers.orElse c.sw (Stakers.increaseRewards c.sw .pool st x)).b (.user u) = _
      cases h : Stakers.increaseRewards c.sw .pool st x with
      | error e => rfl
      | ok w' =>
        rcases Stakers.increase_ok h with ⟨-, rfl⟩ | ⟨y, -, hb, -⟩
        · rfl
        · exact hm hb
  | fund op =>
    cases op <;> first | (cases hj; done) | skip
    rename_i id
    show (Funders.orElseC c.fw (Funders.chargeFundersOfPool c.fund c.b id)).b (.user u) = _
    cases h : Funders.chargeFundersOfPool c.fund c.b id with
    | error e => rfl
    | ok r =>
      unfold Funders.chargeFundersOfPool at h
      split at h
      · cases h
      · simp only at h
        split at h
        · cases h; rfl
        · split at h
          · cases h
          · rename_i b' hb
            cases h
            exact hm hb
  | pay b hl => exact ho.user u
  | finalize id v =>
    show (c.finalize id v).b (.user u) = _
    unfold finalize; split <;> rfl
  | register m n =>
    show (c.register m n).b (.user u) = _
    unfold register; split <;> rfl
  | pool op => rfl
  | blank | next | cast | progress | crash => rfl
  | _ => cases hj

theorem user_steps (h : JSteps gov c c') : c'.b (.user u) = c.b (.user u) := by
  induction h with
  | refl => rfl
  | cons μ _ ho hj hf ih => exact (user_micro μ ho hj).trans ih

theorem user_disable {x : Addr} {id : Nat} (h : disablePool gov c x id = .ok c') : c'.b (.user u) = c.b (.user u) := by
  unfold disablePool at h
  split at h
  · cases h
  · unfold drain at h
    split at h
    · cases h
      rw [kickAll_b]
    · split at h
      · cases h
      · split at h
        · cases h
        · rename_i b hb
          cases h
          refine Coins.ext fun d => ?_
          have := (Bank.send_ok hb).2 (.user u) d
          rw [if_neg (by rintro ⟨⟩), if_neg (by rintro ⟨⟩), kickAll_b] at this
          exact this

/-! ## x/funders -/

theorem explains_fund (hi : Funders.Inv c.fw) {m : Funders.FundMsg} {s' : Funders.State} {b' : Bank}
    (hr : Funders.fundPool c.fund c.b (c.pool.pools.has m.pool) m = .ok (s', b'))
    (hu : u ≠ m.creator → u ∈ (c.fund.active.get? m.pool).getD [] → u ∈ (s'.active.get? m.pool).getD []) :
    Explains (evictionEvents c.fund m ++ [.funded m.pool m.creator m.amounts m.perBundle]) u c.b b' := by
  obtain ⟨l, f, wk, -, -, hl, -, hfc, hfp, hwk, hb, hs'⟩ := Funders.fund_ok (w := c.fw) hi hr
  refine Explains.append (b' := wk.b) ?_ (Explains.give hb (fun _ => rfl) (fun _ => rfl))
  have hl : c.fund.active.get? m.pool = some l := hl
  have hz : ∀ d, paid (evictionEvents c.fund m) u d = 0 ∧ received (evictionEvents c.fund m) u d = 0 := by
    intro d
    unfold evictionEvents
    split
    · exact ⟨rfl, rfl⟩
    · split
      · exact ⟨rfl, rfl⟩
      · split
        · exact ⟨rfl, rfl⟩
        · split
          · exact ⟨rfl, rfl⟩
          · split
            · exact ⟨rfl, rfl⟩
            · rename_i low _ _
              refine ⟨rfl, ?_⟩
              show (if low.funder = u then (Coins.zero).amt d else 0) + 0 = 0
              rw [show (Coins.zero).amt d = 0 from rfl, ite_self]
  intro d
  rw [(hz d).1, (hz d).2]
  rcases Funders.ensureFreeSlot_ok hwk with ⟨rfl, -⟩ | ⟨low, x, y, b1, hlow, hne, -, -, -, -, -, hb1, hw⟩
  · rfl
  · have hfn : low.funder ∈ l := by
      obtain ⟨a, ha, hf⟩ := List.mem_filterMap.1 hlow
      have := hi.key _ _ hf
      rw [Prod.mk.injEq] at this
      rw [this.1]; exact ha
    have hneu : low.funder ≠ u := by
      rintro rfl
      rw [hfc] at hne
      have := hu hne (by rw [hl]; exact hfn)
      rw [hs', hw] at this
      have e : (((c.fund.setFunding { low with amounts := Coins.zero, perBundle := Coins.zero }).setFunding f).setActive m.pool
          (Funders.setActive (Funders.setInactive l low.funder) f.funder)).active.get? m.pool =
          some (Funders.setActive (Funders.setInactive l low.funder) f.funder) := Map.get?_set_self _ _ _
      have this : low.funder ∈ ((((c.fund.setFunding { low with amounts := Coins.zero, perBundle := Coins.zero }).setFunding
          f).setActive m.pool (Funders.setActive (Funders.setInactive l low.funder) f.funder)).active.get? m.pool).getD [] := this
      rw [e] at this
      have this : low.funder ∈ Funders.setActive (Funders.setInactive l low.funder) f.funder := this
      unfold Funders.setActive at this
      have hno : low.funder ∉ Funders.setInactive l low.funder := fun h =>
        ((Funders.mem_setInactive (hi.nodup _ _ hl)).1 h).2 rfl
      split at this
      · exact hno this
      · rcases List.mem_append.1 this with h | h
        · exact hno h
        · exact hne (by rw [List.mem_singleton.1 h, hfc])
    have := (Bank.send_ok hb1).2 (.user u) d
    rw [if_neg (by rintro ⟨⟩), if_neg (by rintro ⟨⟩; exact hneu rfl)] at this
    rw [hw]
    exact congrArg (· + 0) this

theorem explains_afterSplit (c : Chain) (r : Bool) (o : Option Chain) (h : ∀ x, o = some x → x.b (.user u) = c.b (.user u))
    (hh : (c.afterSplit r o).del.halted = false) :
    Explains (splitEvents r o) u c.b (c.afterSplit r o).b := by
  cases o with
  | none => exact Explains.refl _
  | some x => exact Explains.append (l := []) (Explains.of_eq (h x rfl)) (explains_queue x.dw x.now r hh)

/-- a message that succeeds -/
theorem explains_exec (h : Reachable gov c) (op : Op) (ho : op.inner = true) (he : exec gov c op = .ok c')
    (hh : c'.del.halted = false) (hu : ¬ LosesSlot c c' op u) : Explains (c.emitted op) u c.b c'.b := by
  have hs := (Reachable.good h).sound
  cases op with
  | submit m => exact Explains.of_eq (user_steps (submit_steps (gov := gov) hs.mem he))
  | vote m => exact Explains.of_eq (user_steps (vote_steps (gov := gov) hs.mem he))
  | skip m => exact Explains.of_eq (user_steps (skip_steps (gov := gov) hs he))
  | claim x y id => exact Explains.of_eq (user_steps (claim_steps (gov := gov) hs.mem he))
  | endBlock =>
    injection he with he
    rw [← he]
    exact Explains.of_eq (user_steps (endBlock_steps (gov := gov) hs.mem))
  | createStaker x k n =>
    have he' : c.createStaker x k n = .ok c' := he
    unfold createStaker at he'
    split at he'
    · cases he'
    · split at he'
      · cases he'
      · rename_i w hw
        cases he'
        exact explains_delegateMsg hw
  | join m =>
    obtain ⟨w, hw, rfl⟩ := join_eq he
    have hb := Stakers.joinPool_send hw
    have e : ((c.withSt (Stakers.noteGift m c.sw w)).noteGifts m).b = w.b := by
      show (Stakers.noteGift m c.sw w).b = w.b
      unfold Stakers.noteGift; split <;> rfl
    rw [e]
    intro d
    obtain ⟨h1, h2⟩ := Bank.send_ok hb
    have h1 := h1 d
    have h2 := h2 (.user u) d
    show _ + ((if m.creator = u ∧ d = kyve then m.amount else 0) + 0) =
      _ + ((if m.dst = .user u ∧ d = kyve then m.amount else 0) + 0)
    have e1 : (if m.creator = u ∧ d = kyve then m.amount else 0) =
        if Acct.user u = .user m.creator then (Coins.single kyve m.amount).amt d else 0 := by
      rw [single_amt]
      by_cases hc : m.creator = u
      · rw [if_pos hc, if_pos (by rw [hc])]
      · rw [if_neg hc, if_neg (by rintro ⟨⟩; exact hc rfl)]
    have e2 : (if m.dst = .user u ∧ d = kyve then m.amount else 0) =
        if Acct.user u = m.dst then (Coins.single kyve m.amount).amt d else 0 := by
      rw [Coins.amt_single]
      by_cases hc : m.dst = .user u <;> by_cases hd : d = kyve <;> simp [hc, hd, eq_comm]
    rw [e1, e2, h2]
    have h1' : (if Acct.user u = .user m.creator then (Coins.single kyve m.amount).amt d else 0) ≤ (c.b (.user u)).amt d := by
      split
      · rename_i hc; rw [hc]; exact h1
      · exact Nat.zero_le _
    have e3 : (c.b (Acct.user u)).amt d = (c.sw.b (Acct.user u)).amt d := rfl
    omega
  | leave | updateCommission | updateMetadata | createFunder | updatePool | enablePool | scheduleUpgrade | cancelUpgrade
    | bundlesParams | stakersParams | poolParams | fundersParams =>
    obtain ⟨s, hr, rfl⟩ := map_ok he
    exact Explains.refl _
  | claimRewards x y =>
    obtain ⟨w, hr, rfl⟩ := map_ok he
    obtain ⟨-, -, -, -, hb, -⟩ := Stakers.claim_ok hr
    exact Explains.get hb (fun _ => rfl) (fun _ => rfl)
  | delegate x st n =>
    obtain ⟨w, hr, rfl⟩ := map_ok he
    exact explains_delegateMsg hr
  | redelegate m =>
    obtain ⟨w, hr, rfl⟩ := map_ok he
    obtain ⟨s, hsp, -, -, -, -, -, -, -, hb⟩ := Delegation.redelegateMsg_ok hr
    have hsp : Delegation.consumeSpell c.del c.now m.creator = .ok s := hsp
    show Explains (match Delegation.consumeSpell c.del c.now m.creator with
      | .error _ => []
      | .ok s => withdrawal ⟨s, c.b⟩ m.src (.undelegate m.creator m.amount) m.creator ++
        delegation (Delegation.performUndelegation ⟨s, c.b⟩ m.src m.creator m.amount) m.dst m.creator m.amount) u c.b w.b
    rw [hsp, hb]
    exact Explains.append (explains_performOp (⟨s, c.b⟩ : Delegation.World) m.src (.undelegate m.creator m.amount) m.creator)
      (explains_delegation _ _ _ _)
  | undelegate x st n =>
    obtain ⟨w, hr, rfl⟩ := map_ok he
    have e : w.b = c.b := congrArg (·.b) (Delegation.undelegateMsg_ok hr).1
    exact Explains.of_eq (by show w.b _ = _; rw [e])
  | withdraw x st =>
    obtain ⟨w, hr, rfl⟩ := map_ok he
    unfold Delegation.withdrawMsg at hr
    split at hr
    · cases hr
    · split at hr
      · cases hr
      · rename_i b hb
        cases hr
        show Explains (withdrawal c.dw st (.withdraw x) x) u c.b b
        have hb' : Delegation.rewardTransfer c.dw st (.withdraw x) x = .ok b := hb
        unfold withdrawal
        rw [hb']
        exact Explains.get hb (fun _ => rfl) (fun _ => rfl)
  | fund m =>
    obtain ⟨r, hr, rfl⟩ := map_ok he
    refine explains_fund (Reachable.good h).mods.fund.reach.inv (s' := r.1) (b' := r.2) hr fun hne hin => ?_
    by_contra hno
    exact hu ⟨m, rfl, hne, hin, hno⟩
  | defund m =>
    obtain ⟨r, hr, rfl⟩ := map_ok he
    obtain ⟨l, f, f', hf, -, -, -, hb, -⟩ := Funders.defund_ok (w := c.fw) (s' := r.1) (b' := r.2) hr
    show Explains (match c.fund.funding? m.creator m.pool with
      | none => []
      | some f => [.defunded m.pool m.creator (f.amounts.min m.amounts)]) u c.b r.2
    have hf : c.fund.funding? m.creator m.pool = some f := hf
    rw [hf]
    exact Explains.get hb (fun _ => rfl) (fun _ => rfl)
  | createPool m =>
    obtain ⟨s, -, rfl⟩ := createPool_eq he
    exact Explains.refl _
  | disablePool x id => exact Explains.of_eq (user_disable he)
  | delegationParams x y =>
    obtain ⟨w, hr, rfl⟩ := map_ok he
    have e : w.b = c.b := congrArg (·.b) (Delegation.updateParams_s hr).1
    exact Explains.of_eq (by show w.b _ = _; rw [e])
  | beginBlock dt pr te r =>
    injection he with he
    subst he
    refine explains_afterSplit c r ((c.newBlock dt r).splitInflation pr te) (fun x hx => ?_) hh
    obtain ⟨b, hl, rfl, hk⟩ := splitInflation_eq hx
    exact hk.user u
  | external b gd gs gf => cases ho

/-- C109, proved part: in every reachable state, for every message and begin or end block of the chain's own modules, what a
user paid and received according to the events is the change of each of its balances, unless the user loses its slot in a
pool to another funder.  (`del.halted`: a payment out of x/delegation failed and the chain was halted, see C12.) -/
theorem C109_events_partial (gov : Addr) (c : Chain) (h : Reachable gov c) (op : Op) (ho : op.inner = true) (u : Addr)
    (hh : (c.step gov op).del.halted = false) (hu : ¬ LosesSlot c (c.step gov op) op u) :
    Explains (events gov c op) u c.b (c.step gov op).b := by
  unfold events
  unfold step at hh hu ⊢
  split at hh
  · rename_i hc
    rw [if_pos hc, if_pos hc]
    exact Explains.refl _
  · rename_i hc
    rw [if_neg hc, if_neg hc] at *
    cases he : exec gov c op with
    | error e => exact Explains.refl _
    | ok c' =>
      rw [he] at hh hu
      exact explains_exec h op ho he hh hu

/-! ## concrete cases, and the false part -/

/-- a pool with fifty funders, all with the same funding; everybody else is registered as well -/
def crowd : List Op :=
  [.createPool Sample.pool] ++ (List.range 51).map (fun i => Op.createFunder (i + 1)) ++
    (List.range 50).map (fun i => .fund ⟨i + 1, 0, Coins.single kyve 3000000000, Coins.single kyve 2000000⟩)

/-- the chain with the fifty funders -/
def crowded : Chain := Sample.run Sample.start crowd

/-- somebody else funds the pool with more -/
def better : Funders.FundMsg := ⟨51, 0, Coins.single kyve 4000000000, Coins.single kyve 3000000⟩

theorem crowded_reachable : Reachable Sample.gov crowded :=
  Sample.run_reachable Sample.reach_start crowd (by decide +kernel)

/-- **C109 is false for a funder that loses its slot**: it is paid back its three thousand, and the events say that it
received nothing. -/
theorem C109_eviction_false : ∃ c op u, Reachable Sample.gov c ∧ op.inner = true ∧ (c.step Sample.gov op).del.halted = false ∧
    ¬ Explains (events Sample.gov c op) u c.b (c.step Sample.gov op).b ∧
    (c.b (.user u)).amt kyve = 2000000000 ∧ ((c.step Sample.gov op).b (.user u)).amt kyve = 5000000000 ∧
    received (events Sample.gov c op) u kyve = 0 := by
  have key : (crowded.step Sample.gov (.fund better)).del.halted = false ∧
      (crowded.b (.user 1)).amt kyve = 2000000000 ∧
      ((crowded.step Sample.gov (.fund better)).b (.user 1)).amt kyve = 5000000000 ∧
      received (events Sample.gov crowded (.fund better)) 1 kyve = 0 := by decide +kernel
  obtain ⟨h1, h2, h3, h4⟩ := key
  refine ⟨crowded, .fund better, 1, crowded_reachable, rfl, h1, fun h => ?_, h2, h3, h4⟩
  have := h kyve
  rw [h2, h3, h4] at this
  omega

/-- staker 1 was rewarded for a bundle and delegates 40 more: it pays the 40 and withdraws its rewards -/
example : Reachable Sample.gov Sample.second ∧
    ¬ LosesSlot Sample.second (Sample.second.step Sample.gov (.delegate 1 1 40)) (.delegate 1 1 40) 1 ∧
    (Sample.second.step Sample.gov (.delegate 1 1 40)).del.halted = false ∧
    paid (events Sample.gov Sample.second (.delegate 1 1 40)) 1 kyve = 40 ∧
    0 < received (events Sample.gov Sample.second (.delegate 1 1 40)) 1 kyve := by
  refine ⟨Sample.reach_second, fun ⟨m, h, _⟩ => (by cases h), ?_⟩
  decide +kernel

/-- an undelegation becomes due in a begin block -/
example : (((Sample.run Sample.second [.undelegate 2 2 30]).step Sample.gov (.beginBlock 1000000000 0 0 false)).del.halted = false) ∧
    received (events Sample.gov (Sample.run Sample.second [.undelegate 2 2 30]) (.beginBlock 1000000000 0 0 false)) 2 kyve = 30 := by
  decide +kernel

/-- somebody joins a pool and gives the coin to its valaddress; a funder withdraws its funding -/
example : received (events Sample.gov (Sample.run Sample.start (Sample.setup.take 5)) (Sample.joins 1)) 11 kyve = 1 ∧
    paid (events Sample.gov (Sample.run Sample.start (Sample.setup.take 5)) (Sample.joins 1)) 1 kyve = 1 ∧
    received (events Sample.gov Sample.ready (.defund ⟨50, 0, Coins.single kyve 5000000000⟩)) 50 kyve = 2000000000 := by
  decide +kernel

end Chain
end Verif.Chain
