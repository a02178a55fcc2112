import Verif.Chain.Supply

/-!
# Which accounts the protocol takes coins from

A message or a block of the modelled modules only ever takes coins from the accounts of x/delegation, x/stakers,
x/funders, x/pool and the pools, from the signer of the message, and, in the begin block, from the fee collector.
-/

set_option linter.dupNamespace false
namespace Verif.Chain
open Verif
open Chain
open Verif.Bundles (Proposal VoteDist Status)

/-- the accounts a message or block may take coins from: x/delegation, x/stakers, x/funders, x/pool, the pools, the
signer's account `u`, and, if `fee`, the fee collector -/
def Purse (u : Option Addr) (fee : Bool) : Acct → Prop
  | .user a => u = some a
  | .mod .delegation => True
  | .mod .stakers => True
  | .mod .funders => True
  | .mod .pool => True
  | .mod .feeCollector => fee = true
  | .mod _ => False
  | .pool _ => True

/-- is a begin block -/
def Chain.Op.begins : Op → Bool
  | .beginBlock _ _ _ _ => true
  | _ => false

namespace Chain
variable {u : Option Addr} {fee : Bool}

theorem spend_performOp (w : Delegation.World) (st : Addr) (op : Delegation.Op) (who : Addr) :
    OnlySpends (Purse u fee) w.b (Delegation.performOp w st op who).b := OnlySpends.orKeep (by trivial)

theorem spend_delegateMsg {w w' : Delegation.World} {ex : Bool} {s st : Addr} {n : Nat}
    (h : Delegation.delegateMsg w ex s st n = .ok w') : OnlySpends (Purse (some s) fee) w.b w'.b := by
  unfold Delegation.delegateMsg at h
  split at h
  · cases h
  · split at h
    · cases h
    · rename_i b hb
      injection h with h
      rw [← h]
      unfold Delegation.transferUser at hb
      split at hb
      · exact OnlySpends.trans (spend_performOp w st _ s) (OnlySpends.send hb (by trivial))
      · cases hb

theorem spend_queueLoop (now fuel : Nat) (w : Delegation.World) : OnlySpends (Purse u fee) w.b (Delegation.queueLoop now fuel w).b := by
  induction fuel generalizing w with
  | zero => exact OnlySpends.refl _ _
  | succ n ih =>
    unfold Delegation.queueLoop
    split
    · exact OnlySpends.refl _ _
    · rename_i w' hw
      refine OnlySpends.trans ?_ (ih w')
      unfold Delegation.queueRound at hw
      split at hw
      · split at hw
        · injection hw with hw; rw [← hw]; exact OnlySpends.refl _ _
        · cases hw
      · split at hw
        · injection hw with hw; rw [← hw]
          exact OnlySpends.trans (spend_performOp w _ _ _) (OnlySpends.orKeep (by trivial))
        · cases hw

theorem spend_delBlock (w : Delegation.World) (now : Nat) (r : Bool) : OnlySpends (Purse u fee) w.b (Delegation.beginBlock w now r).b := by
  unfold Delegation.beginBlock Delegation.processQueue
  refine OnlySpends.trans (OnlySpends.of_eq ?_) (spend_queueLoop _ _ _)
  split <;> rfl

theorem spend_micro {gov : Addr} {c : Chain} (μ : Micro) (ho : μ.Ok gov c) (hj : μ.judging = true) (hf : μ.Feeless c) :
    OnlySpends (Purse u fee) c.b (μ.run gov c).b := by
  cases μ with
  | del act =>
    cases act <;> first | (cases hj; done) | skip
    · rename_i st x
      show OnlySpends (Purse u fee) c.b (Delegation.orElse c.dw (Delegation.payoutRewards c.dw .pool st x)).b
      cases h : Delegation.payoutRewards c.dw .pool st x with
      | error e => exact OnlySpends.refl _ _
      | ok w' =>
        unfold Delegation.payoutRewards at h
        split at h
        · cases h; exact OnlySpends.refl _ _
        · split at h
          · cases h
          · split at h
            · cases h
            · rename_i b hb
              cases h
              exact OnlySpends.send hb (by trivial)
    · rename_i st t
      show OnlySpends (Purse u fee) c.b (Delegation.slashDelegators c.dw st t).b
      unfold Delegation.slashDelegators
      split
      · exact OnlySpends.refl _ _
      · exact OnlySpends.orKeep (by trivial)
  | st op =>
    cases op <;> first | (cases hj; done) | skip
    · exact OnlySpends.refl _ _
    · exact OnlySpends.refl _ _
    · exact OnlySpends.refl _ _
    · rename_i st x
      show OnlySpends (Purse u fee) c.b (Stakers.orElse c.sw (Stakers.increaseRewards c.sw .pool st x)).b
      cases h : Stakers.increaseRewards c.sw .pool st x with
      | error e => exact OnlySpends.refl _ _
      | ok w' =>
        rcases Stakers.increase_ok h with ⟨-, rfl⟩ | ⟨y, -, hb, -⟩
        · exact OnlySpends.refl _ _
        · exact OnlySpends.send hb (by trivial)
  | fund op =>
    cases op <;> first | (cases hj; done) | skip
    rename_i id
    show OnlySpends (Purse u fee) c.b (Funders.orElseC c.fw (Funders.chargeFundersOfPool c.fund c.b id)).b
    cases h : Funders.chargeFundersOfPool c.fund c.b id with
    | error e => exact OnlySpends.refl _ _
    | ok r =>
      unfold Funders.chargeFundersOfPool at h
      split at h
      · cases h
      · simp only at h
        split at h
        · cases h; exact OnlySpends.refl _ _
        · split at h
          · cases h
          · rename_i b' hb
            cases h
            exact OnlySpends.send hb (by trivial)
  | pay b hl =>
    intro a ha d
    by_cases e : a = .mod .feeCollector
    · rw [e]
      have : b (.mod .feeCollector) = c.b (.mod .feeCollector) := hf
      show _ ≤ (b (.mod .feeCollector)).amt d
      rw [this]
    · refine ho.low a ?_ d
      rintro (h | h | ⟨i, h⟩)
      · rw [h] at ha; exact ha trivial
      · exact e h
      · rw [h] at ha; exact ha trivial
  | finalize id v =>
    show OnlySpends (Purse u fee) c.b (c.finalize id v).b
    unfold finalize; split <;> exact OnlySpends.refl _ _
  | register m n =>
    show OnlySpends (Purse u fee) c.b (c.register m n).b
    unfold register; split <;> exact OnlySpends.refl _ _
  | pool op => exact OnlySpends.refl _ _
  | blank | next | cast | progress | crash => exact OnlySpends.refl _ _
  | _ => cases hj

theorem spend_steps {gov : Addr} {c c' : Chain} (h : JSteps gov c c') : OnlySpends (Purse u fee) c.b c'.b := by
  induction h with
  | refl => exact OnlySpends.refl _ _
  | cons μ _ ho hj hf ih => exact ih.trans (spend_micro μ ho hj hf)

theorem spend_disable {gov : Addr} {c c' : Chain} {x : Addr} {id : Nat} (h : disablePool gov c x id = .ok c') :
    OnlySpends (Purse u fee) c.b c'.b := by
  unfold disablePool at h
  split at h
  · cases h
  · unfold drain at h
    split at h
    · cases h
      refine OnlySpends.of_eq ?_
      rw [kickAll_b]
    · split at h
      · cases h
      · split at h
        · cases h
        · rename_i b hb
          cases h
          have e : OnlySpends (Purse u fee) _ _ := OnlySpends.send hb (by trivial)
          rw [kickAll_b] at e
          exact e

theorem spend_queues (x : Chain) (r : Bool) : OnlySpends (Purse u fee) x.b (x.queues r).b := by
  have e : (x.queues r).b = (Delegation.beginBlock x.dw x.now r).b := rfl
  rw [e]
  exact spend_delBlock x.dw x.now r

theorem spend_afterSplit (c : Chain) (r : Bool) (o : Option Chain) (h : ∀ x, o = some x → OnlySpends (Purse u fee) c.b x.b) :
    OnlySpends (Purse u fee) c.b (c.afterSplit r o).b := by
  cases o with
  | none => exact OnlySpends.refl _ _
  | some x => exact OnlySpends.trans (h x rfl) (spend_queues x r)

theorem spend_beginBlock (c : Chain) (dt pr te : Nat) (r : Bool) : OnlySpends (Purse u true) c.b (c.beginBlock dt pr te r).b := by
  refine spend_afterSplit c r ((c.newBlock dt r).splitInflation pr te) fun x hx => ?_
  obtain ⟨b, hl, rfl, hk⟩ := splitInflation_eq hx
  refine hk.low.mono fun a ha => ?_
  rcases ha with rfl | rfl | ⟨i, rfl⟩
  · trivial
  · exact rfl
  · trivial

theorem spend_exec (gov : Addr) (c c' : Chain) (h : Reachable gov c) (op : Op) (ho : op.inner = true)
    (he : exec gov c op = .ok c') : OnlySpends (Purse op.signer op.begins) c.b c'.b := by
  have hs := (Reachable.good h).sound
  cases op with
  | submit m => exact spend_steps (submit_steps (gov := gov) hs.mem he)
  | vote m => exact spend_steps (vote_steps (gov := gov) hs.mem he)
  | skip m => exact spend_steps (skip_steps (gov := gov) hs he)
  | claim x y id => exact spend_steps (claim_steps (gov := gov) hs.mem he)
  | endBlock =>
    injection he with he
    rw [← he]
    exact spend_steps (endBlock_steps (gov := gov) hs.mem)
  | createStaker x k n =>
    have he' : c.createStaker x k n = .ok c' := he
    unfold createStaker at he'
    split at he'
    · cases he'
    · split at he'
      · cases he'
      · rename_i w hw
        cases he'
        exact spend_delegateMsg hw
  | join m =>
    obtain ⟨w, hw, rfl⟩ := join_eq he
    have hb := Stakers.joinPool_send hw
    have e : ((c.withSt (Stakers.noteGift m c.sw w)).noteGifts m).b = w.b := by
      show (Stakers.noteGift m c.sw w).b = w.b
      unfold Stakers.noteGift; split <;> rfl
    rw [e]
    exact OnlySpends.send hb (by trivial)
  | leave | updateCommission | updateMetadata | createFunder | updatePool | enablePool | scheduleUpgrade | cancelUpgrade
    | bundlesParams | stakersParams | poolParams | fundersParams =>
    obtain ⟨s, hr, rfl⟩ := map_ok he
    exact OnlySpends.refl _ _
  | claimRewards x y =>
    obtain ⟨w, hr, rfl⟩ := map_ok he
    obtain ⟨-, -, -, -, hb, -⟩ := Stakers.claim_ok hr
    exact OnlySpends.send hb (by trivial)
  | delegate x st n =>
    obtain ⟨w, hr, rfl⟩ := map_ok he
    exact spend_delegateMsg hr
  | redelegate m =>
    obtain ⟨w, hr, rfl⟩ := map_ok he
    obtain ⟨s, -, -, -, -, -, -, -, -, hb⟩ := Delegation.redelegateMsg_ok hr
    show OnlySpends (Purse (some m.creator) false) c.b w.b
    rw [hb]
    unfold Delegation.performDelegation Delegation.performUndelegation
    exact OnlySpends.trans (spend_performOp (⟨s, c.b⟩ : Delegation.World) _ _ _) (spend_performOp _ _ _ _)
  | undelegate x st n =>
    obtain ⟨w, hr, rfl⟩ := map_ok he
    refine OnlySpends.of_eq ?_
    show w.b = _
    rw [(Delegation.undelegateMsg_ok hr).1]; rfl
  | withdraw x st =>
    obtain ⟨w, hr, rfl⟩ := map_ok he
    unfold Delegation.withdrawMsg at hr
    split at hr
    · cases hr
    · split at hr
      · cases hr
      · rename_i b hb
        cases hr
        exact OnlySpends.send hb (by trivial)
  | fund m =>
    obtain ⟨r, hr, rfl⟩ := map_ok he
    obtain ⟨l, f, wk, -, -, -, -, -, -, hwk, hb, -⟩ :=
      Funders.fund_ok (Reachable.good h).mods.fund.reach.inv (s' := r.1) (b' := r.2) hr
    have h1 : OnlySpends (Purse (some m.creator) false) c.b wk.b := by
      rcases Funders.ensureFreeSlot_ok hwk with ⟨rfl, -⟩ | ⟨low, x, y, b', -, -, -, -, -, -, -, hb', rfl⟩
      · exact OnlySpends.refl _ _
      · exact OnlySpends.send hb' (by trivial)
    exact h1.trans (OnlySpends.send hb rfl)
  | defund m =>
    obtain ⟨r, hr, rfl⟩ := map_ok he
    obtain ⟨l, f, f', -, -, -, -, hb, -⟩ := Funders.defund_ok (w := c.fw) (s' := r.1) (b' := r.2) hr
    exact OnlySpends.send hb (by trivial)
  | createPool m =>
    obtain ⟨s, -, rfl⟩ := createPool_eq he
    exact OnlySpends.refl _ _
  | disablePool x id => exact spend_disable he
  | delegationParams x y =>
    obtain ⟨w, hr, rfl⟩ := map_ok he
    refine OnlySpends.of_eq ?_
    show w.b = _
    rw [(Delegation.updateParams_s hr).1]; rfl
  | beginBlock dt pr te r =>
    injection he with he
    rw [← he]
    exact spend_beginBlock c dt pr te r
  | external b gd gs gf => cases ho


theorem spend_step (gov : Addr) (c : Chain) (h : Reachable gov c) (op : Op) (ho : op.inner = true) :
    OnlySpends (Purse op.signer op.begins) c.b (c.step gov op).b := by
  unfold step
  split
  · exact OnlySpends.refl _ _
  · cases he : exec gov c op with
    | error e => exact OnlySpends.refl _ _
    | ok c' => exact spend_exec gov c c' h op ho he

end Chain
end Verif.Chain
