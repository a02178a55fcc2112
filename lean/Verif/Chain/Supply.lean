import Verif.Chain.Own

/-!
# C89: the protocol creates and destroys no coins

Whatever message or block comes, the modelled modules only move coins between accounts.  (Minting, burning and the
messages of other modules are the operation `external`.)
-/

set_option linter.dupNamespace false
namespace Verif.Chain
open Verif
open Chain
open Verif.Bundles (Proposal VoteDist Status)
open scoped BigOperators

namespace Chain

theorem sum_performOp (w : Delegation.World) (st : Addr) (op : Delegation.Op) (who : Addr) :
    Conserved w.b (Delegation.performOp w st op who).b := Conserved.orKeep

theorem sum_delegateMsg {w w' : Delegation.World} {ex : Bool} {s st : Addr} {n : Nat}
    (h : Delegation.delegateMsg w ex s st n = .ok w') : Conserved w.b w'.b := by
  unfold Delegation.delegateMsg at h
  split at h
  · cases h
  · split at h
    · cases h
    · rename_i b hb
      injection h with h
      rw [← h]
      unfold Delegation.transferUser at hb
      split at hb
      · exact Conserved.trans (sum_performOp w st _ s) (Conserved.send hb)
      · cases hb

theorem sum_queueLoop (now fuel : Nat) (w : Delegation.World) : Conserved w.b (Delegation.queueLoop now fuel w).b := by
  induction fuel generalizing w with
  | zero => exact Conserved.refl _
  | succ n ih =>
    unfold Delegation.queueLoop
    split
    · exact Conserved.refl _
    · rename_i w' hw
      refine Conserved.trans ?_ (ih w')
      unfold Delegation.queueRound at hw
      split at hw
      · split at hw
        · injection hw with hw; rw [← hw]; exact Conserved.refl _
        · cases hw
      · split at hw
        · injection hw with hw; rw [← hw]
          exact Conserved.trans (sum_performOp w _ _ _) Conserved.orKeep
        · cases hw

theorem sum_delBlock (w : Delegation.World) (now : Nat) (r : Bool) : Conserved w.b (Delegation.beginBlock w now r).b := by
  unfold Delegation.beginBlock Delegation.processQueue
  refine Conserved.trans (Conserved.of_eq ?_) (sum_queueLoop _ _ _)
  split <;> rfl

theorem sum_micro {gov : Addr} {c : Chain} (μ : Micro) (ho : μ.Ok gov c) (hj : μ.judging = true) :
    Conserved c.b (μ.run gov c).b := by
  cases μ with
  | del act =>
    cases act <;> first | (cases hj; done) | skip
    · rename_i st x
      show Conserved c.b (Delegation.orElse c.dw (Delegation.payoutRewards c.dw .pool st x)).b
      cases h : Delegation.payoutRewards c.dw .pool st x with
      | error e => exact Conserved.refl _
      | ok w' =>
        unfold Delegation.payoutRewards at h
        split at h
        · cases h; exact Conserved.refl _
        · split at h
          · cases h
          · split at h
            · cases h
            · rename_i b hb
              cases h
              exact Conserved.send hb
    · rename_i st t
      show Conserved c.b (Delegation.slashDelegators c.dw st t).b
      unfold Delegation.slashDelegators
      split
      · exact Conserved.refl _
      · exact Conserved.orKeep
  | st op =>
    cases op <;> first | (cases hj; done) | skip
    · exact Conserved.refl _
    · exact Conserved.refl _
    · exact Conserved.refl _
    · rename_i st x
      show Conserved c.b (Stakers.orElse c.sw (Stakers.increaseRewards c.sw .pool st x)).b
      cases h : Stakers.increaseRewards c.sw .pool st x with
      | error e => exact Conserved.refl _
      | ok w' =>
        rcases Stakers.increase_ok h with ⟨-, rfl⟩ | ⟨y, -, hb, -⟩
        · exact Conserved.refl _
        · exact Conserved.send hb
  | fund op =>
    cases op <;> first | (cases hj; done) | skip
    rename_i id
    show Conserved c.b (Funders.orElseC c.fw (Funders.chargeFundersOfPool c.fund c.b id)).b
    cases h : Funders.chargeFundersOfPool c.fund c.b id with
    | error e => exact Conserved.refl _
    | ok r =>
      unfold Funders.chargeFundersOfPool at h
      split at h
      · cases h
      · simp only at h
        split at h
        · cases h; exact Conserved.refl _
        · split at h
          · cases h
          · rename_i b' hb
            cases h
            exact Conserved.send hb
  | pay b hl => exact ho.sum
  | finalize id v =>
    show Conserved c.b (c.finalize id v).b
    unfold finalize; split <;> exact Conserved.refl _
  | register m n =>
    show Conserved c.b (c.register m n).b
    unfold register; split <;> exact Conserved.refl _
  | pool op => exact Conserved.refl _
  | blank | next | cast | progress | crash => exact Conserved.refl _
  | _ => cases hj

theorem sum_steps {gov : Addr} {c c' : Chain} (h : JSteps gov c c') : Conserved c.b c'.b := by
  induction h with
  | refl => exact Conserved.refl _
  | cons μ _ ho hj _ ih => exact ih.trans (sum_micro μ ho hj)

theorem sum_disable {gov : Addr} {c c' : Chain} {x : Addr} {id : Nat} (h : disablePool gov c x id = .ok c') :
    Conserved c.b c'.b := by
  unfold disablePool at h
  split at h
  · cases h
  · unfold drain at h
    split at h
    · cases h
      refine Conserved.of_eq ?_
      rw [kickAll_b]
    · split at h
      · cases h
      · split at h
        · cases h
        · rename_i b hb
          cases h
          have e := Conserved.send hb
          rw [kickAll_b] at e
          exact e

theorem sum_queues (x : Chain) (r : Bool) : Conserved x.b (x.queues r).b := by
  have e : (x.queues r).b = (Delegation.beginBlock x.dw x.now r).b := rfl
  rw [e]
  exact sum_delBlock x.dw x.now r

theorem sum_afterSplit (c : Chain) (r : Bool) (o : Option Chain) (h : ∀ x, o = some x → Conserved c.b x.b) :
    Conserved c.b (c.afterSplit r o).b := by
  cases o with
  | none => exact Conserved.refl _
  | some x => exact Conserved.trans (h x rfl) (sum_queues x r)

theorem sum_beginBlock (c : Chain) (dt pr te : Nat) (r : Bool) : Conserved c.b (c.beginBlock dt pr te r).b := by
  refine sum_afterSplit c r ((c.newBlock dt r).splitInflation pr te) fun x hx => ?_
  obtain ⟨b, hl, rfl, hk⟩ := splitInflation_eq hx
  exact hk.sum

theorem C89_exec (gov : Addr) (c c' : Chain) (h : Reachable gov c) (op : Op) (ho : op.inner = true)
    (he : exec gov c op = .ok c') : Conserved c.b c'.b := by
  have hs := (Reachable.good h).sound
  cases op with
  | submit m => exact sum_steps (submit_steps (gov := gov) hs.mem he)
  | vote m => exact sum_steps (vote_steps (gov := gov) hs.mem he)
  | skip m => exact sum_steps (skip_steps (gov := gov) hs he)
  | claim x y id => exact sum_steps (claim_steps (gov := gov) hs.mem he)
  | endBlock =>
    injection he with he
    rw [← he]
    exact sum_steps (endBlock_steps (gov := gov) hs.mem)
  | createStaker x k n =>
    have he' : c.createStaker x k n = .ok c' := he
    unfold createStaker at he'
    split at he'
    · cases he'
    · split at he'
      · cases he'
      · rename_i w hw
        cases he'
        exact sum_delegateMsg hw
  | join m =>
    obtain ⟨w, hw, rfl⟩ := join_eq he
    have hb := Stakers.joinPool_send hw
    have e : ((c.withSt (Stakers.noteGift m c.sw w)).noteGifts m).b = w.b := by
      show (Stakers.noteGift m c.sw w).b = w.b
      unfold Stakers.noteGift; split <;> rfl
    rw [e]
    exact Conserved.send hb
  | leave | updateCommission | updateMetadata | createFunder | updatePool | enablePool | scheduleUpgrade | cancelUpgrade
    | bundlesParams | stakersParams | poolParams | fundersParams =>
    obtain ⟨s, hr, rfl⟩ := map_ok he
    exact Conserved.refl _
  | claimRewards x y =>
    obtain ⟨w, hr, rfl⟩ := map_ok he
    obtain ⟨-, -, -, -, hb, -⟩ := Stakers.claim_ok hr
    exact Conserved.send hb
  | delegate x st n =>
    obtain ⟨w, hr, rfl⟩ := map_ok he
    exact sum_delegateMsg hr
  | redelegate m =>
    obtain ⟨w, hr, rfl⟩ := map_ok he
    obtain ⟨s, -, -, -, -, -, -, -, -, hb⟩ := Delegation.redelegateMsg_ok hr
    show Conserved c.b w.b
    rw [hb]
    unfold Delegation.performDelegation Delegation.performUndelegation
    exact Conserved.trans (sum_performOp (⟨s, c.b⟩ : Delegation.World) _ _ _) (sum_performOp _ _ _ _)
  | undelegate x st n =>
    obtain ⟨w, hr, rfl⟩ := map_ok he
    refine Conserved.of_eq ?_
    show w.b = _
    rw [(Delegation.undelegateMsg_ok hr).1]; rfl
  | withdraw x st =>
    obtain ⟨w, hr, rfl⟩ := map_ok he
    unfold Delegation.withdrawMsg at hr
    split at hr
    · cases hr
    · split at hr
      · cases hr
      · rename_i b hb
        cases hr
        exact Conserved.send hb
  | fund m =>
    obtain ⟨r, hr, rfl⟩ := map_ok he
    obtain ⟨l, f, wk, -, -, -, -, -, -, hwk, hb, -⟩ :=
      Funders.fund_ok (Reachable.good h).mods.fund.reach.inv (s' := r.1) (b' := r.2) hr
    have h1 : Conserved c.b wk.b := by
      rcases Funders.ensureFreeSlot_ok hwk with ⟨rfl, -⟩ | ⟨low, x, y, b', -, -, -, -, -, -, -, hb', rfl⟩
      · exact Conserved.refl _
      · exact Conserved.send hb'
    exact h1.trans (Conserved.send hb)
  | defund m =>
    obtain ⟨r, hr, rfl⟩ := map_ok he
    obtain ⟨l, f, f', -, -, -, -, hb, -⟩ := Funders.defund_ok (w := c.fw) (s' := r.1) (b' := r.2) hr
    exact Conserved.send hb
  | createPool m =>
    obtain ⟨s, -, rfl⟩ := createPool_eq he
    exact Conserved.refl _
  | disablePool x id => exact sum_disable he
  | delegationParams x y =>
    obtain ⟨w, hr, rfl⟩ := map_ok he
    refine Conserved.of_eq ?_
    show w.b = _
    rw [(Delegation.updateParams_s hr).1]; rfl
  | beginBlock dt pr te r =>
    injection he with he
    rw [← he]
    exact sum_beginBlock c dt pr te r
  | external b gd gs gf => cases ho

/-- C89, one operation: no coin is created or destroyed -/
theorem C89_step (gov : Addr) (c : Chain) (h : Reachable gov c) (op : Op) (ho : op.inner = true) :
    Conserved c.b (c.step gov op).b := by
  unfold step
  split
  · exact Conserved.refl _
  · cases he : exec gov c op with
    | error e => exact Conserved.refl _
    | ok c' => exact C89_exec gov c c' h op ho he

/-- the chain after some operations -/
def after (gov : Addr) (c : Chain) (ops : List Op) : Chain := ops.foldl (fun c op => c.step gov op) c

/-- C89: in any history of messages and blocks of the protocol no coin is created or destroyed: outside of a finite set
of accounts no balance is different at the end, and the balances inside of it have the same total of every coin. -/
theorem C89_history (gov : Addr) (c : Chain) (ops : List Op) (hi : ∀ op ∈ ops, op.inner = true)
    (hr : ∀ n ≤ ops.length, Reachable gov (c.after gov (ops.take n))) : Conserved c.b (c.after gov ops).b := by
  induction ops generalizing c with
  | nil => exact Conserved.refl _
  | cons op l ih =>
    have h0 : Reachable gov c := hr 0 (Nat.zero_le _)
    refine (C89_step gov c h0 op (hi op (List.mem_cons_self ..))).trans ?_
    refine ih (c.step gov op) (fun o ho => hi o (List.mem_cons_of_mem _ ho)) fun n hn => ?_
    exact hr (n + 1) (Nat.succ_le_succ hn)

/-- C89: the total of every coin over all accounts: if only the accounts in `T` hold coins, before and after, then
they hold as much after as before. -/
theorem C89_total (gov : Addr) (c : Chain) (ops : List Op) (hi : ∀ op ∈ ops, op.inner = true)
    (hr : ∀ n ≤ ops.length, Reachable gov (c.after gov (ops.take n))) (T : Finset Acct)
    (hb : ∀ a, a ∉ T → c.b a = Coins.zero) (hb' : ∀ a, a ∉ T → (c.after gov ops).b a = Coins.zero) (d : Denom) :
    ∑ a ∈ T, ((c.after gov ops).b a).amt d = ∑ a ∈ T, (c.b a).amt d :=
  (C89_history gov c ops hi hr).total T hb hb' d

end Chain

/-- the accounts that take part in the sample -/
def Sample.accounts : Finset Acct :=
  {.user 1, .user 2, .user 3, .user 4, .user 50, .mod .delegation, .mod .stakers, .mod .funders, .mod .pool,
    .mod .treasury, .pool 0}

/-- the judgement of a bundle moves coins, and their total is the same -/
example : (Sample.later.b (.mod .funders)).amt kyve ≠
      ((Sample.later.after Sample.gov [.submit (Sample.bundle 1 8 10)]).b (.mod .funders)).amt kyve ∧
    ∑ a ∈ Sample.accounts, ((Sample.later.after Sample.gov [.submit (Sample.bundle 1 8 10)]).b a).amt kyve =
      ∑ a ∈ Sample.accounts, (Sample.later.b a).amt kyve := by decide +kernel
end Verif.Chain
