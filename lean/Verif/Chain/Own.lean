import Verif.Chain.Turns

/-!
# C81: nobody else can spend my coins

The coins in the account of a user only become less by messages of that user, and by no more than the amounts these
messages name.
-/

set_option linter.dupNamespace false
namespace Verif.Chain
open Verif
open Chain
open Verif.Bundles (Proposal VoteDist Status)

/-! ## specification -/

/-- who signed the message; blocks are signed by nobody -/
def Chain.Op.signer : Op → Option Addr
  | .submit m => some m.creator
  | .vote m => some m.creator
  | .skip m => some m.creator
  | .claim a _ _ => some a
  | .createStaker a _ _ => some a
  | .join m => some m.creator
  | .leave a _ => some a
  | .updateCommission a _ => some a
  | .updateMetadata a _ _ => some a
  | .claimRewards a _ => some a
  | .delegate a _ _ => some a
  | .redelegate m => some m.creator
  | .undelegate a _ _ => some a
  | .withdraw a _ => some a
  | .createFunder a => some a
  | .fund m => some m.creator
  | .defund m => some m.creator
  | .createPool m => some m.authority
  | .updatePool a _ _ => some a
  | .enablePool a _ => some a
  | .disablePool a _ => some a
  | .scheduleUpgrade m => some m.authority
  | .cancelUpgrade a _ => some a
  | .bundlesParams a _ => some a
  | .delegationParams a _ => some a
  | .stakersParams a _ => some a
  | .poolParams a _ => some a
  | .fundersParams a _ => some a
  | .beginBlock _ _ _ _ => none
  | .endBlock => none
  | .external _ _ _ _ => none

/-- the coins the message asks its signer to pay -/
def Chain.Op.spends : Op → Coins
  | .createStaker _ _ n => Coins.single kyve n
  | .join m => Coins.single kyve m.amount
  | .delegate _ _ n => Coins.single kyve n
  | .fund m => m.amounts
  | _ => Coins.zero

/-- a message or block of the modelled modules -/
def Chain.Op.inner : Op → Bool
  | .external _ _ _ _ => false
  | _ => true

namespace Chain

/-! ## proofs -/

/-- account `a` has lost at most `x` -/
def Lost (a : Addr) (x : Coins) (b b' : Bank) : Prop := ∀ d, (b (.user a)).amt d ≤ (b' (.user a)).amt d + x.amt d

theorem Lost.of_eq {a : Addr} {x : Coins} {b b' : Bank} (h : b' (.user a) = b (.user a)) : Lost a x b b' :=
  fun d => by rw [h]; exact Nat.le_add_right _ _

theorem Lost.trans0 {a : Addr} {x : Coins} {b b' b'' : Bank} (h : Lost a Coins.zero b b') (h' : Lost a x b' b'') :
    Lost a x b b'' := fun d => le_trans (by simpa using h d) (h' d)

theorem Lost.weak {a : Addr} {x : Coins} {b b' : Bank} (h : Lost a Coins.zero b b') : Lost a x b b' :=
  fun d => le_trans (by simpa using h d) (Nat.le_add_right _ _)

/-- what the signer pays -/
def due (s : Option Addr) (a : Addr) (x : Coins) : Coins := if s = some a then x else Coins.zero

theorem lost_send {b b' : Bank} {t : Acct} {s a : Addr} {x : Coins} (h : b.send (.user s) t x = .ok b') :
    Lost a (due (some s) a x) b b' := by
  intro d
  obtain ⟨h1, h2⟩ := Bank.send_ok h
  rw [h2]
  have := h1 d
  unfold due
  by_cases e : s = a
  · subst e; rw [if_pos rfl, if_pos rfl]; split <;> omega
  · rw [if_neg (show ¬ Acct.user a = .user s from fun h => e (by injection h with h; exact h.symm)),
      if_neg (show ¬ some s = some a by simpa using e)]
    split <;> simp

theorem lost_mod {b b' : Bank} {s t : Acct} {a : Addr} {x : Coins} (h : b.send s t x = .ok b')
    (hs : ∀ u, s ≠ .user u) : Lost a Coins.zero b b' := by
  intro d
  rw [(Bank.send_ok h).2, if_neg (fun e => hs a e.symm)]
  split <;> simp

theorem lost_orKeep {b : Bank} {s t : Acct} {a : Addr} {x : Coins} (hs : ∀ u, s ≠ .user u) :
    Lost a Coins.zero b (b.orKeep (b.send s t x)) := by
  cases h : b.send s t x with
  | error e => exact Lost.of_eq rfl
  | ok b' => exact lost_mod h hs

theorem lost_performOp (w : Delegation.World) (st : Addr) (op : Delegation.Op) (who a : Addr) :
    Lost a Coins.zero w.b (Delegation.performOp w st op who).b := lost_orKeep (by rintro u ⟨⟩)

theorem lost_delegateMsg {w w' : Delegation.World} {ex : Bool} {s st a : Addr} {n : Nat}
    (h : Delegation.delegateMsg w ex s st n = .ok w') : Lost a (due (some s) a (Coins.single kyve n)) w.b w'.b := by
  unfold Delegation.delegateMsg at h
  split at h
  · cases h
  · split at h
    · cases h
    · rename_i b hb
      injection h with h
      rw [← h]
      unfold Delegation.transferUser at hb
      split at hb
      · exact Lost.trans0 (lost_performOp w st _ s a) (lost_send hb)
      · cases hb

theorem lost_queueLoop (now fuel : Nat) (w : Delegation.World) (a : Addr) :
    Lost a Coins.zero w.b (Delegation.queueLoop now fuel w).b := by
  induction fuel generalizing w with
  | zero => exact Lost.of_eq rfl
  | succ n ih =>
    unfold Delegation.queueLoop
    split
    · exact Lost.of_eq rfl
    · rename_i w' hw
      refine Lost.trans0 ?_ (ih w')
      unfold Delegation.queueRound at hw
      split at hw
      · split at hw
        · injection hw with hw; rw [← hw]; exact Lost.of_eq rfl
        · cases hw
      · split at hw
        · injection hw with hw; rw [← hw]
          exact Lost.trans0 (lost_performOp w _ _ _ a) (lost_orKeep (by rintro u ⟨⟩))
        · cases hw

theorem lost_delBlock (w : Delegation.World) (now : Nat) (r : Bool) (a : Addr) :
    Lost a Coins.zero w.b (Delegation.beginBlock w now r).b := by
  unfold Delegation.beginBlock Delegation.processQueue
  refine Lost.trans0 (Lost.of_eq ?_) (lost_queueLoop _ _ _ a)
  split <;> rfl

/-- the protocol moves no coins of users -/
theorem users_micro {gov : Addr} {c : Chain} (μ : Micro) (ho : μ.Ok gov c) (hj : μ.judging = true) (a : Addr) :
    (μ.run gov c).b (.user a) = c.b (.user a) := by
  cases μ with
  | del act =>
    cases act <;> first | (cases hj; done) | skip
    · rename_i st x
      show (Delegation.orElse c.dw (Delegation.payoutRewards c.dw .pool st x)).b _ = _
      cases h : Delegation.payoutRewards c.dw .pool st x with
      | error e => rfl
      | ok w' =>
        unfold Delegation.payoutRewards at h
        split at h
        · cases h; rfl
        · split at h
          · cases h
          · split at h
            · cases h
            · rename_i b hb
              cases h
              exact Bank.send_ne hb (by rintro ⟨⟩) (by rintro ⟨⟩)
    · rename_i st t
      show (Delegation.slashDelegators c.dw st t).b _ = _
      unfold Delegation.slashDelegators
      split
      · rfl
      · exact Bank.orKeep_ne (by rintro ⟨⟩) (by rintro ⟨⟩)
  | st op =>
    cases op <;> first | (cases hj; done) | skip
    · rfl
    · rfl
    · rfl
    · rename_i st x
      show (Stakers.orElse c.sw (Stakers.increaseRewards c.sw .pool st x)).b _ = _
      cases h : Stakers.increaseRewards c.sw .pool st x with
      | error e => rfl
      | ok w' =>
        rcases Stakers.increase_ok h with ⟨-, rfl⟩ | ⟨y, -, hb, -⟩
        · rfl
        · exact Bank.send_ne hb (by rintro ⟨⟩) (by rintro ⟨⟩)
  | fund op =>
    cases op <;> first | (cases hj; done) | skip
    rename_i id
    show (Funders.orElseC c.fw (Funders.chargeFundersOfPool c.fund c.b id)).b _ = _
    cases h : Funders.chargeFundersOfPool c.fund c.b id with
    | error e => rfl
    | ok r =>
      unfold Funders.chargeFundersOfPool at h
      split at h
      · cases h
      · simp only at h
        split at h
        · cases h; rfl
        · split at h
          · cases h
          · rename_i b' hb
            cases h
            exact Bank.send_ne hb (by rintro ⟨⟩) (by rintro ⟨⟩)
  | pay b hl => exact ho.user a
  | finalize id v =>
    show (c.finalize id v).b _ = _
    unfold finalize; split <;> rfl
  | register m n =>
    show (c.register m n).b _ = _
    unfold register; split <;> rfl
  | pool op => rfl
  | blank | next | cast | progress | crash => rfl
  | _ => cases hj

theorem users_steps {gov : Addr} {c c' : Chain} (h : JSteps gov c c') (a : Addr) : c'.b (.user a) = c.b (.user a) := by
  induction h with
  | refl => rfl
  | cons μ _ ho hj _ ih => exact (users_micro μ ho hj a).trans ih

theorem kickAll_b (id : Nat) (l : List Addr) (c : Chain) : (kickAll id l c).b = c.b := by
  induction l generalizing c with
  | nil => rfl
  | cons a l ih => exact ih _

theorem users_disable {gov : Addr} {c c' : Chain} {x : Addr} {id : Nat} (h : disablePool gov c x id = .ok c') (a : Addr) :
    c'.b (.user a) = c.b (.user a) := by
  unfold disablePool at h
  split at h
  · cases h
  · unfold drain at h
    split at h
    · cases h; rw [kickAll_b]
    · split at h
      · cases h
      · split at h
        · cases h
        · rename_i b hb
          cases h
          refine (Bank.send_ne hb (by rintro ⟨⟩) (by rintro ⟨⟩)).trans ?_
          rw [kickAll_b]

theorem lost_queues (x : Chain) (r : Bool) (a : Addr) : Lost a Coins.zero x.b (x.queues r).b :=
  lost_delBlock x.dw x.now r a

theorem lost_afterSplit (c : Chain) (r : Bool) (a : Addr) (o : Option Chain)
    (h : ∀ x, o = some x → x.b (.user a) = c.b (.user a)) : Lost a Coins.zero c.b (c.afterSplit r o).b := by
  cases o with
  | none => exact Lost.of_eq rfl
  | some x => exact Lost.trans0 (Lost.of_eq (h x rfl)) (lost_queues x r a)

theorem lost_beginBlock (c : Chain) (dt pr te : Nat) (r : Bool) (a : Addr) :
    Lost a Coins.zero c.b (c.beginBlock dt pr te r).b := by
  refine lost_afterSplit c r a ((c.newBlock dt r).splitInflation pr te) fun x hx => ?_
  obtain ⟨b, hl, rfl, hk⟩ := splitInflation_eq hx
  exact hk.user a

/-- C81 -/
theorem C81_exec (gov : Addr) (c c' : Chain) (h : Reachable gov c) (op : Op) (ho : op.inner = true)
    (he : exec gov c op = .ok c') (a : Addr) : Lost a (due op.signer a op.spends) c.b c'.b := by
  have hs := (Reachable.good h).sound
  cases op with
  | submit m => exact Lost.of_eq (users_steps (submit_steps (gov := gov) hs.mem he) a)
  | vote m => exact Lost.of_eq (users_steps (vote_steps (gov := gov) hs.mem he) a)
  | skip m => exact Lost.of_eq (users_steps (skip_steps (gov := gov) hs he) a)
  | claim x y id => exact Lost.of_eq (users_steps (claim_steps (gov := gov) hs.mem he) a)
  | endBlock =>
    injection he with he
    rw [← he]
    exact Lost.of_eq (users_steps (endBlock_steps (gov := gov) hs.mem) a)
  | createStaker x k n =>
    have he' : c.createStaker x k n = .ok c' := he
    unfold createStaker at he'
    split at he'
    · cases he'
    · split at he'
      · cases he'
      · rename_i w hw
        cases he'
        exact lost_delegateMsg hw
  | join m =>
    obtain ⟨w, hw, rfl⟩ := join_eq he
    have hb := Stakers.joinPool_send hw
    have e : ((c.withSt (Stakers.noteGift m c.sw w)).noteGifts m).b = w.b := by
      show (Stakers.noteGift m c.sw w).b = w.b
      unfold Stakers.noteGift; split <;> rfl
    rw [e]
    exact lost_send hb
  | leave | updateCommission | updateMetadata | createFunder | updatePool | enablePool | scheduleUpgrade | cancelUpgrade
    | bundlesParams | stakersParams | poolParams | fundersParams =>
    obtain ⟨s, hr, rfl⟩ := map_ok he
    exact Lost.of_eq rfl
  | claimRewards x y =>
    obtain ⟨w, hr, rfl⟩ := map_ok he
    obtain ⟨-, -, -, -, hb, -⟩ := Stakers.claim_ok hr
    exact (lost_mod hb (by rintro u ⟨⟩)).weak
  | delegate x st n =>
    obtain ⟨w, hr, rfl⟩ := map_ok he
    exact lost_delegateMsg hr
  | redelegate m =>
    obtain ⟨w, hr, rfl⟩ := map_ok he
    obtain ⟨s, -, -, -, -, -, -, -, -, hb⟩ := Delegation.redelegateMsg_ok hr
    refine Lost.weak ?_
    show Lost a Coins.zero c.b w.b
    rw [hb]
    unfold Delegation.performDelegation Delegation.performUndelegation
    exact Lost.trans0 (lost_performOp (⟨s, c.b⟩ : Delegation.World) _ _ _ a) (lost_performOp _ _ _ _ a)
  | undelegate x st n =>
    obtain ⟨w, hr, rfl⟩ := map_ok he
    refine Lost.of_eq ?_
    show w.b _ = _
    rw [(Delegation.undelegateMsg_ok hr).1]; rfl
  | withdraw x st =>
    obtain ⟨w, hr, rfl⟩ := map_ok he
    unfold Delegation.withdrawMsg at hr
    split at hr
    · cases hr
    · split at hr
      · cases hr
      · rename_i b hb
        cases hr
        exact (lost_mod hb (by rintro u ⟨⟩)).weak
  | fund m =>
    obtain ⟨r, hr, rfl⟩ := map_ok he
    obtain ⟨l, f, wk, -, -, -, -, -, -, hwk, hb, -⟩ :=
      Funders.fund_ok (Reachable.good h).mods.fund.reach.inv (s' := r.1) (b' := r.2) hr
    have h1 : Lost a Coins.zero c.b wk.b := by
      rcases Funders.ensureFreeSlot_ok hwk with ⟨rfl, -⟩ | ⟨low, x, y, b', -, -, -, -, -, -, -, hb', rfl⟩
      · exact Lost.of_eq rfl
      · exact lost_mod hb' (by rintro u ⟨⟩)
    exact Lost.trans0 h1 (lost_send hb)
  | defund m =>
    obtain ⟨r, hr, rfl⟩ := map_ok he
    obtain ⟨l, f, f', -, -, -, -, hb, -⟩ := Funders.defund_ok (w := c.fw) (s' := r.1) (b' := r.2) hr
    exact (lost_mod hb (by rintro u ⟨⟩)).weak
  | createPool m =>
    obtain ⟨s, -, rfl⟩ := createPool_eq he
    exact Lost.of_eq rfl
  | disablePool x id => exact Lost.of_eq (users_disable he a)
  | delegationParams x y =>
    obtain ⟨w, hr, rfl⟩ := map_ok he
    refine Lost.of_eq ?_
    show w.b _ = _
    rw [(Delegation.updateParams_s hr).1]; rfl
  | beginBlock dt pr te r =>
    injection he with he
    rw [← he]
    exact Lost.weak (lost_beginBlock c dt pr te r a)
  | external b gd gs gf => cases ho

end Chain

/-- C81: whatever message or block comes next, the account of a user has lost nothing, unless the user signed the
message; then it has lost no more than the message says. -/
theorem Chain.C81_coins (gov : Addr) (c : Chain) (h : Reachable gov c) (op : Op) (ho : op.inner = true) (a : Addr)
    (d : Denom) :
    (c.b (.user a)).amt d ≤ ((c.step gov op).b (.user a)).amt d +
      (if op.signer = some a then op.spends.amt d else 0) := by
  unfold step
  split
  · exact Nat.le_add_right _ _
  · cases he : exec gov c op with
    | error e => exact Nat.le_add_right _ _
    | ok c' =>
      have := C81_exec gov c c' h op ho he a d
      unfold due at this
      show _ ≤ (c'.b _).amt d + _
      split
      · rename_i e; rw [if_pos e] at this; exact this
      · rename_i e; rw [if_neg e] at this; simpa using this

/-- a delegation message lowers the account of its signer by what it names and no other account -/
example : ((Sample.ready.exec Sample.gov (.delegate 50 1 7)).isOk = true) ∧
    (Sample.ready.b (.user 50)).amt kyve = ((Sample.run Sample.ready [.delegate 50 1 7]).b (.user 50)).amt kyve + 7 ∧
    (Sample.ready.b (.user 2)).amt kyve = ((Sample.run Sample.ready [.delegate 50 1 7]).b (.user 2)).amt kyve := by
  decide +kernel

end Verif.Chain
