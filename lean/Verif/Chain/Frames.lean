import Verif.Chain.Model
import Verif.Delegation.Solvency
import Verif.Stakers.Properties
import Verif.Funders.Properties
import Verif.Pool.Properties

/-!
# What the modules leave alone

The steps of x/delegation, x/stakers and x/funders move coins only between their own account, x/pool, the treasury and
users; and x/delegation's history only grows.
-/

set_option linter.dupNamespace false

namespace Verif
open Verif

/-- an account that module `m` does not use -/
structure Outside (m : Mod) (a : Acct) : Prop where
  self : a ≠ .mod m
  pool : a ≠ .mod .pool
  treasury : a ≠ .mod .treasury
  user : ∀ u, a ≠ .user u

namespace Bank

theorem send_ne {b b' : Bank} {s t : Acct} {c : Coins} (h : b.send s t c = .ok b') {a : Acct} (hs : a ≠ s) (ht : a ≠ t) :
    b' a = b a := by
  ext d
  rw [(send_ok h).2 a d, if_neg hs, if_neg ht]; omega

theorem orKeep_ne {b : Bank} {s t : Acct} {c : Coins} {a : Acct} (hs : a ≠ s) (ht : a ≠ t) :
    (b.orKeep (b.send s t c)) a = b a := by
  cases h : b.send s t c with
  | error e => rfl
  | ok b' => exact send_ne h hs ht

end Bank

namespace Delegation

variable {a : Acct} (ha : Outside .delegation a)
include ha

theorem performOp_frame (w : World) (st : Addr) (op : Op) (who : Addr) : (performOp w st op who).b a = w.b a :=
  Bank.orKeep_ne ha.self (ha.user who)

theorem delegateMsg_frame {w w' : World} {ex : Bool} {c st : Addr} {n : Nat} (h : delegateMsg w ex c st n = .ok w') :
    w'.b a = w.b a := by
  unfold delegateMsg at h
  split at h
  · cases h
  · split at h
    · cases h
    · rename_i b hb
      injection h with h
      rw [← h]
      unfold transferUser at hb
      split at hb
      · exact (Bank.send_ne hb (ha.user _) ha.self).trans (performOp_frame ha _ _ _ _)
      · cases hb

theorem redelegateMsg_frame {w w' : World} {now : Nat} {ex ac : Bool} {m : RedelegateMsg}
    (h : redelegateMsg w now ex ac m = .ok w') : w'.b a = w.b a := by
  obtain ⟨s, -, -, -, -, -, -, -, -, hb⟩ := redelegateMsg_ok h
  rw [hb]
  exact (performOp_frame ha _ _ _ _).trans (performOp_frame ha _ _ _ _)

theorem withdrawMsg_frame {w w' : World} {c st : Addr} (h : withdrawMsg w c st = .ok w') : w'.b a = w.b a := by
  unfold withdrawMsg at h
  split at h
  · cases h
  · split at h
    · cases h
    · rename_i b hb
      injection h with h
      rw [← h]
      exact Bank.send_ne hb ha.self (ha.user _)

theorem payoutRewards_frame {w w' : World} {st : Addr} {c : Coins} (h : payoutRewards w .pool st c = .ok w') :
    w'.b a = w.b a := by
  unfold payoutRewards at h
  split at h
  · injection h with h; rw [h]
  · split at h
    · cases h
    · split at h
      · cases h
      · rename_i b hb
        injection h with h
        rw [← h]
        exact Bank.send_ne hb ha.pool ha.self

theorem slashDelegators_frame (w : World) (st : Addr) (t : SlashType) : (slashDelegators w st t).b a = w.b a := by
  unfold slashDelegators
  split
  · rfl
  · exact Bank.orKeep_ne ha.self ha.treasury

theorem payEntry_frame (w : World) (now i : Nat) (e : QEntry) : (payEntry w now i e).b a = w.b a :=
  (Bank.orKeep_ne ha.self (ha.user _)).trans (performOp_frame ha _ _ _ _)

theorem queueLoop_frame (now fuel : Nat) (w : World) : (queueLoop now fuel w).b a = w.b a := by
  induction fuel generalizing w with
  | zero => rfl
  | succ n ih =>
    unfold queueLoop
    split
    · rfl
    · rename_i w' hw
      rw [ih w']
      unfold queueRound at hw
      split at hw
      · split at hw
        · injection hw with hw; rw [← hw]
        · cases hw
      · split at hw
        · injection hw with hw; rw [← hw]; exact payEntry_frame ha _ _ _ _
        · cases hw

theorem beginBlock_frame (w : World) (now : Nat) (r : Bool) : (beginBlock w now r).b a = w.b a := by
  unfold beginBlock processQueue
  rw [queueLoop_frame ha]
  split <;> rfl

omit ha in
/-- the actions of the module itself -/
def Act.inner : Act → Bool
  | .external _ _ => false
  | _ => true

/-- a step of x/delegation moves coins only between its account, x/pool, the treasury and users -/
theorem step_frame (gov : Addr) (y : Sys) (act : Act) (hi : act.inner = true) : (y.step gov act).w.b a = y.w.b a := by
  cases act with
  | delegate ex c st n =>
    show (orElse y.w (delegateMsg y.w ex c st n)).b a = _
    cases h : delegateMsg y.w ex c st n with
    | error e => rfl
    | ok w' => exact delegateMsg_frame ha h
  | redelegate ex ac m =>
    show (orElse y.w (redelegateMsg y.w y.now ex ac m)).b a = _
    cases h : redelegateMsg y.w y.now ex ac m with
    | error e => rfl
    | ok w' => exact redelegateMsg_frame ha h
  | undelegate c st n =>
    show (orElse y.w (undelegateMsg y.w y.now c st n)).b a = _
    cases h : undelegateMsg y.w y.now c st n with
    | error e => rfl
    | ok w' => rw [(undelegateMsg_ok h).1]; rfl
  | withdraw c st =>
    show (orElse y.w (withdrawMsg y.w c st)).b a = _
    cases h : withdrawMsg y.w c st with
    | error e => rfl
    | ok w' => exact withdrawMsg_frame ha h
  | updateParams au p =>
    show (orElse y.w (Delegation.updateParams gov y.w au p)).b a = _
    cases h : Delegation.updateParams gov y.w au p with
    | error e => rfl
    | ok w' => rw [(updateParams_s h).1]; rfl
  | payout st c =>
    show (orElse y.w (payoutRewards y.w .pool st c)).b a = _
    cases h : payoutRewards y.w .pool st c with
    | error e => rfl
    | ok w' => exact payoutRewards_frame ha h
  | slash st t => exact slashDelegators_frame ha _ _ _
  | beginBlock dt r => exact beginBlock_frame ha _ _ _
  | external b g => cases hi

omit ha

/-! ## the history grows -/

/-- `t'` is a later history than `t` -/
def Later (t t' : List Event) : Prop := ∃ l, t' = l ++ t

theorem Later.refl (t : List Event) : Later t t := ⟨[], rfl⟩
theorem Later.cons (t : List Event) (e : Event) : Later t (e :: t) := ⟨[e], rfl⟩
theorem Later.trans {t t' t'' : List Event} (h : Later t t') (h' : Later t' t'') : Later t t'' := by
  obtain ⟨l, rfl⟩ := h
  obtain ⟨l', rfl⟩ := h'
  exact ⟨l' ++ l, by simp⟩

theorem dust_step (l : Ledger) (op : Op) : l.dust ≤ (l.step op).dust := Nat.le_add_right _ _

theorem Later.dust {t t' : List Event} (h : Later t t') (st : Addr) : (ledgerOf t st).dust ≤ (ledgerOf t' st).dust := by
  obtain ⟨l, rfl⟩ := h
  induction l with
  | nil => exact le_rfl
  | cons e l ih =>
    refine le_trans ih ?_
    cases e with
    | f1 b op =>
      show _ ≤ (if b = st then (ledgerOf (l ++ t) st).step op else ledgerOf (l ++ t) st).dust
      split
      · exact dust_step _ _
      · exact le_rfl
    | _ => exact le_rfl

theorem Later.calm {s s' : State} (h : Later s.trace s'.trace) (hc : Calm s') : Calm s :=
  fun st => lt_of_le_of_lt (h.dust st) (hc st)

theorem later_performOp (w : World) (st : Addr) (op : Op) (who : Addr) :
    Later w.s.trace (performOp w st op who).s.trace := Later.cons _ _

theorem later_queueLoop (now fuel : Nat) (w : World) : Later w.s.trace (queueLoop now fuel w).s.trace := by
  induction fuel generalizing w with
  | zero => exact Later.refl _
  | succ n ih =>
    unfold queueLoop
    split
    · exact Later.refl _
    · rename_i w' hw
      refine Later.trans ?_ (ih w')
      unfold queueRound at hw
      split at hw
      · split at hw
        · injection hw with hw; rw [← hw]; exact Later.refl _
        · cases hw
      · split at hw
        · injection hw with hw; rw [← hw]
          exact (later_performOp _ _ _ _).trans (Later.cons _ _)
        · cases hw

theorem step_later (gov : Addr) (y : Sys) (act : Act) : Later y.w.s.trace (y.step gov act).w.s.trace := by
  cases act with
  | delegate ex c st n =>
    show Later _ (orElse y.w (delegateMsg y.w ex c st n)).s.trace
    cases h : delegateMsg y.w ex c st n with
    | error e => exact Later.refl _
    | ok w' => rw [show orElse y.w (.ok w') = w' from rfl, delegateMsg_s h]; exact later_performOp _ _ _ _
  | redelegate ex ac m =>
    show Later _ (orElse y.w (redelegateMsg y.w y.now ex ac m)).s.trace
    cases h : redelegateMsg y.w y.now ex ac m with
    | error e => exact Later.refl _
    | ok w' =>
      obtain ⟨s, -, hs, -, -, -, -, -, hw, -⟩ := redelegateMsg_ok h
      rw [show orElse y.w (.ok w') = w' from rfl, hw]
      have : y.w.s.trace = s.trace := by rw [hs]
      rw [this]
      exact ((later_performOp ⟨s, y.w.b⟩ _ _ _).trans (later_performOp _ _ _ _)).trans (Later.cons _ _)
  | undelegate c st n =>
    show Later _ (orElse y.w (undelegateMsg y.w y.now c st n)).s.trace
    cases h : undelegateMsg y.w y.now c st n with
    | error e => exact Later.refl _
    | ok w' => rw [(undelegateMsg_ok h).1]; exact Later.cons _ _
  | withdraw c st =>
    show Later _ (orElse y.w (withdrawMsg y.w c st)).s.trace
    cases h : withdrawMsg y.w c st with
    | error e => exact Later.refl _
    | ok w' => rw [show orElse y.w (.ok w') = w' from rfl, withdrawMsg_s h]; exact Later.cons _ _
  | updateParams au p =>
    show Later _ (orElse y.w (Delegation.updateParams gov y.w au p)).s.trace
    cases h : Delegation.updateParams gov y.w au p with
    | error e => exact Later.refl _
    | ok w' => rw [(updateParams_s h).1]; exact Later.refl _
  | payout st c =>
    show Later _ (orElse y.w (payoutRewards y.w .pool st c)).s.trace
    cases h : payoutRewards y.w .pool st c with
    | error e => exact Later.refl _
    | ok w' =>
      rw [show orElse y.w (.ok w') = w' from rfl]
      rcases payoutRewards_s h with rfl | h
      · exact Later.refl _
      · rw [h]; exact Later.cons _ _
  | slash st t =>
    show Later _ (slashDelegators y.w st t).s.trace
    unfold slashDelegators
    split
    · exact Later.refl _
    · exact Later.cons _ _
  | beginBlock dt r =>
    show Later _ (Delegation.beginBlock y.w (y.now + dt) r).s.trace
    rw [beginBlock_eq]
    have := (preQueue_eq y.w r).2.2.2.1
    rw [← this]
    exact later_queueLoop _ _ _
  | external b g => exact Later.refl _

end Delegation

namespace Stakers

/-- the operations of the module itself, without the join message -/
def Op.inner : Op → Bool
  | .external _ _ => false
  | .join _ _ _ => false
  | _ => true

/-- a step of x/stakers (but joining) moves coins only between its account, x/pool and users -/
theorem step_frame {a : Acct} (ha : Outside .stakers a) (gov : Addr) (y : Sys) (op : Op) (hi : op.inner = true) :
    (Sys.step gov y op).w.b a = y.w.b a := by
  have hS : ∀ r : Except String State, (orElseS y.w r).b a = y.w.b a := by intro r; cases r <;> rfl
  cases op with
  | createStaker x c d => exact hS _
  | leave x p => exact hS _
  | updateCommission x c => exact hS _
  | updateMetadata x i v => exact hS _
  | updateParams x p => exact hS _
  | claim st c =>
    show (orElse y.w (claimRewards y.w st c)).b a = _
    cases h : claimRewards y.w st c with
    | error e => rfl
    | ok w' =>
      obtain ⟨-, x, -, -, hb, -⟩ := claim_ok h
      exact Bank.send_ne hb ha.self (ha.user _)
  | increaseRewards st c =>
    show (orElse y.w (Stakers.increaseRewards y.w .pool st c)).b a = _
    cases h : Stakers.increaseRewards y.w .pool st c with
    | error e => rfl
    | ok w' =>
      rcases increase_ok h with ⟨-, rfl⟩ | ⟨x, -, hb, -⟩
      · rfl
      · exact Bank.send_ne hb ha.pool ha.self
  | kick p st => rfl
  | incrementPoints p st => rfl
  | resetPoints p st => rfl
  | beginBlock dt => rfl
  | join ans amt m => cases hi
  | external b g => cases hi

/-- what a join message does to the balances -/
theorem joinPool_send {w w' : World} {now : Nat} {ans : PoolAnswer} {amt : Addr → Nat} {m : JoinMsg}
    (hr : joinPool w now ans amt m = .ok w') :
    w.b.send (.user m.creator) m.dst (Coins.single kyve m.amount) = .ok w'.b := by
  unfold joinPool at hr
  split at hr; cases hr
  split at hr; cases hr
  split at hr; cases hr
  split at hr; cases hr
  split at hr; cases hr
  split at hr
  · cases hr
  · unfold finishJoin at hr
    split at hr; cases hr
    split at hr; cases hr
    split at hr
    · cases hr
    · rename_i b ht
      cases hr
      unfold transfer at ht
      split at ht
      · exact ht
      · cases ht

end Stakers

namespace Funders

/-- the operations of the module itself -/
def Op.inner : Op → Bool
  | .external _ _ => false
  | _ => true

theorem ensureFreeSlot_frame {a : Acct} (ha : Outside .funders a) {s : State} {b : Bank} {pool : Nat} {l : List Addr}
    {f : Funding} {w : Work} (h : ensureFreeSlot s pool l b f = .ok w) : w.b a = b a := by
  rcases ensureFreeSlot_ok h with ⟨rfl, -⟩ | ⟨low, x, y, b', -, -, -, -, -, -, -, hb, rfl⟩
  · rfl
  · exact Bank.send_ne hb ha.self (ha.user _)

theorem fundPool_frame {a : Acct} (ha : Outside .funders a) {s : State} {b : Bank} {ok : Bool} {m : FundMsg}
    {r : State × Bank} (h : fundPool s b ok m = .ok r) : r.2 a = b a := by
  unfold fundPool at h
  split at h; cases h
  split at h; cases h
  split at h; cases h
  split at h
  · cases h
  · split at h
    · cases h
    · split at h
      · cases h
      · rename_i w hw
        unfold finishFund at h
        split at h
        · cases h
        · rename_i b' hb
          cases h
          exact (Bank.send_ne hb (ha.user _) ha.self).trans (ensureFreeSlot_frame ha hw)

theorem chargeFundersOfPool_frame {a : Acct} (ha : Outside .funders a) {s : State} {b : Bank} {pool : Nat}
    {r : Coins × State × Bank} (h : chargeFundersOfPool s b pool = .ok r) : r.2.2 a = b a := by
  unfold chargeFundersOfPool at h
  split at h
  · cases h
  · simp only at h
    split at h
    · cases h; rfl
    · split at h
      · cases h
      · rename_i b' hb
        cases h
        exact Bank.send_ne hb ha.self ha.pool

/-- a step of x/funders moves coins only between its account, x/pool and users -/
theorem step_frame {a : Acct} (ha : Outside .funders a) (gov : Addr) (w : World) (op : Op) (hi : op.inner = true) :
    (step gov w op).b a = w.b a := by
  have hS : ∀ r : Except String State, (orElseS w r).b a = w.b a := by intro r; cases r <;> rfl
  cases op with
  | createFunder x => exact hS _
  | poolCreated id =>
    show (if w.s.active.has id then w else ⟨w.s.createFundingState id, w.b⟩ : World).b a = _
    split <;> rfl
  | fund ok m =>
    show (orElse w (fundPool w.s w.b ok m)).b a = _
    cases h : fundPool w.s w.b ok m with
    | error e => rfl
    | ok r => exact fundPool_frame ha h
  | defund m =>
    show (orElse w (defundPool w.s w.b m)).b a = _
    cases h : defundPool w.s w.b m with
    | error e => rfl
    | ok r =>
      obtain ⟨l, f, f', -, -, -, -, hb, -⟩ := defund_ok (s' := r.1) (b' := r.2) h
      exact Bank.send_ne hb ha.self (ha.user _)
  | charge id =>
    show (orElseC w (chargeFundersOfPool w.s w.b id)).b a = _
    cases h : chargeFundersOfPool w.s w.b id with
    | error e => rfl
    | ok r => exact chargeFundersOfPool_frame ha h
  | updateParams x p => exact hS _
  | external b g => cases hi

end Funders
end Verif
