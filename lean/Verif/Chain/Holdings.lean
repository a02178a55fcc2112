import Verif.Chain.Own
import Verif.Delegation.Earned

/-!
# C82, C83: nobody else can change my delegation or take my rewards

What a user has delegated to a staker only changes by messages of that user, when a request of that user to undelegate
matures, and by slashes of that staker, each by exactly its fraction.  What the user could withdraw as reward is never
lowered by anything else.
-/

set_option linter.dupNamespace false
namespace Verif.Chain
open Verif
open Chain
open Verif.Delegation (balance payable curDel f1Step F1Inv Op.who)

/-! ## specification -/

/-- the decimal stake of delegator `a` with staker `st`; `GetDelegationAmountOfDelegator` shows its whole part -/
def Chain.owns (c : Chain) (st a : Addr) : Dec := balance (c.del.at st) a

/-- what `MsgWithdrawRewards` of delegator `a` with staker `st` would pay now -/
def Chain.earned (c : Chain) (st a : Addr) (d : Denom) : Nat := payable (c.del.at st) a d

/-- the fractions of the slashes of `st` -/
def fractions (st : Addr) (l : List (Addr × Dec)) : List Dec := (l.filter (fun x => x.1 = st)).map (·.2)

/-- the decimal stake that is left after a slash -/
def shrink (x q : Dec) : Dec := x - x * q / Dec.one

/-- the block pays out a request of `a` to undelegate from `st` -/
def Matures (c : Chain) (op : Op) (st a : Addr) : Prop :=
  ∃ dt pr te r i e, op = .beginBlock dt pr te r ∧ c.del.queue.get? i = some e ∧ e.staker = st ∧ e.delegator = a ∧
    Delegation.due c.del.params (c.now + dt) e = true

namespace Chain

/-! ## proofs -/

theorem fractions_append (st : Addr) (l l' : List (Addr × Dec)) :
    fractions st (l ++ l') = fractions st l ++ fractions st l' := by simp [fractions]

/-- valid fractions and a consistent store -/
def Sound1 (st : Addr) (s : Delegation.State) : Prop :=
  s.params.validate = true ∧ F1Inv (s.at st)

/-- the holdings of `a` with `st` were changed by slashes and (if `p`) payouts only -/
def Holds (p : Bool) (st a : Addr) (s s' : Delegation.State) : Prop :=
  Sound1 st s → F1Inv (s'.at st) ∧
    (∃ l, slashesOf s'.trace = slashesOf s.trace ++ l ∧
      balance (s'.at st) a = (fractions st l).foldl shrink (balance (s.at st) a)) ∧
    ∀ d, payable (s.at st) a d ≤ payable (s'.at st) a d ∧ (p = false → payable (s'.at st) a d = payable (s.at st) a d)

theorem Holds.of_eq {p : Bool} {st a : Addr} {s s' : Delegation.State} (h : s'.at st = s.at st)
    (ht : slashesOf s'.trace = slashesOf s.trace) : Holds p st a s s' := fun hs =>
  ⟨by rw [h]; exact hs.2, ⟨[], by simpa using ht, by rw [h]; rfl⟩, fun d => by rw [h]; exact ⟨Nat.le_refl _, fun _ => rfl⟩⟩

theorem Holds.trans {p : Bool} {st a : Addr} {s s' s'' : Delegation.State} (h : Holds p st a s s')
    (hp : s'.params = s.params) (h' : Holds p st a s' s'') : Holds p st a s s'' := fun hs => by
  obtain ⟨h1, ⟨l, h2, h3⟩, h4⟩ := h hs
  obtain ⟨h1', ⟨l', h2', h3'⟩, h4'⟩ := h' ⟨by rw [hp]; exact hs.1, h1⟩
  refine ⟨h1', ⟨l ++ l', by rw [h2', h2, List.append_assoc], ?_⟩, fun d =>
    ⟨le_trans (h4 d).1 (h4' d).1, fun e => ((h4' d).2 e).trans ((h4 d).2 e)⟩⟩
  rw [fractions_append, List.foldl_append, ← h3, h3']

theorem balance_step {s : Delegation.F1} (h : F1Inv s) (op : Delegation.Op) (a : Addr) (ha : op.who ≠ some a)
    (hm : ∀ q, op ≠ .slash q) : balance (f1Step s op) a = balance s a := by
  cases op with
  | delegate w n =>
    have haw : a ≠ w := fun e => ha (by rw [e]; rfl)
    show balance (Delegation.delegate s w n).1 a = _
    rw [Delegation.delegate_fst, Delegation.balance_create ((h.withdraw w).remove w) (Delegation.remove_get? _ w),
      if_neg haw, Delegation.balance_remove (h.withdraw w), if_neg haw, Delegation.balance_withdraw h, if_neg haw]
  | undelegate w n =>
    have haw : a ≠ w := fun e => ha (by rw [e]; rfl)
    show balance (Delegation.undelegateRest _ w n _) a = _
    have e : balance (Delegation.remove (Delegation.withdraw s w).1 w).1 a = balance s a := by
      rw [Delegation.balance_remove (h.withdraw w), if_neg haw, Delegation.balance_withdraw h, if_neg haw]
    unfold Delegation.undelegateRest
    split
    · rw [Delegation.balance_create ((h.withdraw w).remove w) (Delegation.remove_get? _ w), if_neg haw, e]
    · exact e
  | withdraw w =>
    have haw : a ≠ w := fun e => ha (by rw [e]; rfl)
    show balance (Delegation.withdraw s w).1 a = _
    rw [Delegation.balance_withdraw h, if_neg haw]
  | slash q => exact absurd rfl (hm q)
  | payout c => exact Delegation.balance_payout s c a

/-- an operation on the store of some staker -/
theorem holds_f1 {p : Bool} {st a x : Addr} {s s' : Delegation.State} (op : Delegation.Op)
    (hat : ∀ y, s'.at y = if y = x then f1Step (s.at x) op else s.at y)
    (ht : slashesOf s'.trace = slashesOf s.trace) (hm : ∀ q, op ≠ .slash q) (hp : p = false → ∀ c, op ≠ .payout c)
    (ha : st = x → op.who ≠ some a) : Holds p st a s s' := by
  by_cases e : st = x
  · subst e
    intro hs
    have h1 : s'.at st = f1Step (s.at st) op := by rw [hat, if_pos rfl]
    have hq : ∀ q, op = .slash q → q ≤ Dec.one := fun q e => absurd e (hm q)
    rw [h1]
    exact ⟨hs.2.step op hq, ⟨[], by simpa using ht, balance_step hs.2 op a (ha rfl) hm⟩, fun d =>
      ⟨(Delegation.payable_step hs.2 op hq a (ha rfl) d).1, fun h =>
        (Delegation.payable_step hs.2 op hq a (ha rfl) d).2 (hp h)⟩⟩
  · exact Holds.of_eq (by rw [hat, if_neg e]) ht

theorem fraction_le {p : Delegation.Params} (h : p.validate = true) (t : Delegation.SlashType) :
    p.slashFraction t ≤ Dec.one := by
  unfold Delegation.Params.validate at h
  simp only [Bool.and_eq_true, decide_eq_true_eq] at h
  cases t
  · exact h.2
  · exact h.1.1
  · exact h.1.2

theorem holds_slash (p : Bool) (st a x : Addr) (w : Delegation.World) (t : Delegation.SlashType) :
    Holds p st a w.s (Delegation.slashDelegators w x t).s := by
  unfold Delegation.slashDelegators
  split
  · exact Holds.of_eq rfl rfl
  · show Holds p st a w.s { w.s.applyIndexed x (.slash (w.s.params.slashFraction t)) with halted := _ }
    intro hs
    have hq := fraction_le hs.1 t
    have hat : ∀ (b : Bool) (y : Addr), Delegation.State.at
        { w.s.applyIndexed x (.slash (w.s.params.slashFraction t)) with halted := b } y
        = if y = x then f1Step (w.s.at x) (.slash (w.s.params.slashFraction t)) else w.s.at y :=
      fun b y => Delegation.at_applyIndexed _ _ _ _
    by_cases e : st = x
    · subst e
      rw [hat, if_pos rfl]
      refine ⟨hs.2.slash hq, ⟨[(st, w.s.params.slashFraction t)], rfl, ?_⟩, fun d => ?_⟩
      · have e1 : fractions st [(st, w.s.params.slashFraction t)] = [w.s.params.slashFraction t] := by simp [fractions]
        rw [e1]
        exact Delegation.balance_slash hs.2 _ a
      · have := Delegation.payable_slash hs.2 hq a d
        exact ⟨this.symm.le, fun _ => this⟩
    · rw [hat, if_neg e]
      refine ⟨hs.2, ⟨[(x, w.s.params.slashFraction t)], rfl, ?_⟩, fun d => ⟨Nat.le_refl _, fun _ => rfl⟩⟩
      have e1 : fractions st [(x, w.s.params.slashFraction t)] = [] := by
        simp [fractions, Ne.symm e]
      rw [e1]; rfl

theorem holds_micro {gov : Addr} {c : Chain} (μ : Micro) (hj : μ.judging = true) (st a : Addr) :
    Holds true st a c.del (μ.run gov c).del ∧ (μ.run gov c).del.params = c.del.params := by
  cases μ with
  | del act =>
    cases act <;> first | (cases hj; done) | skip
    · rename_i x y
      show Holds true st a c.del (Delegation.orElse c.dw (Delegation.payoutRewards c.dw .pool x y)).s ∧
        (Delegation.orElse c.dw (Delegation.payoutRewards c.dw .pool x y)).s.params = _
      cases h : Delegation.payoutRewards c.dw .pool x y with
      | error e => exact ⟨Holds.of_eq rfl rfl, rfl⟩
      | ok w' =>
        show Holds true st a c.del w'.s ∧ w'.s.params = _
        rcases Delegation.payoutRewards_s h with rfl | h
        · exact ⟨Holds.of_eq rfl rfl, rfl⟩
        · rw [h]
          exact ⟨holds_f1 (.payout y) (fun z => Delegation.at_apply _ _ _ _) rfl (by rintro q ⟨⟩) (by rintro ⟨⟩)
            (by rintro - ⟨⟩), rfl⟩
    · rename_i x t
      refine ⟨holds_slash true st a x c.dw t, ?_⟩
      show (Delegation.slashDelegators c.dw x t).s.params = _
      unfold Delegation.slashDelegators
      split <;> rfl
  | st op => cases op <;> first | (cases hj; done) | exact ⟨Holds.of_eq rfl rfl, rfl⟩
  | fund op => exact ⟨Holds.of_eq rfl rfl, rfl⟩
  | pool op => exact ⟨Holds.of_eq rfl rfl, rfl⟩
  | finalize id v =>
    have e : ((Micro.finalize id v).run gov c).del = c.del := by
      show (c.finalize id v).del = _
      unfold finalize; split <;> rfl
    rw [e]; exact ⟨Holds.of_eq rfl rfl, rfl⟩
  | register m n =>
    have e : ((Micro.register m n).run gov c).del = c.del := by
      show (c.register m n).del = _
      unfold register; split <;> rfl
    rw [e]; exact ⟨Holds.of_eq rfl rfl, rfl⟩
  | pay | blank | next | cast | progress | crash => exact ⟨Holds.of_eq rfl rfl, rfl⟩
  | _ => cases hj

theorem holds_steps {gov : Addr} {c c' : Chain} (h : JSteps gov c c') (st a : Addr) :
    Holds true st a c.del c'.del ∧ c'.del.params = c.del.params := by
  induction h with
  | refl => exact ⟨Holds.of_eq rfl rfl, rfl⟩
  | @cons x μ _ _ hj _ ih =>
    have := holds_micro (gov := gov) (c := x) μ hj st a
    exact ⟨ih.1.trans ih.2 (this.1), this.2.trans ih.2⟩

theorem holds_performOp (p : Bool) {w : Delegation.World} {x who st a : Addr} (op : Delegation.Op)
    (hm : ∀ q, op ≠ .slash q) (hp : ∀ c, op ≠ .payout c) (ht : ∀ t, slashesOf (.f1 x op :: t) = slashesOf t)
    (ha : st = x → op.who ≠ some a) :
    Holds p st a w.s (Delegation.performOp w x op who).s :=
  holds_f1 op (fun _ => Delegation.at_applyIndexed _ _ _ _) (ht _) hm (fun _ => hp) ha

theorem holds_queueLoop (st a : Addr) (now fuel : Nat) (w : Delegation.World)
    (hn : ∀ i e, w.s.queue.get? i = some e → e.staker = st → e.delegator = a → Delegation.due w.s.params now e ≠ true) :
    Holds false st a w.s (Delegation.queueLoop now fuel w).s := by
  induction fuel generalizing w with
  | zero => exact Holds.of_eq rfl rfl
  | succ n ih =>
    unfold Delegation.queueLoop
    split
    · exact Holds.of_eq rfl rfl
    · rename_i w' hw
      unfold Delegation.queueRound at hw
      split at hw
      · split at hw
        · injection hw with hw
          subst hw
          exact Holds.trans (Holds.of_eq rfl rfl) rfl (ih ⟨{ w.s with low := w.s.low + 1 }, w.b⟩ hn)
        · cases hw
      · rename_i e he
        split at hw
        · rename_i hd
          injection hw with hw
          have h1 : Holds false st a w.s w'.s := by
            rw [← hw]
            refine holds_f1 (x := e.staker) (.undelegate e.delegator e.amount)
              (fun y => Delegation.at_applyIndexed _ _ _ _) rfl (by rintro q ⟨⟩) (fun _ => by rintro c ⟨⟩) ?_
            intro e1 e2
            injection e2 with e2
            exact hn _ e he e1.symm e2 hd
          have hp : w'.s.params = w.s.params := by rw [← hw]; rfl
          refine h1.trans hp (ih w' ?_)
          intro i e' he'
          rw [hp]
          rw [← hw] at he'
          have he' : (w.s.queue.del (w.s.low + 1)).get? i = some e' := he'
          rw [Map.get?_del] at he'
          split at he'
          · cases he'
          · exact hn i e' he'
        · cases hw

theorem holds_delBlock (st a : Addr) (w : Delegation.World) (now : Nat) (r : Bool)
    (hn : ∀ i e, w.s.queue.get? i = some e → e.staker = st → e.delegator = a → Delegation.due w.s.params now e ≠ true) :
    Holds false st a w.s (Delegation.beginBlock w now r).s := by
  rw [Delegation.beginBlock_eq]
  obtain ⟨e1, -, -, e4, e5, -⟩ := Delegation.preQueue_eq w r
  have hat : (Delegation.preQueue w r).s.f1 = w.s.f1 := by
    unfold Delegation.preQueue
    split
    · exact (Delegation.f1_foldl_setIndex _ { w.s with index := ∅ }).1
    · rfl
  refine Holds.trans (s' := (Delegation.preQueue w r).s) (Holds.of_eq ?_ (by rw [e4])) e5
    (holds_queueLoop st a now _ _ ?_)
  · unfold Delegation.State.at; rw [hat]
  · rw [e1, e5]; exact hn

theorem kickAll_del (id : Nat) (l : List Addr) (c : Chain) : (kickAll id l c).del = c.del := by
  induction l generalizing c with
  | nil => rfl
  | cons a l ih => exact ih _

theorem disable_del {gov : Addr} {c c' : Chain} {x : Addr} {id : Nat} (h : disablePool gov c x id = .ok c') :
    c'.del = c.del := by
  unfold disablePool at h
  split at h
  · cases h
  · unfold drain at h
    split at h
    · cases h; rw [kickAll_del]
    · split at h
      · cases h
      · split at h
        · cases h
        · cases h
          show (kickAll _ _ _).del = _
          rw [kickAll_del]

theorem holds_delegateMsg (p : Bool) {w w' : Delegation.World} {ex : Bool} {x y st a : Addr} {n : Nat} (hx : x ≠ a)
    (h : Delegation.delegateMsg w ex x y n = .ok w') : Holds p st a w.s w'.s := by
  rw [Delegation.delegateMsg_s h]
  exact holds_performOp p _ (by rintro q ⟨⟩) (by rintro q ⟨⟩) (fun _ => rfl) (fun _ e => hx (by injection e))

theorem holds_afterSplit (c : Chain) (r : Bool) (st a : Addr) (o : Option Chain)
    (h : ∀ x, o = some x → Holds false st a c.del (x.queues r).del) : Holds false st a c.del (c.afterSplit r o).del := by
  cases o with
  | none => exact Holds.of_eq rfl rfl
  | some x => exact h x rfl

theorem holds_exec (gov : Addr) (c c' : Chain) (h : Reachable gov c) (op : Op) (ho : op.inner = true)
    (he : exec gov c op = .ok c') (st a : Addr) (hs : op.signer ≠ some a) (hm : ¬ Matures c op st a) :
    Holds op.judges st a c.del c'.del := by
  have hg := (Reachable.good h).sound
  have same : c'.del = c.del → Holds op.judges st a c.del c'.del := fun e => by rw [e]; exact Holds.of_eq rfl rfl
  cases op with
  | submit m => exact (holds_steps (submit_steps (gov := gov) hg.mem he) st a).1
  | skip m => exact (holds_steps (skip_steps (gov := gov) hg he) st a).1
  | endBlock =>
    injection he with he
    rw [← he]
    exact (holds_steps (endBlock_steps (gov := gov) hg.mem) st a).1
  | vote m =>
    obtain ⟨-, p, -, rfl⟩ := vote_ok he
    exact same rfl
  | claim x y id =>
    obtain ⟨-, -, -, rfl⟩ := claim_ok he
    exact same rfl
  | createStaker x k n =>
    have he' : c.createStaker x k n = .ok c' := he
    unfold createStaker at he'
    split at he'
    · cases he'
    · split at he'
      · cases he'
      · rename_i w hw
        cases he'
        exact holds_delegateMsg _ (fun e => hs (by rw [e]; rfl)) hw
  | join m =>
    obtain ⟨w, hw, rfl⟩ := join_eq he
    exact Holds.of_eq rfl rfl
  | leave | updateCommission | updateMetadata | createFunder | updatePool | enablePool | scheduleUpgrade | cancelUpgrade
    | bundlesParams | stakersParams | poolParams | fundersParams | claimRewards | fund | defund =>
    obtain ⟨s, hr, rfl⟩ := map_ok he
    exact Holds.of_eq rfl rfl
  | delegate x y n =>
    obtain ⟨w, hr, rfl⟩ := map_ok he
    exact holds_delegateMsg _ (fun e => hs (by rw [e]; rfl)) hr
  | redelegate m =>
    obtain ⟨w, hr, rfl⟩ := map_ok he
    have hx : m.creator ≠ a := fun e => hs (by rw [← e]; rfl)
    obtain ⟨s, -, hs', -, -, -, -, -, hw, -⟩ := Delegation.redelegateMsg_ok hr
    show Holds _ st a c.del w.s
    rw [hw]
    have e0 : s.at st = c.del.at st := by rw [hs']; rfl
    have e1 : s.trace = c.del.trace := by rw [hs']; rfl
    have e2 : s.params = c.del.params := by rw [hs']; rfl
    have h1 : Holds false st a c.del s := Holds.of_eq e0 (by rw [e1])
    have h2 : Holds false st a s (Delegation.performUndelegation ⟨s, c.dw.b⟩ m.src m.creator m.amount).s :=
      holds_performOp (w := ⟨s, c.dw.b⟩) false _ (by rintro q ⟨⟩) (by rintro q ⟨⟩) (fun _ => rfl)
        (fun _ e => hx (by injection e))
    have h3 : Holds false st a (Delegation.performUndelegation ⟨s, c.dw.b⟩ m.src m.creator m.amount).s
        (Delegation.performDelegation (Delegation.performUndelegation ⟨s, c.dw.b⟩ m.src m.creator m.amount) m.dst
          m.creator m.amount).s :=
      holds_performOp false _ (by rintro q ⟨⟩) (by rintro q ⟨⟩) (fun _ => rfl) (fun _ e => hx (by injection e))
    exact ((h1.trans e2 h2).trans e2 h3).trans e2 (Holds.of_eq rfl rfl)
  | undelegate x y n =>
    obtain ⟨w, hr, rfl⟩ := map_ok he
    show Holds _ st a c.del w.s
    rw [(Delegation.undelegateMsg_ok hr).1]
    exact Holds.of_eq rfl rfl
  | withdraw x y =>
    obtain ⟨w, hr, rfl⟩ := map_ok he
    show Holds _ st a c.del w.s
    rw [Delegation.withdrawMsg_s hr]
    exact holds_f1 (x := y) (.withdraw x) (fun z => Delegation.at_apply _ _ _ _) rfl (by rintro q ⟨⟩)
      (fun _ => by rintro q ⟨⟩) (fun _ e => hs (by injection e with e; rw [e]; rfl))
  | createPool m =>
    obtain ⟨s, -, rfl⟩ := createPool_eq he
    exact Holds.of_eq rfl rfl
  | disablePool x id => exact same (disable_del he)
  | delegationParams x y =>
    obtain ⟨w, hr, rfl⟩ := map_ok he
    show Holds _ st a c.del w.s
    rw [(Delegation.updateParams_s hr).1]
    exact Holds.of_eq rfl rfl
  | beginBlock dt pr te r =>
    injection he with he
    rw [← he]
    refine holds_afterSplit c r st a ((c.newBlock dt r).splitInflation pr te) fun x hx => ?_
    obtain ⟨b, hl, rfl, -⟩ := splitInflation_eq hx
    exact holds_delBlock st a (⟨c.del, b⟩ : Delegation.World) (c.now + dt) r
      fun i e h1 h2 h3 h4 => hm ⟨dt, pr, te, r, i, e, rfl, h1, h2, h3, h4⟩
  | external b gd gs gf => cases ho

theorem holds_step (gov : Addr) (c : Chain) (h : Reachable gov c) (op : Op) (ho : op.inner = true) (st a : Addr)
    (hs : op.signer ≠ some a) (hm : ¬ Matures c op st a) : Holds op.judges st a c.del (c.step gov op).del := by
  unfold step
  split
  · exact Holds.of_eq rfl rfl
  · cases he : exec gov c op with
    | error e => exact Holds.of_eq rfl rfl
    | ok c' => exact holds_exec gov c c' h op ho he st a hs hm

theorem sound1 {gov : Addr} {c : Chain} (h : Reachable gov c) (st : Addr) : Sound1 st c.del :=
  have hw := (Reachable.good h).mods.del.winv
  ⟨hw.par, hw.tied.f1inv st⟩

end Chain

/-- C82: unless the user signed the message, or a request of the user to undelegate from this staker matures in the
block, the decimal stake is only reduced by the new slashes of this staker, in order, each by its fraction. -/
theorem Chain.C82_delegation (gov : Addr) (c : Chain) (h : Reachable gov c) (op : Op) (ho : op.inner = true)
    (st a : Addr) (hs : op.signer ≠ some a) (hm : ¬ Matures c op st a) :
    ∃ l, (c.step gov op).slashes = c.slashes ++ l ∧
      (c.step gov op).owns st a = (fractions st l).foldl shrink (c.owns st a) :=
  (holds_step gov c h op ho st a hs hm (sound1 h st)).2.1

/-- C82: so without a slash of the staker the delegation shown by the queries stays the same. -/
theorem Chain.C82_kept (gov : Addr) (c : Chain) (h : Reachable gov c) (op : Op) (ho : op.inner = true)
    (st a : Addr) (hs : op.signer ≠ some a) (hm : ¬ Matures c op st a)
    (hn : ∀ l, (c.step gov op).slashes = c.slashes ++ l → ∀ x ∈ l, x.1 ≠ st) :
    curDel ((c.step gov op).del.at st) a = curDel (c.del.at st) a := by
  obtain ⟨l, h1, h2⟩ := C82_delegation gov c h op ho st a hs hm
  have e : fractions st l = [] := by
    unfold fractions
    rw [List.map_eq_nil_iff, List.filter_eq_nil_iff]
    intro x hx
    simpa using hn l h1 x hx
  rw [e] at h2
  rw [Delegation.curDel_eq, Delegation.curDel_eq]
  exact congrArg Dec.trunc h2

/-- C83: unless the user signed the message, or a request of the user to undelegate from this staker matures in the
block, what the user could withdraw does not become less; and it stays the same unless the message or block decides
about bundles. -/
theorem Chain.C83_rewards (gov : Addr) (c : Chain) (h : Reachable gov c) (op : Op) (ho : op.inner = true)
    (st a : Addr) (hs : op.signer ≠ some a) (hm : ¬ Matures c op st a) (d : Denom) :
    c.earned st a d ≤ (c.step gov op).earned st a d ∧
      (op.judges = false → (c.step gov op).earned st a d = c.earned st a d) :=
  (holds_step gov c h op ho st a hs hm (sound1 h st)).2.2 d

/-- the end block slashes uploader 1 by 20%; the stake of 1 with itself goes from 100 to 80, that of 2 stays -/
example : Sample.disputed.owns 1 1 = 100 * Dec.one ∧ Sample.punished.owns 1 1 = 80 * Dec.one ∧
    fractions 1 Sample.punished.slashes = [200000000000000000] ∧ Sample.disputed.slashes = [] ∧
    Sample.punished.owns 2 2 = Sample.disputed.owns 2 2 := by decide +kernel
/-- a bundle raises the reward of delegator 1; a delegation of somebody else leaves it alone -/
example : Sample.later.earned 1 1 kyve = 0 ∧ Sample.second.earned 1 1 kyve = 891000 ∧
    (Sample.run Sample.second [.delegate 50 1 7]).earned 1 1 kyve = 891000 ∧
    (Sample.run Sample.second [.delegate 50 1 7]).owns 1 50 = 7 * Dec.one := by decide +kernel

end Verif.Chain
