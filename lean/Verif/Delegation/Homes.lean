import Verif.Delegation.Queue

/-!
# Who can have delegators

Delegation data of a staker comes into being by a delegation or a redelegation only, and both ask whether the staker
exists.
-/

namespace Verif.Delegation
open Verif

theorem data_remove {f : F1} (h : F1Inv f) (who : Addr) : (remove f who).1.data.isSome = true → f.data.isSome = true := by
  unfold remove
  cases hw : f.dels.get? who with
  | none => exact fun h => h
  | some x => obtain ⟨d, hd⟩ := h.data_of_del hw; intro _; rw [hd]; rfl

theorem data_slash (f : F1) (q : Dec) : (slash f q).1.data.isSome = true → f.data.isSome = true := by
  unfold slash
  cases hd : f.data with
  | none => intro h; dsimp only at h; rw [hd] at h; exact h
  | some d => exact fun _ => rfl

/-- the stakers with delegation data are among `R` -/
def Homed (R : Addr → Prop) (s : State) : Prop := ∀ st, (s.at st).data.isSome = true → R st

theorem Homed.of_eq {R : Addr → Prop} {s s' : State} (h : Homed R s) (hf : s'.f1 = s.f1) : Homed R s' := by
  intro st hd
  have : s'.at st = s.at st := by unfold State.at; rw [hf]
  rw [this] at hd
  exact h st hd

theorem Homed.apply {R : Addr → Prop} {s : State} (h : Homed R s) (ht : Tied s) (a : Addr) (op : Op)
    (hop : ∀ w n, op = .delegate w n → R a) : Homed R (s.apply a op) := by
  intro st hd
  rw [at_apply] at hd
  split at hd
  · rename_i e
    have e : st = a := by simpa using e
    subst e
    cases op with
    | delegate w n => exact hop w n rfl
    | undelegate w n =>
      refine h st ?_
      cases hd0 : (s.at st).data with
      | some d => rfl
      | none =>
        exfalso
        have hz := ((ht.f1inv st).dnone hd0).1
        have hg : (s.at st).dels.get? w = none := by rw [hz]; rfl
        have e1 : (f1Step (s.at st) (.undelegate w n)).data = none := by
          simp [f1Step, undelegate, withdraw, hg, remove, undelegateRest, hd0]
        rw [e1] at hd
        cases hd
    | withdraw w => exact h st (data_withdraw (ht.f1inv st) w hd)
    | payout c => exact h st (data_payout _ c hd)
    | slash q => exact h st (data_slash _ q hd)
  · exact h st hd

theorem Homed.indexed {R : Addr → Prop} {s : State} (h : Homed R s) (ht : Tied s) (a : Addr) (op : Op)
    (hop : ∀ w n, op = .delegate w n → R a) : Homed R (s.applyIndexed a op) :=
  (Homed.apply (s := s.removeIndex a) h (ht.of_eq rfl (fun _ => rfl)) a op hop).of_eq rfl

theorem Homed.perform {R : Addr → Prop} {w : World} (h : Homed R w.s) (ht : Tied w.s) (a : Addr) (op : Op) (who : Addr)
    (hop : ∀ w n, op = .delegate w n → R a) : Homed R (performOp w a op who).s :=
  (h.indexed ht a op hop).of_eq rfl

/-- the answers an action got about stakers are right -/
def Act.Homed (R : Addr → Prop) : Act → Prop
  | .delegate ex _ st _ => ex = true → R st
  | .redelegate ex _ m => ex = true → R m.dst
  | _ => True

theorem Homed.queueLoop {R : Addr → Prop} {w : World} (h : Homed R w.s) (hw : WInv w) (now fuel : Nat) :
    Homed R (queueLoop now fuel w).s := by
  induction fuel generalizing w with
  | zero => exact h
  | succ n ih =>
    show Homed R (match queueRound w now with | none => w | some w' => Delegation.queueLoop now n w').s
    cases hr : queueRound w now with
    | none => exact h
    | some w' =>
      refine ih ?_ (hw.queueRound hr)
      unfold queueRound at hr
      split at hr
      · split at hr
        · injection hr with hr; subst hr; exact h.of_eq rfl
        · cases hr
      · rename_i e he
        split at hr
        · injection hr with hr; subst hr
          exact (h.perform hw.tied e.staker (.undelegate e.delegator e.amount) e.delegator (fun _ _ x => by cases x)).of_eq rfl
        · cases hr

/-- **Delegation data belongs to stakers.** Whatever an action does, afterwards only stakers have delegation data that had
some before, or that the action was told to exist. -/
theorem Homed.step {R : Addr → Prop} {gov : Addr} {y : Sys} (h : Homed R y.w.s) (hy : Sys.Reachable gov y) {act : Act}
    (ha : act.Homed R) : Homed R (y.step gov act).w.s := by
  have hw := hy.winv
  have ht := hw.tied
  have orE : ∀ r : Except String World, (∀ w', r = .ok w' → Homed R w'.s) → Homed R (orElse y.w r).s := by
    intro r hr
    cases r with
    | error e => exact h
    | ok w' => exact hr w' rfl
  cases act with
  | delegate ex c st n =>
    refine orE _ (fun w' hw' => ?_)
    rw [delegateMsg_s hw']
    have hex : ex = true := by
      unfold delegateMsg at hw'
      split at hw'
      · cases hw'
      · rename_i he; simpa using he
    exact h.perform ht st (.delegate c n) c (fun _ _ _ => ha hex)
  | redelegate ex ac m =>
    refine orE _ (fun w' hw' => ?_)
    obtain ⟨s, -, hs, -, -, -, hex, -, hs', -⟩ := redelegateMsg_ok hw'
    rw [hs']
    have h0 : Homed R s := h.of_eq (by rw [hs])
    have ht0 : Tied s := ht.of_eq (by rw [hs]) (fun st => by rw [hs])
    have h1 : Homed R (performUndelegation ⟨s, y.w.b⟩ m.src m.creator m.amount).s :=
      Homed.perform (w := ⟨s, y.w.b⟩) h0 ht0 m.src (.undelegate m.creator m.amount) m.creator (fun _ _ x => by cases x)
    have ht1 : Tied (performUndelegation ⟨s, y.w.b⟩ m.src m.creator m.amount).s :=
      Tied.performOp (w := ⟨s, y.w.b⟩) ht0 m.src (op := .undelegate m.creator m.amount) rfl m.creator
    exact (h1.perform ht1 m.dst (.delegate m.creator m.amount) m.creator (fun _ _ _ => ha hex)).of_eq rfl
  | undelegate c st n =>
    refine orE _ (fun w' hw' => ?_)
    rw [(undelegateMsg_ok hw').1]
    exact h.of_eq rfl
  | withdraw c st =>
    refine orE _ (fun w' hw' => ?_)
    rw [withdrawMsg_s hw']
    exact h.apply ht st (.withdraw c) (fun _ _ x => by cases x)
  | updateParams a p =>
    refine orE _ (fun w' hw' => ?_)
    rw [(updateParams_s hw').1]
    exact h.of_eq rfl
  | payout st c =>
    refine orE _ (fun w' hw' => ?_)
    rcases payoutRewards_s hw' with e | e
    · rw [e]; exact h
    · rw [e]; exact h.apply ht st (.payout c) (fun _ _ x => by cases x)
  | slash st t =>
    show Homed R (slashDelegators y.w st t).s
    unfold slashDelegators
    split
    · exact h
    · exact (h.indexed ht st (.slash _) (fun _ _ x => by cases x)).of_eq rfl
  | beginBlock dt r =>
    show Homed R (Delegation.beginBlock y.w (y.now + dt) r).s
    unfold Delegation.beginBlock processQueue
    cases r with
    | false => exact Homed.queueLoop h hw _ _
    | true =>
      refine Homed.queueLoop (w := ⟨initMemStore y.w.s, y.w.b⟩) ?_ hw.initMem _ _
      refine h.of_eq ?_
      exact (f1_foldl_setIndex _ { y.w.s with index := ∅ }).1
  | external b g => exact h.of_eq rfl

end Verif.Delegation
