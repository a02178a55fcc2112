import Verif.Chain.Model

/-!
# What the next state depends on

The functions of the modules do not read the memory stores (the ranking of the stakers, the index of the bundles) nor the
history variables of this model.  `er` erases them; every function gives the same answer on the erased state.
Vote lists are brought into a normal form `k`, see `Verif/Chain/Alike.lean`.
-/

set_option linter.dupNamespace false

namespace Verif.Delegation
open Verif

/-- without ranking and history -/
def State.er (s : State) : State := { s with index := ∅, trace := [] }
/-- without ranking and history -/
def World.er (w : World) : World := ⟨w.s.er, w.b⟩

theorem er_performOp (w : World) (st : Addr) (op : Op) (who : Addr) :
    (performOp w.er st op who).er = (performOp w st op who).er := rfl

theorem er_delegateMsg (w : World) (ex : Bool) (c st : Addr) (n : Nat) :
    (delegateMsg w.er ex c st n).map World.er = (delegateMsg w ex c st n).map World.er := by
  unfold delegateMsg
  rw [show (performDelegation w.er st c n).b = (performDelegation w st c n).b from rfl]
  split
  · rfl
  · split <;> rfl

theorem er_cleanSpells (s : State) (now : Nat) (who : Addr) : (cleanSpells s.er now who) = (cleanSpells s now who).er := rfl

theorem er_takeSpell (s : State) (now : Nat) (who : Addr) :
    takeSpell s.er now who = (takeSpell s now who).map State.er := by
  unfold takeSpell
  rw [show s.er.params = s.params from rfl, show s.er.spellsOf who = s.spellsOf who from rfl]
  split
  · rfl
  · split <;> rfl

theorem er_finishRedelegate (w : World) (now : Nat) (m : RedelegateMsg) :
    (finishRedelegate w.er now m).map World.er = (finishRedelegate w now m).map World.er := by
  have h1 := er_performOp w m.src (.undelegate m.creator m.amount) m.creator
  have h2 : (performDelegation (performUndelegation w.er m.src m.creator m.amount) m.dst m.creator m.amount).er
      = (performDelegation (performUndelegation w m.src m.creator m.amount) m.dst m.creator m.amount).er := by
    unfold performDelegation performUndelegation
    rw [← er_performOp (performOp w.er m.src _ m.creator), h1, er_performOp]
  unfold finishRedelegate
  rw [show w.er.s.at m.src = w.s.at m.src from rfl]
  generalize performDelegation (performUndelegation w.er m.src m.creator m.amount) m.dst m.creator m.amount = x at h2 ⊢
  generalize performDelegation (performUndelegation w m.src m.creator m.amount) m.dst m.creator m.amount = y at h2 ⊢
  split
  · rfl
  · exact congrArg Except.ok h2

theorem er_redelegateMsg (w : World) (now : Nat) (ex ac : Bool) (m : RedelegateMsg) :
    (redelegateMsg w.er now ex ac m).map World.er = (redelegateMsg w now ex ac m).map World.er := by
  unfold redelegateMsg consumeSpell
  rw [show w.er.s.at m.src = w.s.at m.src from rfl, show cleanSpells w.er.s now m.creator = (cleanSpells w.s now m.creator).er from rfl,
    er_takeSpell]
  split
  · rfl
  split
  · rfl
  split
  · rfl
  split
  · rfl
  cases takeSpell (cleanSpells w.s now m.creator) now m.creator with
  | error e => rfl
  | ok s => exact er_finishRedelegate ⟨s, w.b⟩ now m

theorem er_undelegateMsg (w : World) (now : Nat) (c st : Addr) (n : Nat) :
    (undelegateMsg w.er now c st n).map World.er = (undelegateMsg w now c st n).map World.er := by
  unfold undelegateMsg
  rw [show w.er.s.at st = w.s.at st from rfl]
  split <;> rfl

theorem er_withdrawMsg (w : World) (c st : Addr) :
    (withdrawMsg w.er c st).map World.er = (withdrawMsg w c st).map World.er := by
  unfold withdrawMsg
  rw [show w.er.s.at st = w.s.at st from rfl, show rewardTransfer w.er st (.withdraw c) c = rewardTransfer w st (.withdraw c) c from rfl]
  split
  · rfl
  · split <;> rfl

theorem er_updateParams (gov : Addr) (w : World) (a : Addr) (y : ParamsPayload) :
    (updateParams gov w.er a y).map World.er = (updateParams gov w a y).map World.er := by
  unfold updateParams
  split
  · rfl
  · split <;> rfl

theorem er_payoutRewards (w : World) (p : Mod) (st : Addr) (c : Coins) :
    (payoutRewards w.er p st c).map World.er = (payoutRewards w p st c).map World.er := by
  unfold payoutRewards
  rw [show w.er.s.at st = w.s.at st from rfl, show w.er.b = w.b from rfl]
  split
  · rfl
  split
  · rfl
  · split <;> rfl

theorem er_slashDelegators (w : World) (st : Addr) (t : SlashType) :
    (slashDelegators w.er st t).er = (slashDelegators w st t).er := by
  unfold slashDelegators
  rw [show w.er.s.at st = w.s.at st from rfl]
  split <;> rfl

theorem er_payEntry (w : World) (now i : Nat) (e : QEntry) : (payEntry w.er now i e).er = (payEntry w now i e).er := rfl

theorem er_queueRound (w : World) (now : Nat) : (queueRound w.er now).map World.er = (queueRound w now).map World.er := by
  unfold queueRound
  rw [show w.er.s.queue = w.s.queue from rfl, show w.er.s.low = w.s.low from rfl, show w.er.s.high = w.s.high from rfl,
    show w.er.s.params = w.s.params from rfl]
  split
  · split <;> rfl
  · split <;> rfl

theorem er_queueLoop (now : Nat) : ∀ (n : Nat) (w w' : World), w.er = w'.er →
    (queueLoop now n w).er = (queueLoop now n w').er
  | 0, _, _, h => h
  | n + 1, w, w', h => by
    have h1 : (queueRound w now).map World.er = (queueRound w' now).map World.er := by
      rw [← er_queueRound w, ← er_queueRound w', h]
    unfold queueLoop
    cases e1 : queueRound w now with
    | none => cases e2 : queueRound w' now with
      | none => exact h
      | some y => rw [e1, e2] at h1; cases h1
    | some x => cases e2 : queueRound w' now with
      | none => rw [e1, e2] at h1; cases h1
      | some y =>
        rw [e1, e2] at h1
        exact er_queueLoop now n x y (by simpa using h1)

theorem er_setIndexes (l : List Addr) : ∀ s : State, (l.foldl State.setIndex s).er = s.er := by
  induction l with
  | nil => intro s; rfl
  | cons a l ih => intro s; rw [List.foldl_cons, ih]; rfl

theorem er_beginBlock (w w' : World) (now : Nat) (r r' : Bool) (h : w.er = w'.er) :
    (beginBlock w now r).er = (beginBlock w' now r').er := by
  have key : ∀ (w : World) (r : Bool), (if r then (⟨initMemStore w.s, w.b⟩ : World) else w).er = w.er := by
    intro w r
    cases r with
    | false => rfl
    | true =>
      show (⟨(initMemStore w.s).er, w.b⟩ : World) = _
      unfold initMemStore
      rw [er_setIndexes]; rfl
  unfold beginBlock processQueue
  generalize hx : (if r then (⟨initMemStore w.s, w.b⟩ : World) else w) = x
  generalize hy : (if r' then (⟨initMemStore w'.s, w'.b⟩ : World) else w') = y
  have e : x.er = y.er := by rw [← hx, ← hy, key, key, h]
  have e1 : x.s.high = y.s.high := (congrArg (fun w : World => w.s.high) e :)
  have e2 : x.s.low = y.s.low := (congrArg (fun w : World => w.s.low) e :)
  have e3 : x.s.queue = y.s.queue := (congrArg (fun w : World => w.s.queue) e :)
  rw [e1, e2, e3]
  exact er_queueLoop now _ _ _ e

end Verif.Delegation

namespace Verif.Stakers
open Verif

/-- without history -/
def State.er (s : State) : State := { s with trace := [] }
/-- without history -/
def World.er (w : World) : World := ⟨w.s.er, w.b⟩

theorem er_removeVal (s : State) (p : Nat) (a : Addr) : s.er.removeVal p a = (s.removeVal p a).er := by
  unfold State.removeVal
  rw [show s.er.vals = s.vals from rfl]
  split <;> rfl

theorem er_kick (s : State) (now p : Nat) (a : Addr) : (s.er.kick now p a).er = (s.kick now p a).er := by
  unfold State.kick
  rw [show s.er.vals = s.vals from rfl, er_removeVal]
  split <;> rfl

theorem er_resetPoints (s : State) (p : Nat) (a : Addr) : s.er.resetPoints p a = (s.resetPoints p a).er := by
  unfold State.resetPoints
  rw [show s.er.vals = s.vals from rfl]
  split <;> rfl

theorem er_incrementPoints (s : State) (p : Nat) (a : Addr) :
    s.er.incrementPoints p a = ((s.incrementPoints p a).1.er, (s.incrementPoints p a).2) := by
  unfold State.incrementPoints
  rw [show s.er.vals = s.vals from rfl]
  split <;> rfl

theorem er_createStaker (s : State) (a : Addr) (k : Dec) (d : Bool) :
    createStaker s.er a k d = (createStaker s a k d).map State.er := by
  unfold createStaker
  rw [show s.er.stakers = s.stakers from rfl]
  split
  · rfl
  split
  · rfl
  · split <;> rfl

theorem er_leavePool (s : State) (now p : Nat) (a : Addr) :
    (leavePool s.er now p a).map State.er = (leavePool s now p a).map State.er := by
  unfold leavePool
  rw [show s.er.vals = s.vals from rfl]
  split
  · rfl
  · unfold State.orderLeave
    show Except.map _ (if s.leaveIdx.has (a, p) = true then _ else _) = Except.map _ (if s.leaveIdx.has (a, p) = true then _ else _)
    split <;> rfl

theorem er_updateCommission (s : State) (now : Nat) (a : Addr) (k : Dec) :
    (updateCommission s.er now a k).map State.er = (updateCommission s now a k).map State.er := by
  unfold updateCommission
  rw [show s.er.stakers = s.stakers from rfl]
  split
  · rfl
  · split <;> rfl

theorem er_updateMetadata (s : State) (a : Addr) (i : Nat) (v : Bool) :
    updateMetadata s.er a i v = (updateMetadata s a i v).map State.er := by
  unfold updateMetadata
  rw [show s.er.stakers = s.stakers from rfl]
  split
  · rfl
  · split <;> rfl

theorem er_claimRewards (w : World) (a : Addr) (x : Coins) :
    claimRewards w.er a x = (claimRewards w a x).map World.er := by
  unfold claimRewards
  rw [show w.er.s.stakers = w.s.stakers from rfl, show w.er.b = w.b from rfl]
  split
  · rfl
  split
  · rfl
  split
  · rfl
  · split <;> rfl

theorem er_increaseRewards (w : World) (p : Mod) (a : Addr) (x : Coins) :
    increaseRewards w.er p a x = (increaseRewards w p a x).map World.er := by
  unfold increaseRewards
  rw [show w.er.s.stakers = w.s.stakers from rfl, show w.er.b = w.b from rfl]
  split
  · rfl
  split
  · rfl
  · split <;> rfl

theorem er_updateParams (gov : Addr) (s : State) (a : Addr) (y : ParamsPayload) :
    updateParams gov s.er a y = (updateParams gov s a y).map State.er := by
  unfold updateParams
  split
  · rfl
  · split <;> rfl

theorem er_ensureFreeSlot (s : State) (amt : Addr → Nat) (now p : Nat) (a : Addr) :
    (s.er.ensureFreeSlot amt now p a).map State.er = (s.ensureFreeSlot amt now p a).map State.er := by
  unfold State.ensureFreeSlot
  rw [show s.er.count p = s.count p from rfl, show s.er.lowest amt p = s.lowest amt p from rfl]
  split
  · rfl
  split
  · split <;> rfl
  · rename_i low _
    split
    · exact congrArg Except.ok (er_kick s now p low)
    · rfl

theorem er_finishJoin (s : State) (b : Bank) (now : Nat) (m : JoinMsg) :
    (finishJoin s.er b now m).map World.er = (finishJoin s b now m).map World.er := by
  unfold finishJoin
  rw [show s.er.valsOf m.creator = s.valsOf m.creator from rfl, show s.er.stakersOf m.pool = s.stakersOf m.pool from rfl,
    show s.er.vals = s.vals from rfl]
  split
  · rfl
  split
  · rfl
  split
  · rfl
  · unfold State.addVal
    rw [show s.er.vals = s.vals from rfl, show s.er.stakers = s.stakers from rfl]
    by_cases h1 : (!s.stakers.has m.creator) = true
    · rw [if_pos h1, if_pos h1]; rfl
    · rw [if_neg h1, if_neg h1]
      by_cases h2 : s.vals.has (m.pool, m.creator) = true
      · rw [if_pos h2, if_pos h2]; rfl
      · rw [if_neg h2, if_neg h2]; rfl

theorem er_joinPool (w : World) (now : Nat) (ans : PoolAnswer) (amt : Addr → Nat) (m : JoinMsg) :
    (joinPool w.er now ans amt m).map World.er = (joinPool w now ans amt m).map World.er := by
  unfold joinPool
  rw [show w.er.s.stakers = w.s.stakers from rfl, show w.er.s.vals = w.s.vals from rfl, show w.er.b = w.b from rfl]
  split
  · rfl
  split
  · rfl
  split
  · rfl
  split
  · rfl
  split
  · rfl
  have h := er_ensureFreeSlot w.s amt now m.pool m.creator
  rw [show w.er.s = w.s.er from rfl]
  cases e1 : w.s.er.ensureFreeSlot amt now m.pool m.creator with
  | error e => cases e2 : w.s.ensureFreeSlot amt now m.pool m.creator with
    | error e' => rw [e1, e2] at h; cases h; rfl
    | ok y => rw [e1, e2] at h; cases h
  | ok x => cases e2 : w.s.ensureFreeSlot amt now m.pool m.creator with
    | error e' => rw [e1, e2] at h; cases h
    | ok y =>
      rw [e1, e2] at h
      have h : x.er = y.er := by simpa [Except.map] using h
      show (finishJoin x w.b now m).map World.er = (finishJoin y w.b now m).map World.er
      rw [← er_finishJoin x, ← er_finishJoin y, h]

theorem er_noteGift (m : JoinMsg) (w w' : World) : (noteGift m w.er w'.er) = (noteGift m w w').er := by
  unfold noteGift
  split <;> rfl

theorem er_changeRound (s : State) (now : Nat) :
    ((changeRound s.er now).1.er, (changeRound s.er now).2) = ((changeRound s now).1.er, (changeRound s now).2) := by
  unfold changeRound
  rw [show s.er.changes = s.changes from rfl, show s.er.cLow = s.cLow from rfl, show s.er.cHigh = s.cHigh from rfl,
    show s.er.params = s.params from rfl]
  split
  · split <;> rfl
  · split
    · split <;> rfl
    · rfl

theorem er_changeLoop (now : Nat) : ∀ (n : Nat) (s s' : State), s.er = s'.er →
    (changeLoop now n s).er = (changeLoop now n s').er
  | 0, _, _, h => h
  | n + 1, s, s', h => by
    have h1 := er_changeRound s now
    rw [h, er_changeRound s' now] at h1
    simp only [Prod.mk.injEq] at h1
    unfold changeLoop
    rw [h1.2]
    split
    · exact er_changeLoop now n _ _ h1.1.symm
    · exact h1.1.symm

theorem er_applyLeave (s : State) (now i : Nat) (e : Leave) : (s.er.applyLeave now i e).er = (s.applyLeave now i e).er := by
  unfold State.applyLeave
  rw [er_removeVal]; rfl

theorem er_leaveRound (s : State) (now : Nat) :
    ((leaveRound s.er now).1.er, (leaveRound s.er now).2) = ((leaveRound s now).1.er, (leaveRound s now).2) := by
  unfold leaveRound
  rw [show s.er.leaves = s.leaves from rfl, show s.er.lLow = s.lLow from rfl, show s.er.lHigh = s.lHigh from rfl,
    show s.er.params = s.params from rfl]
  split
  · split <;> rfl
  · rename_i e _
    have h := er_applyLeave s now (s.lLow + 1) e
    split
    · split
      · refine Prod.ext ?_ rfl
        exact congrArg (fun t : State => { t with lLow := s.lLow + 1 }) h
      · exact Prod.ext h rfl
    · rfl

theorem er_leaveLoop (now : Nat) : ∀ (n : Nat) (s s' : State), s.er = s'.er →
    (leaveLoop now n s).er = (leaveLoop now n s').er
  | 0, _, _, h => h
  | n + 1, s, s', h => by
    have h1 := er_leaveRound s now
    rw [h, er_leaveRound s' now] at h1
    simp only [Prod.mk.injEq] at h1
    unfold leaveLoop
    rw [h1.2]
    split
    · exact er_leaveLoop now n _ _ h1.1.symm
    · exact h1.1.symm

theorem er_beginBlock (s s' : State) (now : Nat) (h : s.er = s'.er) : (beginBlock s now).er = (beginBlock s' now).er := by
  unfold beginBlock processLeaves processChanges
  have h1 : s.cHigh = s'.cHigh := (congrArg State.cHigh h :)
  have h2 : s.cLow = s'.cLow := (congrArg State.cLow h :)
  have h3 := er_changeLoop now (s'.cHigh - s'.cLow + 1) s s' h
  rw [h1, h2]
  generalize changeLoop now (s'.cHigh - s'.cLow + 1) s = x at h3 ⊢
  generalize changeLoop now (s'.cHigh - s'.cLow + 1) s' = y at h3 ⊢
  have h4 : x.lHigh = y.lHigh := (congrArg State.lHigh h3 :)
  have h5 : x.lLow = y.lLow := (congrArg State.lLow h3 :)
  rw [h4, h5]
  exact er_leaveLoop now _ _ _ h3

end Verif.Stakers
