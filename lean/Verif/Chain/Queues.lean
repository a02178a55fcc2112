import Verif.Chain.Exits
import Verif.Delegation.Matured

/-!
# C08, C16, C17 for whole blocks of the chain

A new block pays exactly the requests to undelegate whose time has come, makes exactly the commission changes whose time has
come, and removes exactly the members whose announcement is old enough.
-/

set_option linter.dupNamespace false
namespace Verif.Chain
open Verif
open Chain
open Verif.Delegation (asked)

/-! ## specification -/

/-- the delegation in whole base units, as the query shows it -/
def Chain.whole (c : Chain) (st a : Addr) : Nat := c.owns st a / 10 ^ 18

/-- the waiting requests to undelegate that are at least as old as the unbonding time at time `t` -/
def Chain.matured (c : Chain) (t : Nat) : List Delegation.QEntry :=
  (c.del.queue.toList.map (·.2)).filter (fun e => decide (e.creation + c.del.params.unbonding ≤ t))

namespace Chain

/-! ## proofs -/

theorem afterSplit_ok (c n : Chain) (r : Bool) (o : Option Chain) (h : (c.afterSplit r o).crashed = false)
    (hx : ∀ x, o = some x → ∃ b hl, x = { n with b := b, halted := hl } ∧ Micro.Kept n.b b) :
    ∃ b, Micro.Kept n.b b ∧ (c.afterSplit r o).st = Stakers.beginBlock n.st n.now ∧
      (c.afterSplit r o).del = (Delegation.beginBlock ⟨n.del, b⟩ n.now r).s ∧
      (c.afterSplit r o).b = (Delegation.beginBlock ⟨n.del, b⟩ n.now r).b := by
  cases o with
  | none => cases h
  | some x =>
    obtain ⟨b, hl, rfl, hk⟩ := hx x rfl
    exact ⟨b, hk, rfl, rfl, rfl⟩

theorem step_of_exec {gov : Addr} {c c' : Chain} {op : Op} (hc : c.crashed = false) (h : exec gov c op = .ok c') :
    c.step gov op = c' := by
  unfold step
  rw [hc, if_neg (by decide), h]
  rfl

theorem step_crashed {gov : Addr} {c : Chain} {op : Op} (hc : c.crashed = true) : c.step gov op = c := by
  unfold step
  rw [if_pos hc]

/-- a new block that did not crash the chain -/
theorem newBlock_ok {gov : Addr} {c : Chain} {dt pr te : Nat} {r : Bool}
    (h : (c.step gov (.beginBlock dt pr te r)).crashed = false) :
    ∃ b, Micro.Kept c.b b ∧
      (c.step gov (.beginBlock dt pr te r)).st = Stakers.beginBlock c.st (c.now + dt) ∧
      (c.step gov (.beginBlock dt pr te r)).del = (Delegation.beginBlock ⟨c.del, b⟩ (c.now + dt) r).s ∧
      (c.step gov (.beginBlock dt pr te r)).b = (Delegation.beginBlock ⟨c.del, b⟩ (c.now + dt) r).b := by
  cases hc : c.crashed with
  | true => rw [step_crashed hc, hc] at h; cases h
  | false =>
    have e : c.step gov (.beginBlock dt pr te r) = c.afterSplit r ((c.newBlock dt r).splitInflation pr te) :=
      step_of_exec hc rfl
    rw [e] at h ⊢
    exact afterSplit_ok c (c.newBlock dt r) r _ h fun x hx => splitInflation_eq hx

theorem whole_eq (c : Chain) (st a : Addr) : c.whole st a = Delegation.curDel (c.del.at st) a :=
  (Delegation.curDel_eq _ _).symm

theorem filter_map_snd {α β : Type} (l : List (α × β)) (p : β → Bool) :
    (l.filter (fun x => p x.2)).map (·.2) = (l.map (·.2)).filter p := by
  induction l with
  | nil => rfl
  | cons x l ih =>
    rw [List.filter_cons, List.map_cons, List.filter_cons]
    split <;> simp [ih]

end Chain

/-- C08: a new block takes exactly the matured requests from the queue. Every delegation shrinks by exactly what was asked
for, or to nothing; every user gets exactly what its delegations lost, together with the rewards of the delegations a
matured request was for (`T` is any list of stakers that contains those). -/
theorem Chain.C08_block (gov : Addr) (c : Chain) (h : Reachable gov c) (dt pr te : Nat) (r : Bool) (c' : Chain)
    (hc : c' = c.step gov (.beginBlock dt pr te r)) (hok : c'.crashed = false) (hh : c'.del.halted = false)
    (ho : c.now + dt + c.del.params.unbonding < 2 ^ 64) :
    c'.del.queue.toList.map (·.2) =
      (c.del.queue.toList.map (·.2)).filter (fun e => decide (c.now + dt < e.creation + c.del.params.unbonding)) ∧
    (∀ st a, c'.whole st a = c.whole st a - asked (c.matured (c.now + dt)) st a) ∧
    (∀ st a d, (∃ e ∈ c.matured (c.now + dt), e.staker = st ∧ e.delegator = a) → c'.earned st a d = 0) ∧
    (∀ st a d, (¬ ∃ e ∈ c.matured (c.now + dt), e.staker = st ∧ e.delegator = a) → c'.earned st a d = c.earned st a d) ∧
    ∀ a d (T : List Addr), T.Nodup → (∀ e ∈ c.matured (c.now + dt), e.delegator = a → e.staker ∈ T) →
      (c'.b (.user a)).amt d = (c.b (.user a)).amt d +
        (T.map (fun st => (if d = kyve then c.whole st a - c'.whole st a else 0) +
          (c.earned st a d - c'.earned st a d))).sum := by
  subst hc
  obtain ⟨b, hk, -, e2, e3⟩ := newBlock_ok hok
  have hm := (Reachable.good h).mods.del
  have hq : Delegation.QInv' c.del (c.now + dt) := hm.qinv.of_eq (Nat.le_add_right _ _) rfl rfl rfl rfl rfl
  have hw : Delegation.WInv ⟨c.del, b⟩ := hm.winv.of_eq rfl (fun _ => rfl) rfl rfl rfl hk.del
  rw [e2] at hh
  obtain ⟨hs, hl⟩ := Delegation.settled_block (w := ⟨c.del, b⟩) hq hw r ho hh
  generalize hc' : c.step gov (.beginBlock dt pr te r) = c' at *
  rw [← e2] at hl
  have hmat : c.matured (c.now + dt) = (c.del.queue.toList.filter
      (fun p => decide (p.2.creation + c.del.params.unbonding ≤ c.now + dt))).map (·.2) :=
    (filter_map_snd _ (fun e : Delegation.QEntry => decide (e.creation + c.del.params.unbonding ≤ c.now + dt))).symm
  rw [hmat]
  have hat : ∀ st, c'.del.at st = (Delegation.beginBlock ⟨c.del, b⟩ (c.now + dt) r).s.at st := fun st => by rw [e2]
  refine ⟨?_, fun st a => ?_, fun st a d he => ?_, fun st a d he => ?_, fun a d T hT hT2 => ?_⟩
  · rw [hl]
    exact filter_map_snd _ (fun e : Delegation.QEntry => decide (c.now + dt < e.creation + c.del.params.unbonding))
  · rw [whole_eq, whole_eq, hat]
    exact hs.cur st a
  · unfold earned
    rw [hat]
    exact hs.paid st a d he
  · unfold earned
    rw [hat]
    exact hs.same st a d he
  · have := hs.user a d T hT hT2
    rw [← e3] at this
    rw [this]
    have e4 : (⟨c.del, b⟩ : Delegation.World).b (.user a) = c.b (.user a) := hk.user a
    rw [e4]
    congr 3
    funext st
    unfold Delegation.got earned
    rw [whole_eq, whole_eq, hat]

/-- C16: a new block makes exactly the commission changes whose time has come. -/
theorem Chain.C16_block (gov : Addr) (c : Chain) (h : Reachable gov c) (dt pr te : Nat) (r : Bool) (c' : Chain)
    (hc : c' = c.step gov (.beginBlock dt pr te r)) (hok : c'.crashed = false)
    (ho : c.now + dt + c.st.params.commissionChangeTime < 2 ^ 63) (st : Addr) :
    (∀ k t, c.st.pending st = some (k, t) → t + c.st.params.commissionChangeTime ≤ c.now + dt →
      c'.st.rate st = some k ∧ c'.st.pending st = none) ∧
    ((∀ k t, c.st.pending st = some (k, t) → c.now + dt < t + c.st.params.commissionChangeTime) →
      c'.st.rate st = c.st.rate st ∧ c'.st.pending st = c.st.pending st) := by
  subst hc
  obtain ⟨b, -, e, -⟩ := newBlock_ok hok
  have := Stakers.C16_block gov ⟨c.sw, c.now⟩ (Reachable.good h).mods.st dt ho st
  rw [e]
  exact this

/-- C17: a new block removes exactly the members whose announcement is as old as the leave time. -/
theorem Chain.C17_block (gov : Addr) (c : Chain) (h : Reachable gov c) (dt pr te : Nat) (r : Bool) (c' : Chain)
    (hc : c' = c.step gov (.beginBlock dt pr te r)) (hok : c'.crashed = false)
    (ho : c.now + dt + c.st.params.leavePoolTime < 2 ^ 63) (id : Nat) (st : Addr) :
    (∀ t, c.st.announcement st id = some t → t + c.st.params.leavePoolTime ≤ c.now + dt →
      c'.member id st = false ∧ c'.st.announcement st id = none) ∧
    ((∀ t, c.st.announcement st id = some t → c.now + dt < t + c.st.params.leavePoolTime) →
      c'.member id st = c.member id st ∧ c'.st.announcement st id = c.st.announcement st id) := by
  subst hc
  obtain ⟨b, -, e, -⟩ := newBlock_ok hok
  obtain ⟨h1, h2⟩ := Stakers.C17_block gov ⟨c.sw, c.now⟩ (Reachable.good h).mods.st dt ho id st
  unfold member
  rw [e]
  refine ⟨fun t ha ht => ?_, fun ha => ?_⟩
  · obtain ⟨h3, h4⟩ := h1 t ha ht
    exact ⟨(Stakers.has_false_iff _ _).2 h3, h4⟩
  · obtain ⟨h3, h4⟩ := h2 ha
    refine ⟨?_, h4⟩
    show Option.isSome _ = Option.isSome _
    exact congrArg _ h3

/-- staker 1 asks twice, for 120 of its 100; both requests mature in the same block and it gets 100 back -/
example : let c := Sample.run Sample.later [.undelegate 1 1 30, .undelegate 1 1 90]
    let c' := c.step Sample.gov (.beginBlock 2000000 0 0 false)
    c'.crashed = false ∧ c'.del.halted = false ∧ c.whole 1 1 = 100 ∧ c'.whole 1 1 = 0 ∧
      (c.matured (c.now + 2000000)).length = 2 ∧ (c'.b (.user 1)).amt kyve = (c.b (.user 1)).amt kyve + 100 := by
  decide +kernel

example : Reachable Sample.gov (Sample.run Sample.later [.undelegate 1 1 30, .undelegate 1 1 90]) :=
  Sample.run_reachable Sample.reach_later _ (by decide +kernel)

/-- staker 1 orders a new commission and announces to leave; before the time nothing happens, then both -/
example : let c := Sample.run Sample.later [.updateCommission 1 7, .leave 1 0]
    let early := c.step Sample.gov (.beginBlock 1 0 0 false)
    let late := c.step Sample.gov (.beginBlock 2000000 0 0 false)
    early.crashed = false ∧ late.crashed = false ∧ c.st.pending 1 = some (7, c.now) ∧ c.st.announcement 1 0 = some c.now ∧
      early.st.rate 1 = c.st.rate 1 ∧ early.member 0 1 = true ∧ late.st.rate 1 = some 7 ∧ late.member 0 1 = false := by
  decide +kernel

end Verif.Chain
