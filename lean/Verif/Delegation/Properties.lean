import Verif.Delegation.Spells

/-!
# Properties of x/delegation (C07 - C09, C11, C12 and the module-level versions of C01 - C06)

The histories are `Sys.Reachable` (Spec.lean): any valid initial parameters, any sequence of messages, payouts and
slashes by x/bundles, parameter changes, blocks and restarts, with anything happening to all other accounts.
-/

namespace Verif.Delegation
open Verif

/-! ## What an operation does to delegations -/

theorem at_stake {s : State} (h : Tied s) (a : Addr) {op : Op} (hm : op.mild = true) (st who : Addr) :
    curDel ((s.applyIndexed a op).at st) who
      = if st = a then Dec.trunc (((ledgerOf s.trace a).ideal.step op).stake who) else curDel (s.at st) who := by
  have h' := h.mildIndexed a hm
  rw [h'.stake]
  show Dec.trunc ((ledgerOf (.f1 a op :: s.trace) st).ideal.stake who) = _
  rw [ledgerOf_f1]
  by_cases e : st = a
  · subst e; rw [if_pos rfl, if_pos rfl]; rfl
  · rw [if_neg e, if_neg (fun e' => e e'.symm), ← h.stake]

theorem curDel_delegate {s : State} (h : Tied s) (a c : Addr) (n : Nat) (st who : Addr) :
    curDel ((s.applyIndexed a (.delegate c n)).at st) who
      = curDel (s.at st) who + (if st = a ∧ who = c then n else 0) := by
  rw [at_stake h a rfl]
  by_cases e : st = a
  · subst e
    rw [if_pos rfl, h.stake]
    by_cases e' : who = c
    · subst e'
      rw [if_pos ⟨rfl, rfl⟩]
      show Dec.trunc (if who = who then Dec.ofNat _ else _) = _
      rw [if_pos rfl, Dec.trunc_ofNat]
    · rw [if_neg (fun h => e' h.2)]
      show Dec.trunc (if who = c then Dec.ofNat _ else _) = _
      rw [if_neg e', Nat.add_zero]
  · rw [if_neg e, if_neg (fun h => e h.1), Nat.add_zero]

theorem curDel_undelegate {s : State} (h : Tied s) (a c : Addr) (n : Nat) (st who : Addr) :
    curDel ((s.applyIndexed a (.undelegate c n)).at st) who
      = curDel (s.at st) who - (if st = a ∧ who = c then n else 0) := by
  rw [at_stake h a rfl]
  by_cases e : st = a
  · subst e
    rw [if_pos rfl, h.stake]
    by_cases e' : who = c
    · subst e'
      rw [if_pos ⟨rfl, rfl⟩]
      show Dec.trunc (if who = who then Dec.ofNat _ else _) = _
      rw [if_pos rfl, Dec.trunc_ofNat]
    · rw [if_neg (fun h => e' h.2)]
      show Dec.trunc (if who = c then Dec.ofNat _ else _) = _
      rw [if_neg e', Nat.sub_zero]
  · rw [if_neg e, if_neg (fun h => e h.1), Nat.sub_zero]

theorem amount_delegate {s : State} (h : Tied s) (a c : Addr) (n : Nat) (st : Addr) :
    (s.applyIndexed a (.delegate c n)).amount st = s.amount st + (if st = a then n else 0) := by
  rw [amount_applyIndexed h a _ (fun q e => by cases e) (by rw [dust_mild _ rfl]; exact h.calm a)]
  split
  · rename_i e; subst e; rfl
  · rfl

theorem amount_undelegate {s : State} (h : Tied s) (a c : Addr) (n : Nat) (st : Addr) :
    (s.applyIndexed a (.undelegate c n)).amount st
      = s.amount st - (if st = a then min n (curDel (s.at a) c) else 0) := by
  rw [amount_applyIndexed h a _ (fun q e => by cases e) (by rw [dust_mild _ rfl]; exact h.calm a)]
  split
  · rename_i e; subst e
    show _ - undelegated _ _ _ = _
    rw [undelegated_eq (h.f1inv st)]
  · rfl

/-- The bank side of an F1 operation that did not halt the chain: the acting delegator receives its rewards from the
module account and nothing else moves. -/
theorem performOp_bank {w : World} {st : Addr} {op : Op} {who : Addr} (h : (performOp w st op who).s.halted = false)
    (a : Acct) (d : Denom) :
    ((performOp w st op who).b a).amt d + (if a = .mod .delegation then (f1Reward (w.s.at st) op).amt d else 0)
      = (w.b a).amt d + (if a = .user who then (f1Reward (w.s.at st) op).amt d else 0) := by
  obtain ⟨_, b, hb, e⟩ := performOp_halted h
  rw [e]
  have hs := Bank.send_ok hb
  have h1 := hs.1 d
  have h2 := hs.2 a d
  by_cases ha : a = .mod .delegation
  · subst ha
    simp only [if_true, reduceCtorEq, if_false] at *
    omega
  · simp only [ha, if_false] at *
    by_cases hu : a = .user who
    · simp only [hu, if_true] at *; omega
    · simp only [hu, if_false] at *; omega

/-! ## C07 -/

/-- **C07.** A successful delegation of `n` raises the delegator's delegation with the staker and the staker's total by
exactly `n`, touches no other delegation, and moves exactly `n` of the native coin from the delegator to the module;
the only other transfer is the delegator's pending reward. -/
theorem C07_delegate {gov : Addr} {y : Sys} (hr : Sys.Reachable gov y) {ex : Bool} {c st : Addr} {n : Nat} {w' : World}
    (hok : delegateMsg y.w ex c st n = .ok w') :
    ex = true ∧
    (∀ st' c', curDel (w'.s.at st') c' = curDel (y.w.s.at st') c' + (if st' = st ∧ c' = c then n else 0)) ∧
    (∀ st', w'.s.amount st' = y.w.s.amount st' + (if st' = st then n else 0)) ∧
    (w'.s.halted = false → ∀ d,
      (w'.b (.mod .delegation)).amt d + (withdraw (y.w.s.at st) c).2.amt d
        = (y.w.b (.mod .delegation)).amt d + (if d = kyve then n else 0) ∧
      (w'.b (.user c)).amt d + (if d = kyve then n else 0)
        = (y.w.b (.user c)).amt d + (withdraw (y.w.s.at st) c).2.amt d ∧
      ∀ a, a ≠ .mod .delegation → a ≠ .user c → (w'.b a).amt d = (y.w.b a).amt d) := by
  have h := hr.winv
  have hs := delegateMsg_s hok
  unfold delegateMsg at hok
  split at hok
  · cases hok
  · rename_i hex
    split at hok
    · cases hok
    · rename_i b hb
      injection hok with hok
      refine ⟨by simpa using hex, ?_, ?_, ?_⟩
      · intro st' c'; rw [hs]; exact curDel_delegate h.tied st c n st' c'
      · intro st'; rw [hs]; exact amount_delegate h.tied st c n st'
      · intro hh d
        rw [hs] at hh
        have hrw : f1Reward (y.w.s.at st) (.delegate c n) = (withdraw (y.w.s.at st) c).2 := delegate_snd _ _ _
        have hp := fun a => performOp_bank (w := y.w) (st := st) (op := .delegate c n) (who := c) hh a d
        rw [hrw] at hp
        unfold transferUser at hb
        split at hb
        · have hsd := Bank.send_ok hb
          have e : w'.b = b := by rw [← hok]
          rw [e]
          have hle := hsd.1 d
          have hsd := fun a => hsd.2 a d
          rw [amt_single_kyve] at hle
          simp only [amt_single_kyve] at hsd
          refine ⟨?_, ?_, ?_⟩
          · have h1 := hp (.mod .delegation)
            have h2 := hsd (.mod .delegation)
            simp only [if_true, reduceCtorEq, if_false] at h1 h2
            unfold performDelegation at h2
            omega
          · have h1 := hp (.user c)
            have h2 := hsd (.user c)
            simp only [if_true, reduceCtorEq, if_false] at h1 h2
            unfold performDelegation at h2 hle
            omega
          · intro a ha hu
            have h1 := hp a
            have h2 := hsd a
            simp only [ha, hu, if_false] at h1 h2
            unfold performDelegation at h2
            omega
        · cases hb

/-- **C07.** A successful redelegation of `n` lowers the delegation with the source by exactly `n` (which the delegator
had) and raises the one with the destination by `n`; no other delegation changes, and no coin moves except the
delegator's pending rewards. -/
theorem C07_redelegate {gov : Addr} {y : Sys} (hr : Sys.Reachable gov y) {ex ac : Bool} {m : RedelegateMsg} {w' : World}
    (hok : redelegateMsg y.w y.now ex ac m = .ok w') :
    m.amount ≤ curDel (y.w.s.at m.src) m.creator ∧ ex = true ∧ ac = true ∧
    (∀ st c, curDel (w'.s.at st) c = curDel (y.w.s.at st) c - (if st = m.src ∧ c = m.creator then m.amount else 0)
      + (if st = m.dst ∧ c = m.creator then m.amount else 0)) ∧
    (∀ st, w'.s.amount st = y.w.s.amount st - (if st = m.src then m.amount else 0)
      + (if st = m.dst then m.amount else 0)) ∧
    (w'.s.halted = false → ∃ reward : Coins,
      (m.src ≠ m.dst → reward = (withdraw (y.w.s.at m.src) m.creator).2.add (withdraw (y.w.s.at m.dst) m.creator).2) ∧
      ∀ d, (w'.b (.mod .delegation)).amt d + reward.amt d = (y.w.b (.mod .delegation)).amt d ∧
        (w'.b (.user m.creator)).amt d = (y.w.b (.user m.creator)).amt d + reward.amt d ∧
        ∀ a, a ≠ .mod .delegation → a ≠ .user m.creator → (w'.b a).amt d = (y.w.b a).amt d) := by
  have h := hr.winv
  obtain ⟨s, _, hs, _, hle, _, hex, hac, e, eb⟩ := redelegateMsg_ok hok
  have hf : s.f1 = y.w.s.f1 := by rw [hs]
  have hat : ∀ st, s.at st = y.w.s.at st := fun st => by unfold State.at; rw [hf]
  have ht : Tied s := h.tied.of_eq hf (fun st => by rw [hs])
  have ht2 : Tied (performUndelegation ⟨s, y.w.b⟩ m.src m.creator m.amount).s := ht.performOp m.src rfl m.creator
  have hc1 : ∀ st c, curDel ((performUndelegation ⟨s, y.w.b⟩ m.src m.creator m.amount).s.at st) c
      = curDel (y.w.s.at st) c - (if st = m.src ∧ c = m.creator then m.amount else 0) := by
    intro st c
    rw [← hat]
    exact curDel_undelegate ht m.src m.creator m.amount st c
  have ha1 : ∀ st, (performUndelegation ⟨s, y.w.b⟩ m.src m.creator m.amount).s.amount st
      = y.w.s.amount st - (if st = m.src then m.amount else 0) := by
    intro st
    have h1 := amount_undelegate ht m.src m.creator m.amount st
    have h2 : s.amount st = y.w.s.amount st := by unfold State.amount; rw [hat]
    rw [hat, Nat.min_eq_left hle, h2] at h1
    exact h1
  refine ⟨hle, hex, hac, ?_, ?_, ?_⟩
  · intro st c
    have := curDel_delegate ht2 m.dst m.creator m.amount st c
    rw [hc1] at this
    rw [e]; exact this
  · intro st
    have := amount_delegate ht2 m.dst m.creator m.amount st
    rw [ha1] at this
    rw [e]; exact this
  · intro hh
    have hh2 : (performDelegation (performUndelegation ⟨s, y.w.b⟩ m.src m.creator m.amount) m.dst m.creator m.amount).s.halted
        = false := by rw [e] at hh; exact hh
    have hh1 : (performUndelegation ⟨s, y.w.b⟩ m.src m.creator m.amount).s.halted = false := (performOp_halted hh2).1
    have hp1 := fun a d => performOp_bank hh1 a d
    have hp2 := fun a d => performOp_bank hh2 a d
    refine ⟨(f1Reward (s.at m.src) (.undelegate m.creator m.amount)).add
      (f1Reward ((performUndelegation ⟨s, y.w.b⟩ m.src m.creator m.amount).s.at m.dst) (.delegate m.creator m.amount)),
      ?_, ?_⟩
    · intro hne
      have e1 : f1Reward (s.at m.src) (.undelegate m.creator m.amount) = (withdraw (y.w.s.at m.src) m.creator).2 := by
        rw [hat]; rfl
      have e2 : (performUndelegation ⟨s, y.w.b⟩ m.src m.creator m.amount).s.at m.dst = y.w.s.at m.dst := by
        have := at_applyIndexed s m.src m.dst (.undelegate m.creator m.amount)
        rw [if_neg (fun e => hne e.symm), hat] at this
        exact this
      have e3 : f1Reward ((performUndelegation ⟨s, y.w.b⟩ m.src m.creator m.amount).s.at m.dst) (.delegate m.creator m.amount)
          = (withdraw (y.w.s.at m.dst) m.creator).2 := by rw [e2]; exact delegate_snd _ _ _
      rw [e1, e3]
    · intro d
      rw [eb]
      simp only [Coins.amt_add]
      refine ⟨?_, ?_, ?_⟩
      · have h1 := hp1 (.mod .delegation) d
        have h2 := hp2 (.mod .delegation) d
        simp only [if_true, reduceCtorEq, if_false] at h1 h2
        unfold performDelegation performUndelegation at *
        omega
      · have h1 := hp1 (.user m.creator) d
        have h2 := hp2 (.user m.creator) d
        simp only [if_true, reduceCtorEq, if_false] at h1 h2
        unfold performDelegation performUndelegation at *
        omega
      · intro a ha hu
        have h1 := hp1 a d
        have h2 := hp2 a d
        simp only [ha, hu, if_false] at h1 h2
        unfold performDelegation performUndelegation at *
        omega

/-- **C07.** An undelegation request needs a sufficient delegation and moves nothing yet. -/
theorem C07_request {w w' : World} {now : Nat} {c st : Addr} {n : Nat} (hok : undelegateMsg w now c st n = .ok w') :
    n ≤ curDel (w.s.at st) c ∧ (∀ st', w'.s.at st' = w.s.at st') ∧ w'.b = w.b := by
  obtain ⟨e, hle⟩ := undelegateMsg_ok hok
  subst e
  exact ⟨hle, fun _ => rfl, rfl⟩

/-- what the processing of a queue entry does -/
theorem unbond_spec {w : World} (h : WInv w) (t i : Nat) (e : QEntry) :
    (∀ st c, curDel ((payEntry w t i e).s.at st) c + (if st = e.staker ∧ c = e.delegator then
        min e.amount (curDel (w.s.at e.staker) e.delegator) else 0) = curDel (w.s.at st) c) ∧
    (∀ st, (payEntry w t i e).s.amount st + (if st = e.staker then
        min e.amount (curDel (w.s.at e.staker) e.delegator) else 0) = w.s.amount st) ∧
    ((payEntry w t i e).s.halted = false → ∀ d, ∃ x,
      x = (if d = kyve then min e.amount (curDel (w.s.at e.staker) e.delegator) else 0)
        + (withdraw (w.s.at e.staker) e.delegator).2.amt d ∧
      ((payEntry w t i e).b (.mod .delegation)).amt d + x = (w.b (.mod .delegation)).amt d ∧
      ((payEntry w t i e).b (.user e.delegator)).amt d = (w.b (.user e.delegator)).amt d + x ∧
      ∀ a, a ≠ .mod .delegation → a ≠ .user e.delegator → ((payEntry w t i e).b a).amt d = (w.b a).amt d) := by
  have hpay : entryPays w.s e = min e.amount (curDel (w.s.at e.staker) e.delegator) :=
    undelegated_eq (h.tied.f1inv e.staker) e.delegator e.amount
  refine ⟨?_, ?_, ?_⟩
  · intro st c
    have h1 : curDel ((payEntry w t i e).s.at st) c = _ :=
      curDel_undelegate h.tied e.staker e.delegator e.amount st c
    rw [h1]
    split
    · rename_i hh; obtain ⟨rfl, rfl⟩ := hh; omega
    · omega
  · intro st
    have h1 : (payEntry w t i e).s.amount st = _ := amount_undelegate h.tied e.staker e.delegator e.amount st
    rw [h1]
    have h2 := undelegated_le_total h.tied e.staker e.delegator e.amount
    rw [undelegated_eq (h.tied.f1inv e.staker)] at h2
    split
    · rename_i hh; subst hh; omega
    · omega
  · intro hh d
    refine ⟨_, rfl, ?_⟩
    have hh' : ((performUndelegation w e.staker e.delegator e.amount).s.halted
        || Bank.failed (entryTransfer w e)) = false := hh
    rw [Bool.or_eq_false_iff] at hh'
    have hp := fun a => performOp_bank hh'.1 a d
    have hrw : f1Reward (w.s.at e.staker) (.undelegate e.delegator e.amount)
      = (withdraw (w.s.at e.staker) e.delegator).2 := rfl
    rw [hrw] at hp
    cases htr : entryTransfer w e with
    | error _ => rw [htr] at hh'; exact absurd hh'.2 (by simp [Bank.failed])
    | ok b =>
      have eb : (payEntry w t i e).b = b := by
        show (performUndelegation w e.staker e.delegator e.amount).b.orKeep (entryTransfer w e) = b
        rw [htr]; rfl
      rw [eb]
      have hsd := Bank.send_ok htr
      have hle := hsd.1 d
      have hsd := fun a => hsd.2 a d
      rw [amt_single_kyve, hpay] at hle
      simp only [amt_single_kyve, hpay] at hsd
      refine ⟨?_, ?_, ?_⟩
      · have h1 := hp (.mod .delegation)
        have h2 := hsd (.mod .delegation)
        simp only [if_true, reduceCtorEq, if_false] at h1 h2
        unfold performUndelegation at h2 hle
        omega
      · have h1 := hp (.user e.delegator)
        have h2 := hsd (.user e.delegator)
        simp only [if_true, reduceCtorEq, if_false] at h1 h2
        unfold performUndelegation at h2
        omega
      · intro a ha hu
        have h1 := hp a
        have h2 := hsd a
        simp only [ha, hu, if_false] at h1 h2
        unfold performUndelegation at h2
        omega

/-- **C07.** When a due unbonding request is processed, the delegation and the staker's total shrink by exactly the
amount that is paid out to the delegator, which is the requested amount or all that is left, whichever is less. -/
theorem C07_unbond {gov : Addr} {y : Sys} (hr : Sys.Reachable gov y) (t i : Nat) (e : QEntry) :
    (∀ st c, curDel ((payEntry y.w t i e).s.at st) c + (if st = e.staker ∧ c = e.delegator then
        min e.amount (curDel (y.w.s.at e.staker) e.delegator) else 0) = curDel (y.w.s.at st) c) ∧
    (∀ st, (payEntry y.w t i e).s.amount st + (if st = e.staker then
        min e.amount (curDel (y.w.s.at e.staker) e.delegator) else 0) = y.w.s.amount st) ∧
    ((payEntry y.w t i e).s.halted = false → ∀ d, ∃ x,
      x = (if d = kyve then min e.amount (curDel (y.w.s.at e.staker) e.delegator) else 0)
        + (withdraw (y.w.s.at e.staker) e.delegator).2.amt d ∧
      ((payEntry y.w t i e).b (.mod .delegation)).amt d + x = (y.w.b (.mod .delegation)).amt d ∧
      ((payEntry y.w t i e).b (.user e.delegator)).amt d = (y.w.b (.user e.delegator)).amt d + x ∧
      ∀ a, a ≠ .mod .delegation → a ≠ .user e.delegator → ((payEntry y.w t i e).b a).amt d = (y.w.b a).amt d) :=
  unbond_spec hr.winv t i e

end Verif.Delegation
