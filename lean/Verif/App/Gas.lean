import Verif.App.Properties
import Verif.App.Sample

/-!
# C108: extra gas and refunds follow the messages that are executed

x/global configures extra gas and refunds by type of message.  The property: a transaction that has an effect pays the extra
gas of every message it executes, and a transaction that executes a single message gets the refund of its type.  It is false of
the code: /repo/x/global/ante.go:73-88 and /repo/x/global/post.go:36-75 look at the outer messages of the transaction only, and
x/authz's `MsgExec` executes other messages.  Proved for transactions without wrapped messages.
-/

set_option linter.dupNamespace false

namespace Verif.App
open Verif
namespace Spec

/-- the extra gas configured for a type of messages: the first entry for this type counts -/
def extraFor (p : Global.Params) (m : Msg) : Nat := ((p.gasAdjustments.find? (fun e => e.1 == m.type)).map (·.2)).getD 0

/-- the refunded share configured for a type of messages, in 10^-18: the first entry for this type counts -/
def shareFor (p : Global.Params) (m : Msg) : Nat := ((p.gasRefunds.find? (fun e => e.1 == m.type)).map (·.2)).getD 0

/-- the transaction pays the extra gas of all messages it executes -/
def PaysGas (p : Global.Params) (t : Tx) : Prop := t.gasBefore + (t.msgs.map (extraFor p)).sum ≤ t.gas

/-- what is to be refunded of `n` coins of the fee: the share of the message if it is the only one that is executed -/
def owed (p : Global.Params) (t : Tx) (n : Nat) : Nat :=
  match t.msgs with
  | [m] => n * shareFor p m / 10 ^ 18
  | _ => 0

/-- the transaction has no wrapped messages -/
def Unwrapped (t : Tx) : Prop := ∀ c ∈ t.calls, ∃ m, c = .plain m

end Spec

open Spec
namespace App

theorem unwrapped_calls {l : List Call} (h : ∀ c ∈ l, ∃ m, c = .plain m) : ∃ ms : List Msg, l = ms.map .plain := by
  induction l with
  | nil => exact ⟨[], rfl⟩
  | cons c l ih =>
    obtain ⟨m, rfl⟩ := h c (by simp)
    obtain ⟨ms, rfl⟩ := ih (fun c hc => h c (by simp [hc]))
    exact ⟨m :: ms, rfl⟩

theorem unwrapped_msgs {t : Tx} {ms : List Msg} (h : t.calls = ms.map .plain) : t.msgs = ms := by
  unfold Tx.msgs
  rw [h]
  clear h
  induction ms with
  | nil => rfl
  | cons m l ih => rw [List.map_cons, List.flatMap_cons, ih]; rfl

/-- **C108** (part): a transaction without wrapped messages that has any effect pays the extra gas of every message it
contains; the effect includes that only the fee is paid.  Missing: wrapped messages, see `C108_gas_false`. -/
theorem C108_gas_partial (gov : Addr) (a : App) (t : Tx) (hw : Unwrapped t) (h0 : t.gasBefore ≤ t.gas)
    (he : a.step gov (.tx t) ≠ a) : PaysGas a.params t := by
  by_contra hn
  obtain ⟨ms, hms⟩ := unwrapped_calls hw
  refine he ?_
  cases hc : a.chain.crashed with
  | true => exact step_down hc _
  | false =>
    rw [step_up hc]
    show a.runTx gov t = a
    have hx : t.gas < t.gasBefore + (t.fees.msgs.map (Global.Spec.extraGas a.params)).sum := by
      have e : t.fees.msgs = ms.map Msg.type := by
        show t.calls.map Call.type = _
        rw [hms, List.map_map]; rfl
      rw [e, List.map_map]
      unfold PaysGas at hn
      rw [unwrapped_msgs hms] at hn
      exact Nat.not_le.1 hn
    obtain ⟨e, hg⟩ := (Global.C49_gas_adjustment a.params t.gas t.fees.msgs t.gasBefore h0).2 hx
    unfold App.runTx
    split
    · rfl
    · rw [hg]

/-- **C108** (part): if the fee is paid and the messages of a transaction without wrapped messages succeed, and the fee is not
paid by somebody else, exactly what is owed for its message is refunded.  Missing: wrapped messages, see
`C108_refund_false`; fees paid from an allowance, see C48. -/
theorem C108_refund_partial (gov : Addr) (a : App) (h : Reachable gov a) (hc : a.chain.crashed = false) (t : Tx)
    (hw : Unwrapped t) (hf : Fair gov a (.tx t)) (hs : t.signed = true) (h0 : t.gasBefore ≤ t.gas) (hg : PaysGas a.params t)
    (w1 : Global.World) (h1 : Global.deductFee a.gw t.fees none = .ok w1) (a2 : App)
    (h2 : (a.withGlobal w1).execAll gov t.msgs = .ok a2) (hgr : t.granter = none ∨ t.granter = some t.payer) :
    Refunded (feePayer t) (fun d => owed a2.params t (t.fee.amt d)) a2 (a.step gov (.tx t)) := by
  obtain ⟨ms, hms⟩ := unwrapped_calls hw
  have e : t.fees.msgs = ms.map Msg.type := by
    show t.calls.map Call.type = _
    rw [hms, List.map_map]; rfl
  have hx : t.gasBefore + (t.fees.msgs.map (Global.Spec.extraGas a.params)).sum ≤ t.gas := by
    rw [e, List.map_map]
    unfold PaysGas at hg
    rw [unwrapped_msgs hms] at hg
    exact hg
  have := C96_takes_effect gov a h hc t hf hs _
    ((Global.C49_gas_adjustment a.params t.gas t.fees.msgs t.gasBefore h0).1 hx) w1 h1 a2 h2 hgr
  have eo : ∀ n, refunds a2.params t n = owed a2.params t n := fun n => by
    unfold refunds owed
    rw [unwrapped_msgs hms, hms]
    rcases ms with _ | ⟨m, _ | ⟨m', l⟩⟩ <;> rfl
  simpa only [eo] using this

end App

namespace Sample
open App

/-- the wrapped submission, with a limit of 5500 gas: 5000 are used before, and 1000 are configured for the message -/
def cheap : Tx :=
  ⟨[.wrapped 11 [.protocol (.submit (Verif.Chain.Sample.bundle 1 7 0))]], Coins.single kyve 4000, 5500, 11, none, [11],
    [], 5000⟩

/-- the same message without the wrapper -/
def dear : Tx :=
  ⟨[.plain (.protocol (.submit (Verif.Chain.Sample.bundle 1 7 0)))], Coins.single kyve 4000, 200000, 11, none, [11], [], 5000⟩

end Sample

namespace App
open Sample

/-- **C108** is false of the code: a message for which extra gas is configured can be sent without paying it. The sender
signs a wrapper (x/authz needs no authorization for one's own messages); the bundle is proposed with less gas than configured. -/
theorem C108_gas_false : ∃ (gov : Addr) (a : App) (t : Tx), Reachable gov a ∧ Fair gov a (.tx t) ∧
    t.gasBefore ≤ t.gas ∧ ¬ PaysGas a.params t ∧ t.signed = true ∧
    (a.chain.bun.proposals.get? 0).map (·.storageId) = some 0 ∧
    ((a.step gov (.tx t)).chain.bun.proposals.get? 0).map (·.storageId) = some 7 :=
  ⟨Sample.gov, turn, cheap, reach_turn, fair_of (by decide +kernel), by decide, by unfold PaysGas; decide +kernel, by decide +kernel,
    by decide +kernel, by decide +kernel⟩

/-- **C108** is false of the code: for the same message, wrapped, there is no refund: a quarter of the fee of 4000 is owed to
the sender, and the whole fee is gone. -/
theorem C108_refund_false : ∃ (gov : Addr) (a : App) (t : Tx), Reachable gov a ∧ Fair gov a (.tx t) ∧
    t.signed = true ∧ t.granter = none ∧ owed a.params t (t.fee.amt kyve) = 1000 ∧ t.fee.amt kyve = 4000 ∧
    ((a.step gov (.tx t)).chain.bun.proposals.get? 0).map (·.storageId) = some 7 ∧
    (a.chain.b (.user t.payer)).amt kyve = ((a.step gov (.tx t)).chain.b (.user t.payer)).amt kyve + 4000 :=
  ⟨Sample.gov, turn, cheap, reach_turn, fair_of (by decide +kernel), by decide +kernel, rfl, by decide +kernel, by decide +kernel,
    by decide +kernel, by decide +kernel⟩

/-- the hypotheses of the partial theorems hold for the plain message, and it gets its quarter back -/
example : Unwrapped dear ∧ Fair Sample.gov turn (.tx dear) ∧ dear.signed = true ∧ PaysGas turn.params dear ∧
    owed turn.params dear (dear.fee.amt kyve) = 1000 ∧
    ((turn.step Sample.gov (.tx dear)).chain.bun.proposals.get? 0).map (·.storageId) = some 7 ∧
    (turn.chain.b (.user 11)).amt kyve = ((turn.step Sample.gov (.tx dear)).chain.b (.user 11)).amt kyve + 3000 :=
  ⟨fun c hc => ⟨_, List.mem_singleton.1 hc⟩, fair_of (by decide +kernel), by decide +kernel, by unfold PaysGas; decide +kernel,
    by decide +kernel, by decide +kernel, by decide +kernel⟩

/-- without enough gas for the extra gas the plain message has no effect -/
example : ¬ PaysGas turn.params { dear with gas := 5500 } ∧ (turn.step Sample.gov (.tx { dear with gas := 5500 })) = turn := by
  have hn : ¬ PaysGas turn.params { dear with gas := 5500 } := by unfold PaysGas; decide +kernel
  exact ⟨hn, by_contra fun he => hn (C108_gas_partial _ turn _ (fun c hc => ⟨_, List.mem_singleton.1 hc⟩) (by decide) he)⟩

end App
end Verif.App
