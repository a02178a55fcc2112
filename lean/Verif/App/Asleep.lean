import Verif.App.Sample
import Verif.Chain.Several
import Verif.Chain.Asleep

/-!
# C117 and C110 in the whole application

Who takes no part in any transaction and has granted no fee allowance that is used keeps what it has: with transactions of
several messages, wrapped messages, fees, refunds, governance, x/team, inflation and burning.
-/

set_option linter.dupNamespace false
namespace Verif.App
open Verif
open Verif.Chain (Chain Keeps Without Waits Returned)
open Spec

/-! ## specification -/

/-- user `u` has nothing to do with the operation: it takes no part in the transaction and its allowance does not pay the fee; a
proposal of governance is signed by x/gov; whatever happens outside of the modelled modules takes nothing from `u`'s account -/
def Passive (gov u : Addr) (a : App) : App.Op → Prop
  | .tx t => ¬ TookPart t u ∧ t.granter ≠ some u
  | .proposal _ => u ≠ gov
  | .outside b _ _ _ _ _ _ => ∀ d, (a.chain.b (.user u)).amt d ≤ (b (.user u)).amt d
  | _ => True

/-- histories from `a` in which `u` does nothing; no block panics, and the clock stays inside 64 bits -/
inductive Asleep (gov u : Addr) (a : App) : App → Prop
  | refl : Asleep gov u a a
  | step {x : App} (op : App.Op) : Asleep gov u a x → Passive gov u x op → App.Fair gov x op →
      Verif.Chain.Sane (x.step gov op).chain → (x.step gov op).chain.crashed = false →
      (x.step gov op).chain.del.halted = false →
      (∀ dt p r, op = .beginBlock dt p r → x.chain.now + dt + x.chain.del.params.unbonding < 2 ^ 64) →
      Asleep gov u a (x.step gov op)

namespace App

/-! ## proofs: the chain inside goes through a history `Without` of the same user -/

theorem without_trans {gov u : Addr} {c x y : Chain} (h1 : Without gov u c x) (h2 : Without gov u x y) : Without gov u c y := by
  induction h2 with
  | refl => exact h1
  | step op _ ho hs hn hok hh hb ih => exact .step op ih ho hs hn hok hh hb
  | outside b gd gs gf _ hc hd ih => exact .outside b gd gs gf ih hc hd

theorem step_ok {gov : Addr} {c c' : Chain} (hc : c.crashed = false) {op : Chain.Op} (he : Chain.exec gov c op = .ok c') :
    c.step gov op = c' := by
  unfold Verif.Chain.Chain.step
  rw [if_neg (by rw [hc]; decide), he]; rfl

/-- other balances, but not less for `u` -/
theorem without_setBank {gov u : Addr} {c : Chain} (hc : c.crashed = false) {b : Bank}
    (hb : ∀ d, (c.b (.user u)).amt d ≤ (b (.user u)).amt d) : Without gov u c (setBank c b) :=
  .outside b _ _ _ .refl hc hb

theorem without_exec {gov : Addr} {a a' : App} (h : Inv gov a) {m : Msg} (he : a.exec gov m = .ok a')
    (hs : Verif.Chain.Sane a'.chain) {u : Addr} (hu : m.signer ≠ some u) : Without gov u a.chain a'.chain := by
  have hacc : ∀ d, (a.chain.b (.user u)).amt d ≤ (a'.chain.b (.user u)).amt d := exec_spends h he (.user u) hu
  cases m with
  | protocol op =>
    obtain ⟨hsig, c, hc, rfl⟩ := exec_protocol he
    have ho := inner_of_signed hsig
    have e := step_ok h.up hc
    have hnb : ∀ dt pr te r, op ≠ .beginBlock dt pr te r := fun dt pr te r e => hsig (by rw [e]; rfl)
    have hcr := Verif.Chain.Chain.C90_messages gov a.chain h.reach op hsig
    have hw : Without gov u a.chain (a.chain.step gov op) :=
      .step op .refl ho hu (by rw [e]; exact hs) (by rw [hcr]; exact h.up)
        (fun dt pr te r e => absurd e (hnb dt pr te r)) (fun dt pr te r e => absurd e (hnb dt pr te r))
    rw [e] at hw
    exact hw
  | team m =>
    obtain ⟨w, hw, rfl⟩ := Verif.Chain.Chain.map_ok (show (m.exec a.tw).map a.withTeam = .ok a' from he)
    rw [withTeam_b (team_safe hw).1] at hacc
    exact without_setBank h.up hacc
  | global s y =>
    obtain ⟨w, hw, rfl⟩ := Verif.Chain.Chain.map_ok
      (show (Global.updateParams gov a.gw s y).map a.withGlobal = .ok a' from he)
    rw [updateParams_eq hw]
    exact without_setBank h.up (fun _ => Nat.le_refl _)
  | send s d c =>
    obtain ⟨b, hb, rfl⟩ := exec_send he
    have e : (setBank a.chain b).b = b := setBank_b (safe_send hb ⟨by rintro ⟨⟩, by rintro ⟨⟩, by rintro ⟨⟩⟩)
    have hacc : ∀ d, (a.chain.b (.user u)).amt d ≤ ((setBank a.chain b).b (.user u)).amt d := hacc
    rw [e] at hacc
    exact without_setBank h.up hacc

theorem without_execAll {gov : Addr} {a a' : App} (h : Inv gov a) {ms : List Msg} (he : a.execAll gov ms = .ok a')
    (hs : SaneMsgs gov a ms) {u : Addr} (hu : ∀ m ∈ ms, m.signer ≠ some u) : Without gov u a.chain a'.chain := by
  induction ms generalizing a with
  | nil => cases he; exact .refl
  | cons m l ih =>
    unfold App.execAll at he
    split at he
    · cases he
    · rename_i a1 h1
      have hx : Verif.Chain.Sane a1.chain := hs 1 a1 (by
        show App.execAll gov a [m] = _
        unfold App.execAll; rw [h1]; rfl)
      exact without_trans (without_exec h h1 hx (hu m (by simp)))
        (ih (h.exec h1 hx).1 he (fun k a2 hk => hs (k + 1) a2 (by
          show App.execAll gov a (m :: l.take k) = _
          unfold App.execAll; rw [h1]; exact hk)) (fun m' hm => hu m' (by simp [hm])))

theorem without_runTx {gov : Addr} {a : App} (h : Inv gov a) {t : Tx} (hf : Fair gov a (.tx t)) {u : Addr}
    (hu : ¬ TookPart t u) (hg : t.granter ≠ some u) : Without gov u a.chain (a.runTx gov t).chain := by
  rcases runTx_cases gov a t with e | ⟨hs, w1, h1, hh⟩
  · rw [e]; exact .refl
  · have hp : u ≠ feePayer t := by
      intro e
      have hp : t.payer ∈ t.signers := by
        unfold Tx.signed at hs
        simp only [Bool.and_eq_true] at hs
        simpa using hs.1.2
      unfold feePayer at e
      cases hgr : t.granter with
      | none => rw [hgr] at e; exact hu (Or.inl (e ▸ hp))
      | some g => rw [hgr] at e; exact hg (by rw [hgr, e]; rfl)
    obtain ⟨d1, -, -⟩ := deduct_fee h1
    have k1 : Without gov u a.chain (a.withGlobal w1).chain := without_setBank h.up (fun d => by
      rw [(Bank.send_ok d1).2, if_neg (by rintro ⟨⟩; exact hp rfl), if_neg (by rintro ⟨⟩)]; omega)
    rcases hh with e | ⟨a2, w3, h2, h3, e⟩
    · rw [e]; exact k1
    · rw [e]
      have i2 := ((h.deduct h1).execAll h2 (hf w1 h1)).1
      refine without_trans (without_trans k1 (without_execAll (h.deduct h1) h2 (hf w1 h1)
        (fun m hm hx => hu (tookPart hs hm hx)))) (without_setBank i2.up (fun d => ?_))
      obtain ⟨r1, -, -⟩ := refund_fee h3
      rcases r1 with rfl | ⟨c, r1, -⟩
      · exact Nat.le_refl _
      · rw [(Bank.send_ok r1).2, if_neg (by rintro ⟨⟩)]; omega

/-- x/mint's and x/team's part of the begin block -/
theorem without_prelude {gov : Addr} {a : App} (h : Inv gov a) (dt p : Nat) (u : Addr) :
    Without gov u a.chain ((a.mint p).teamBlock dt p).chain := by
  have k1 : Without gov u a.chain (a.mint p).chain := without_setBank h.up (fun d => Nat.le_refl _)
  have k2 : Without gov u (a.mint p).chain ((a.mint p).teamBlock dt p).chain := by
    refine without_setBank (h.mint p).up (fun d => ?_)
    obtain ⟨n, e⟩ := teamBlock_send (a.mint p) dt p
    rw [e]
    cases hsend : (a.mint p).chain.b.send (.mod .feeCollector) (.mod .team) (Coins.single kyve n) with
    | error e => exact Nat.le_refl _
    | ok b =>
      show _ ≤ (b (.user u)).amt d
      rw [(Bank.send_ok hsend).2, if_neg (by rintro ⟨⟩), if_neg (by rintro ⟨⟩)]; omega
  exact without_trans k1 k2

theorem without_begin {gov : Addr} {a : App} (h : Inv gov a) (dt p : Nat) (r : Bool)
    (hs : Verif.Chain.Sane (a.beginBlock dt p r).chain) (hok : (a.beginBlock dt p r).chain.crashed = false)
    (hh : (a.beginBlock dt p r).chain.del.halted = false) (hb : a.chain.now + dt + a.chain.del.params.unbonding < 2 ^ 64)
    (u : Addr) : Without gov u a.chain (a.beginBlock dt p r).chain := by
  have i2 := (h.mint p).teamBlock dt p
  have hb2 : ((a.mint p).teamBlock dt p).chain.now + dt + ((a.mint p).teamBlock dt p).chain.del.params.unbonding < 2 ^ 64 := hb
  refine without_trans (without_prelude h dt p u) ?_
  unfold App.beginBlock at hs hok hh ⊢
  generalize (a.mint p).teamBlock dt p = y at i2 hb2 hs hok hh ⊢
  rw [protocolBlock_chain] at hs hok hh ⊢
  have e := step_ok i2.up (exec_begin gov y.chain dt p (Team.blockProvision y.team p (y.supply.amt kyve)).1 r)
  rw [← e] at hs hok hh ⊢
  exact .step _ .refl rfl (by rintro ⟨⟩) hs hok (fun _ _ _ _ _ => hh)
    (fun dt' pr te r' e' => by injection e' with e1; rw [← e1]; exact hb2)

theorem without_end {gov : Addr} {a : App} (h : Inv gov a) (hs : Verif.Chain.Sane a.endBlock.chain)
    (hok : a.endBlock.chain.crashed = false) (u : Addr) : Without gov u a.chain a.endBlock.chain := by
  have e := step_ok (gov := gov) h.up (show Chain.exec gov a.chain .endBlock = .ok a.chain.endBlock from rfl)
  unfold App.endBlock at hs hok ⊢
  split at hok
  · rename_i hc
    exact absurd hok (by show ¬ a.chain.endBlock.crashed = false; rw [hc]; decide)
  · rename_i hc
    rw [if_neg hc] at hs ⊢
    have hc' : a.chain.endBlock.crashed = false := by simpa using hc
    have hk : Without gov u a.chain (a.chain.step gov .endBlock) :=
      .step _ .refl rfl (by rintro ⟨⟩) (by rw [e]; exact ⟨hs.calm, hs.small⟩) (by rw [e]; exact hc')
        (fun dt pr te r e => by cases e) (fun dt pr te r e => by cases e)
    rw [e] at hk
    refine without_trans hk (without_setBank hc' (fun d => ?_))
    rcases burnt ({ a with chain := a.chain.endBlock } : App).gw with e | e | ⟨c, -, -, e⟩
    · rw [e]; exact Nat.le_refl _
    · rw [e]; exact Nat.le_refl _
    · rw [e]
      have e1 : (a.chain.endBlock.b.upd (.mod .feeCollector) ((a.chain.endBlock.b (.mod .feeCollector)).sub c)) (.user u) =
          a.chain.endBlock.b (.user u) := by
        unfold Bank.upd
        rw [if_neg (by rintro ⟨⟩)]
      exact Nat.le_of_eq (congrArg (·.amt d) e1.symm)

theorem without_step {gov u : Addr} {x : App} (h : Reachable gov x) (op : Op) (hp : Passive gov u x op) (hf : Fair gov x op)
    (hs : Verif.Chain.Sane (x.step gov op).chain) (hok : (x.step gov op).chain.crashed = false)
    (hh : (x.step gov op).chain.del.halted = false)
    (hb : ∀ dt p r, op = .beginBlock dt p r → x.chain.now + dt + x.chain.del.params.unbonding < 2 ^ 64) :
    Without gov u x.chain (x.step gov op).chain := by
  cases hc : x.chain.crashed with
  | true => rw [step_down hc]; exact .refl
  | false =>
    have hi := h.up hc
    rw [step_up hc] at hs hok hh ⊢
    cases op with
    | tx t => exact without_runTx hi hf hp.1 hp.2
    | proposal ms =>
      show Without gov u x.chain (x.proposal gov ms).chain
      rcases proposal_cases gov x ms with e | ⟨hg, a', he, e⟩
      · rw [e]; exact .refl
      · rw [e]
        exact without_execAll hi he hf (fun m hm hx => by
          rw [hg m hm] at hx
          injection hx with hx
          exact hp hx.symm)
    | beginBlock dt p r => exact without_begin hi dt p r hs hok hh (hb dt p r rfl) u
    | endBlock => exact without_end hi hs hok u
    | outside b s g gd gs gf gt => exact .outside _ _ _ _ .refl hc hp

theorem asleep_reachable {gov u : Addr} {a x : App} (h : Reachable gov a) (hw : Asleep gov u a x) : Reachable gov x := by
  induction hw with
  | refl => exact h
  | step op _ _ hf hs _ _ _ ih =>
    obtain ⟨a0, ops, hh⟩ := ih
    exact ⟨a0, ops ++ [op], hh.step op hf hs⟩

theorem asleep_without {gov u : Addr} {a x : App} (h : Reachable gov a) (hw : Asleep gov u a x) :
    Without gov u a.chain x.chain := by
  induction hw with
  | refl => exact .refl
  | step op hw hp hf hs hok hh hb ih => exact without_trans ih (without_step (asleep_reachable h hw) op hp hf hs hok hh hb)

/-- **C117.** Who takes no part in any transaction, and whose fee allowances are not used, keeps what it has over any history of
the application: its coins, its delegation up to the slashes of the staker, its rewards and its commission. -/
theorem C117_application (gov : Addr) (a x : App) (h : Reachable gov a) (st u : Addr) (hr : a.chain.requests st u = [])
    (hw : Asleep gov u a x) : Keeps a.chain st u x.chain :=
  Verif.Chain.Chain.C117_keeps gov a.chain x.chain h.inv.reach st u hr (asleep_without h hw)

/-- **C110** in the whole application: who has one request to undelegate from `st` and does nothing more finds it waiting, or
paid. -/
theorem C110_application (gov : Addr) (a x : App) (h : Reachable gov a) (st u : Addr) (t n : Nat)
    (hr : a.chain.requests st u = [⟨st, u, t, n⟩]) (hw : Asleep gov u a x) :
    Waits a.chain st u t n x.chain ∨ Returned a.chain st u n x.chain :=
  Verif.Chain.Chain.C110_pending gov a.chain x.chain h.inv.reach st u t n hr (asleep_without h hw)

/-- C110 in the whole application, several requests: those that are not paid still wait, and if the staker was not slashed what
was paid is on the account. -/
theorem C110_requests (gov : Addr) (a x : App) (h : Reachable gov a) (st u : Addr) (hw : Asleep gov u a x) :
    (x.chain.requests st u).Sublist (a.chain.requests st u) ∧
    ((∀ l, x.chain.slashes = a.chain.slashes ++ l → ∀ s ∈ l, s.1 ≠ st) → Verif.Chain.Served a.chain st u x.chain) :=
  Verif.Chain.Chain.C110_several gov a.chain x.chain h.inv.reach st u (asleep_without h hw)

/-- C110 in the whole application: it is paid in the first block that finds the unbonding time over, at the latest. -/
theorem C110_block (gov : Addr) (a x : App) (h : Reachable gov a) (st u : Addr) (t n : Nat)
    (hr : a.chain.requests st u = [⟨st, u, t, n⟩]) (hw : Asleep gov u a x) (dt p : Nat) (r : Bool)
    (ht : t + x.chain.del.params.unbonding ≤ x.chain.now + dt) (hc : x.chain.crashed = false)
    (hs : Verif.Chain.Sane (x.step gov (.beginBlock dt p r)).chain)
    (hok : (x.step gov (.beginBlock dt p r)).chain.crashed = false)
    (hh : (x.step gov (.beginBlock dt p r)).chain.del.halted = false)
    (ho : x.chain.now + dt + x.chain.del.params.unbonding < 2 ^ 64) :
    Returned a.chain st u n (x.step gov (.beginBlock dt p r)).chain := by
  have hx := asleep_reachable h hw
  have hi := hx.up hc
  have e0 : x.step gov (.beginBlock dt p r) = x.beginBlock dt p r := step_up hc _
  rw [e0] at hs hok hh ⊢
  have k : Without gov u x.chain ((x.mint p).teamBlock dt p).chain := without_prelude hi dt p u
  have i2 := (hi.mint p).teamBlock dt p
  have hb2 : ((x.mint p).teamBlock dt p).chain.now + dt + ((x.mint p).teamBlock dt p).chain.del.params.unbonding < 2 ^ 64 := ho
  have ht2 : t + ((x.mint p).teamBlock dt p).chain.del.params.unbonding ≤ ((x.mint p).teamBlock dt p).chain.now + dt := ht
  have hw2 := Verif.Chain.Chain.C110_pending gov a.chain _ h.inv.reach st u t n hr
    (without_trans (asleep_without h hw) k)
  unfold App.beginBlock at hs hok hh ⊢
  generalize (x.mint p).teamBlock dt p = y at i2 hb2 ht2 hw2 hs hok hh ⊢
  rw [protocolBlock_chain] at hs hok hh ⊢
  have e := step_ok i2.up (exec_begin gov y.chain dt p (Team.blockProvision y.team p (y.supply.amt kyve)).1 r)
  rw [← e] at hs hok hh ⊢
  exact Verif.Chain.Chain.due_returns i2.reach hw2 dt p _ r ht2 hs hok hh hb2 .refl

end App

/-! ## a sample: user 4 sleeps while a bundle is proposed and decided -/

namespace Sample
open App

/-- taking no part in it, as a test -/
def passiveB (u : Addr) : Op → Bool
  | .tx t => !t.signers.contains u && t.signers.all (fun g => !t.authorized.contains (u, g)) && t.granter != some u
  | .proposal _ => u != gov
  | .outside _ _ _ _ _ _ _ => false
  | _ => true

/-- the clock, as a test -/
def clockB (a : App) : Op → Bool
  | .beginBlock dt _ _ => decide (a.chain.now + dt + a.chain.del.params.unbonding < 2 ^ 64)
  | _ => true

/-- the side conditions of `Asleep` for a run, as a test -/
def sleepRun (u : Addr) (a : App) : List Op → Bool
  | [] => true
  | op :: l => passiveB u op && fairB a op && clockB a op && saneB (a.step gov op).chain &&
      !(a.step gov op).chain.crashed && !(a.step gov op).chain.del.halted && sleepRun u (a.step gov op) l

theorem passive_of {u : Addr} {a : App} {op : Op} (h : passiveB u op = true) : Passive gov u a op := by
  cases op with
  | tx t =>
    simp only [passiveB, Bool.and_eq_true, Bool.not_eq_true', List.all_eq_true, bne_iff_ne, ne_eq] at h
    refine ⟨?_, h.2⟩
    rintro (h1 | ⟨g, hg, h1⟩)
    · have := h.1.1
      rw [List.contains_eq_mem, decide_eq_false_iff_not] at this
      exact this h1
    · have := h.1.2 g hg
      rw [List.contains_eq_mem, decide_eq_false_iff_not] at this
      exact this h1
  | proposal ms => exact (show ¬ u = gov by simpa [passiveB] using h)
  | outside => cases h
  | beginBlock | endBlock => trivial

theorem run_asleep {u : Addr} {a0 a : App} (h : Asleep gov u a0 a) (l : List Op) (ho : sleepRun u a l = true) :
    Asleep gov u a0 (run a l) := by
  induction l generalizing a with
  | nil => exact h
  | cons op l ih =>
    unfold sleepRun at ho
    simp only [Bool.and_eq_true, Bool.not_eq_true'] at ho
    obtain ⟨⟨⟨⟨⟨⟨h1, h2⟩, h3⟩, h4⟩, h5⟩, h6⟩, h7⟩ := ho
    refine ih (h.step op (passive_of h1) (fair_of h2) (sane_of h4) h5 h6 (fun dt p r e => ?_)) h7
    subst e
    exact of_decide_eq_true h3

/-- user 4 delegates to staker 1 -/
def slept : App := run turn [single 4 (.protocol (.delegate 4 1 50))]
/-- staker 1 proposes a bundle, the others vote for it, and it becomes part of the archive -/
def night : List Op :=
  [submit,
   .tx ⟨[.wrapped 2 [.protocol (.vote ⟨12, 2, 0, 7, .valid⟩)]], Coins.single kyve 4000, 200000, 2, none, [2], [(12, 2)], 5000⟩,
   .tx ⟨[.wrapped 3 [.protocol (.vote ⟨13, 3, 0, 7, .valid⟩)]], Coins.single kyve 4000, 200000, 3, none, [3], [(13, 3)], 5000⟩,
   .endBlock, .beginBlock 3600 1000000 false, .endBlock, .beginBlock 10 1000000 true]
theorem hist_slept : History gov start (setup ++ role ++ [single 4 (.protocol (.delegate 4 1 50))]) slept :=
  run_history hist_turn _ (by decide +kernel)
theorem night_asleep : Asleep gov 4 slept (run slept night) := run_asleep .refl _ (by decide +kernel)

/-- C117: the hypotheses hold for user 4 and its delegation to staker 1 -/
example : Keeps slept.chain 1 4 (run slept night).chain :=
  C117_application gov _ _ ⟨_, _, hist_slept⟩ 1 4 (by decide +kernel) night_asleep
/-- it has earned something in its sleep -/
example : slept.chain.owns 1 4 = 50 * Dec.one ∧ (run slept night).chain.owns 1 4 = 50 * Dec.one ∧
    slept.chain.earned 1 4 kyve = 0 ∧ (run slept night).chain.earned 1 4 kyve = 304425 ∧
    (run slept night).chain.bun.finalized.size = 1 := by decide +kernel

/-- user 4 asks for 20 of its coins back -/
def asked : App := run slept [single 4 (.protocol (.undelegate 4 1 20))]
theorem hist_asked : History gov start (setup ++ role ++ [single 4 (.protocol (.delegate 4 1 50))] ++
    [single 4 (.protocol (.undelegate 4 1 20))]) asked := run_history hist_slept _ (by decide +kernel)
/-- C110: the hypotheses hold, the night and the unbonding time pass -/
example : Returned asked.chain 1 4 20 ((run asked night).step gov (.beginBlock 432000 1000000 false)).chain :=
  C110_block gov _ _ ⟨_, _, hist_asked⟩ 1 4 asked.chain.now 20 (by decide +kernel) (run_asleep .refl _ (by decide +kernel))
    432000 1000000 false (by decide +kernel) (by decide +kernel) (sane_of (by decide +kernel)) (by decide +kernel)
    (by decide +kernel) (by decide +kernel)
/-- after the night the request still waits, and the rewards of the night are its own -/
example : Verif.Chain.Served asked.chain 1 4 (run asked night).chain := by
  refine (C110_requests gov _ _ ⟨_, _, hist_asked⟩ 1 4 (run_asleep .refl night (by decide +kernel))).2 (fun l hl s hs => ?_)
  have e := congrArg List.length hl
  rw [List.length_append, show (run asked night).chain.slashes.length = asked.chain.slashes.length by decide +kernel] at e
  have : l = [] := List.length_eq_zero_iff.1 (by omega)
  subst this
  cases hs
example : (((run asked night).step gov (.beginBlock 432000 1000000 false)).chain.b (.user 4)).amt kyve =
    (asked.chain.b (.user 4)).amt kyve + 20 + 304425 := by decide +kernel

end Sample
end Verif.App
