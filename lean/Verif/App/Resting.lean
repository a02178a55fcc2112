import Verif.App.Asleep
import Verif.Chain.Lasting

/-!
# C111 in the whole application

The rest of a funder that takes no part in any transaction goes down by the promised price for every final bundle, and by
nothing else, as long as the coin is on the whitelist.
-/

set_option linter.dupNamespace false
namespace Verif.App
open Verif
open Verif.Chain (Chain Idle PaidAll PaidBack)
open Spec

/-! ## specification -/

/-- coin `d` is on the whitelist of x/funders -/
def Listed (d : Denom) (a : App) : Prop := Funders.Spec.whitelisted a.chain.fw d

/-- coin `d` is on the whitelist before and after each of the messages -/
def ListedMsgs (gov : Addr) (d : Denom) (a : App) (ms : List Msg) : Prop :=
  ∀ k a', a.execAll gov (ms.take k) = .ok a' → Listed d a'

/-- coin `d` stays on the whitelist during the operation -/
def StaysListed (gov : Addr) (d : Denom) (a : App) : App.Op → Prop
  | .tx t => ∀ w, Global.deductFee a.gw t.fees none = .ok w → ListedMsgs gov d (a.withGlobal w) t.msgs
  | .proposal ms => ListedMsgs gov d a ms
  | _ => Listed d a

/-- histories in which `u` takes no part in any transaction and coin `d` is on the whitelist all the time -/
inductive Resting (gov u : Addr) (d : Denom) (a : App) : App → Prop
  | refl : Resting gov u d a a
  | step {x : App} (op : App.Op) : Resting gov u d a x → Passive gov u x op → StaysListed gov d x op → App.Fair gov x op →
      Verif.Chain.Sane (x.step gov op).chain → Resting gov u d a (x.step gov op)

namespace App

/-! ## proofs: the chain inside goes through a history `Idle` of the same funder -/

theorem idle_trans {gov u : Addr} {d : Denom} {c x y : Chain} (h1 : Idle gov u d c x) (h2 : Idle gov u d x y) : Idle gov u d c y := by
  induction h2 with
  | refl => exact h1
  | step op _ ho hs hw hn ih => exact .step op ih ho hs hw hn
  | outside b gd gs gf _ hc hd ih => exact .outside b gd gs gf ih hc hd

/-- other balances, but not less for `u` -/
theorem idle_setBank {gov u : Addr} {d : Denom} {c : Chain} (hc : c.crashed = false) {b : Bank}
    (hb : ∀ d, (c.b (.user u)).amt d ≤ (b (.user u)).amt d) : Idle gov u d c (setBank c b) :=
  .outside b _ _ _ .refl hc (hb d)

theorem idle_exec {gov : Addr} {a a' : App} (h : Inv gov a) {m : Msg} (he : a.exec gov m = .ok a')
    (hs : Verif.Chain.Sane a'.chain) {u : Addr} {d : Denom} (hu : m.signer ≠ some u) (hl : Listed d a) : Idle gov u d a.chain a'.chain := by
  have hacc : ∀ d, (a.chain.b (.user u)).amt d ≤ (a'.chain.b (.user u)).amt d := exec_spends h he (.user u) hu
  cases m with
  | protocol op =>
    obtain ⟨hsig, c, hc, rfl⟩ := exec_protocol he
    have hs : Verif.Chain.Sane c := hs
    have ho := inner_of_signed hsig
    have e := step_ok h.up hc
    have hw : Idle gov u d a.chain (a.chain.step gov op) := .step op .refl ho hu hl (by rw [e]; exact hs)
    rw [e] at hw
    exact hw
  | team m =>
    obtain ⟨w, hw, rfl⟩ := Verif.Chain.Chain.map_ok (show (m.exec a.tw).map a.withTeam = .ok a' from he)
    rw [withTeam_b (team_safe hw).1] at hacc
    exact idle_setBank h.up hacc
  | global s y =>
    obtain ⟨w, hw, rfl⟩ := Verif.Chain.Chain.map_ok
      (show (Global.updateParams gov a.gw s y).map a.withGlobal = .ok a' from he)
    rw [updateParams_eq hw]
    exact idle_setBank h.up (fun _ => Nat.le_refl _)
  | send s d c =>
    obtain ⟨b, hb, rfl⟩ := exec_send he
    have e : (setBank a.chain b).b = b := setBank_b (safe_send hb ⟨by rintro ⟨⟩, by rintro ⟨⟩, by rintro ⟨⟩⟩)
    have hacc : ∀ d, (a.chain.b (.user u)).amt d ≤ ((setBank a.chain b).b (.user u)).amt d := hacc
    rw [e] at hacc
    exact idle_setBank h.up hacc

theorem idle_execAll {gov : Addr} {a a' : App} (h : Inv gov a) {ms : List Msg} (he : a.execAll gov ms = .ok a')
    (hs : SaneMsgs gov a ms) {u : Addr} {d : Denom} (hu : ∀ m ∈ ms, m.signer ≠ some u)
    (hl : ListedMsgs gov d a ms) : Idle gov u d a.chain a'.chain := by
  induction ms generalizing a with
  | nil => cases he; exact .refl
  | cons m l ih =>
    unfold App.execAll at he
    split at he
    · cases he
    · rename_i a1 h1
      have hx : Verif.Chain.Sane a1.chain := hs 1 a1 (by
        show App.execAll gov a [m] = _
        unfold App.execAll; rw [h1]; rfl)
      exact idle_trans (idle_exec h h1 hx (hu m (by simp)) (hl 0 a rfl))
        (ih (h.exec h1 hx).1 he (fun k a2 hk => hs (k + 1) a2 (by
          show App.execAll gov a (m :: l.take k) = _
          unfold App.execAll; rw [h1]; exact hk)) (fun m' hm => hu m' (by simp [hm])) (fun k a2 hk => hl (k + 1) a2 (by
          show App.execAll gov a (m :: l.take k) = _
          unfold App.execAll; rw [h1]; exact hk)))

theorem idle_runTx {gov : Addr} {a : App} (h : Inv gov a) {t : Tx} (hf : Fair gov a (.tx t)) {u : Addr} {d : Denom}
    (hu : ¬ TookPart t u) (hg : t.granter ≠ some u)
    (hl : StaysListed gov d a (.tx t)) : Idle gov u d a.chain (a.runTx gov t).chain := by
  rcases runTx_cases gov a t with e | ⟨hs, w1, h1, hh⟩
  · rw [e]; exact .refl
  · have hp : u ≠ feePayer t := by
      intro e
      have hp : t.payer ∈ t.signers := by
        unfold Tx.signed at hs
        simp only [Bool.and_eq_true] at hs
        simpa using hs.1.2
      unfold feePayer at e
      cases hgr : t.granter with
      | none => rw [hgr] at e; exact hu (Or.inl (e ▸ hp))
      | some g => rw [hgr] at e; exact hg (by rw [hgr, e]; rfl)
    obtain ⟨d1, -, -⟩ := deduct_fee h1
    have k1 : Idle gov u d a.chain (a.withGlobal w1).chain := idle_setBank h.up (fun d => by
      rw [(Bank.send_ok d1).2, if_neg (by rintro ⟨⟩; exact hp rfl), if_neg (by rintro ⟨⟩)]; omega)
    rcases hh with e | ⟨a2, w3, h2, h3, e⟩
    · rw [e]; exact k1
    · rw [e]
      have i2 := ((h.deduct h1).execAll h2 (hf w1 h1)).1
      refine idle_trans (idle_trans k1 (idle_execAll (h.deduct h1) h2 (hf w1 h1)
        (fun m hm hx => hu (tookPart hs hm hx)) (hl w1 h1))) (idle_setBank i2.up (fun d => ?_))
      obtain ⟨r1, -, -⟩ := refund_fee h3
      rcases r1 with rfl | ⟨c, r1, -⟩
      · exact Nat.le_refl _
      · rw [(Bank.send_ok r1).2, if_neg (by rintro ⟨⟩)]; omega

/-- x/mint's and x/team's part of the begin block -/
theorem idle_prelude {gov : Addr} {a : App} (h : Inv gov a) (dt p : Nat) (u : Addr) (d : Denom) :
    Idle gov u d a.chain ((a.mint p).teamBlock dt p).chain := by
  have k1 : Idle gov u d a.chain (a.mint p).chain := idle_setBank h.up (fun d => Nat.le_refl _)
  have k2 : Idle gov u d (a.mint p).chain ((a.mint p).teamBlock dt p).chain := by
    refine idle_setBank (h.mint p).up (fun d => ?_)
    obtain ⟨n, e⟩ := teamBlock_send (a.mint p) dt p
    rw [e]
    cases hsend : (a.mint p).chain.b.send (.mod .feeCollector) (.mod .team) (Coins.single kyve n) with
    | error e => exact Nat.le_refl _
    | ok b =>
      show _ ≤ (b (.user u)).amt d
      rw [(Bank.send_ok hsend).2, if_neg (by rintro ⟨⟩), if_neg (by rintro ⟨⟩)]; omega
  exact idle_trans k1 k2

theorem idle_begin {gov : Addr} {a : App} (h : Inv gov a) (dt p : Nat) (r : Bool)
    (hs : Verif.Chain.Sane (a.beginBlock dt p r).chain) (u : Addr) {d : Denom} (hl : Listed d a) :
    Idle gov u d a.chain (a.beginBlock dt p r).chain := by
  have i2 := (h.mint p).teamBlock dt p
  have hl2 : Listed d ((a.mint p).teamBlock dt p) := hl
  refine idle_trans (idle_prelude h dt p u d) ?_
  unfold App.beginBlock at hs ⊢
  generalize (a.mint p).teamBlock dt p = y at i2 hl2 hs ⊢
  rw [protocolBlock_chain] at hs ⊢
  have e := step_ok i2.up (exec_begin gov y.chain dt p (Team.blockProvision y.team p (y.supply.amt kyve)).1 r)
  rw [← e] at hs ⊢
  exact .step _ .refl rfl (by rintro ⟨⟩) hl2 hs

theorem idle_end {gov : Addr} {a : App} (h : Inv gov a) (hs : Verif.Chain.Sane a.endBlock.chain) (u : Addr) {d : Denom}
    (hl : Listed d a) : Idle gov u d a.chain a.endBlock.chain := by
  have e := step_ok (gov := gov) h.up (show Chain.exec gov a.chain .endBlock = .ok a.chain.endBlock from rfl)
  have hk : Verif.Chain.Sane a.chain.endBlock → Idle gov u d a.chain a.chain.endBlock := fun hs => by
    have := Idle.step (d := d) (a := u) .endBlock (.refl (gov := gov) (c := a.chain)) rfl (by rintro ⟨⟩) hl (by rw [e]; exact hs)
    rwa [e] at this
  unfold App.endBlock at hs ⊢
  by_cases hc : a.chain.endBlock.crashed = true
  · rw [if_pos hc] at hs ⊢
    exact hk hs
  · rw [if_neg hc] at hs ⊢
    have hc' : a.chain.endBlock.crashed = false := by simpa using hc
    refine idle_trans (hk ⟨hs.calm, hs.small⟩) (idle_setBank hc' (fun d => ?_))
    rcases burnt ({ a with chain := a.chain.endBlock } : App).gw with e | e | ⟨c, -, -, e⟩
    · rw [e]; exact Nat.le_refl _
    · rw [e]; exact Nat.le_refl _
    · rw [e]
      have e1 : (a.chain.endBlock.b.upd (.mod .feeCollector) ((a.chain.endBlock.b (.mod .feeCollector)).sub c)) (.user u) =
          a.chain.endBlock.b (.user u) := by
        unfold Bank.upd
        rw [if_neg (by rintro ⟨⟩)]
      exact Nat.le_of_eq (congrArg (·.amt d) e1.symm)

theorem idle_step {gov u : Addr} {d : Denom} {x : App} (h : Reachable gov x) (op : Op) (hp : Passive gov u x op)
    (hl : StaysListed gov d x op) (hf : Fair gov x op) (hs : Verif.Chain.Sane (x.step gov op).chain) :
    Idle gov u d x.chain (x.step gov op).chain := by
  cases hc : x.chain.crashed with
  | true => rw [step_down hc]; exact .refl
  | false =>
    have hi := h.up hc
    rw [step_up hc] at hs ⊢
    cases op with
    | tx t => exact idle_runTx hi hf hp.1 hp.2 hl
    | proposal ms =>
      show Idle gov u d x.chain (x.proposal gov ms).chain
      rcases proposal_cases gov x ms with e | ⟨hg, a', he, e⟩
      · rw [e]; exact .refl
      · rw [e]
        exact idle_execAll hi he hf (fun m hm hx => by
          rw [hg m hm] at hx
          injection hx with hx
          exact hp hx.symm) hl
    | beginBlock dt p r => exact idle_begin hi dt p r hs u hl
    | endBlock => exact idle_end hi hs u hl
    | outside b s g gd gs gf gt => exact .outside _ _ _ _ .refl hc (hp d)

theorem resting_reachable {gov u : Addr} {d : Denom} {a x : App} (h : Reachable gov a) (hw : Resting gov u d a x) :
    Reachable gov x := by
  induction hw with
  | refl => exact h
  | step op _ _ _ hf hs ih =>
    obtain ⟨a0, ops, hh⟩ := ih
    exact ⟨a0, ops ++ [op], hh.step op hf hs⟩

theorem resting_idle {gov u : Addr} {d : Denom} {a x : App} (h : Reachable gov a) (hw : Resting gov u d a x) :
    Idle gov u d a.chain x.chain := by
  induction hw with
  | refl => exact .refl
  | step op hw hp hl hf hs ih => exact idle_trans ih (idle_step (resting_reachable h hw) op hp hl hf hs)

/-- **C111** in the whole application: the funder has paid for every bundle that became final exactly what it promised, as far as
it had it; or another funder has taken its place and the rest is back on its account. -/
theorem C111_application (gov : Addr) (a x : App) (h : Reachable gov a) (id : Nat) (p : Pool.Pool)
    (hp : a.chain.pool.pools.get? id = some p) (u : Addr) (d : Denom) (hw : Resting gov u d a x) :
    PaidAll id u d a.chain x.chain ∨ PaidBack id u d a.chain x.chain :=
  Verif.Chain.Chain.C111_lasts gov a.chain x.chain h.inv.reach id p hp u d (resting_idle h hw)

end App

/-! ## a sample: funder 50 rests in the night of `App/Asleep.lean` -/

namespace Sample
open App

def listedMsgsB (d : Denom) (a : App) : List Msg → Bool
  | [] => a.chain.fund.params.listed d
  | m :: l => a.chain.fund.params.listed d && match a.exec gov m with
    | .error _ => true
    | .ok a' => listedMsgsB d a' l

theorem listed_of {d : Denom} {a : App} (h : a.chain.fund.params.listed d = true) : Listed d a :=
  (Funders.listed_iff a.chain.fw d).1 h

theorem listedMsgs_of {d : Denom} {a : App} {ms : List Msg} (h : listedMsgsB d a ms = true) : ListedMsgs gov d a ms := by
  induction ms generalizing a with
  | nil =>
    intro k a' hk
    rw [List.take_nil] at hk
    cases hk
    exact listed_of h
  | cons m l ih =>
    unfold listedMsgsB at h
    rw [Bool.and_eq_true] at h
    intro k a' hk
    cases k with
    | zero => cases hk; exact listed_of h.1
    | succ k =>
      rw [List.take_succ_cons] at hk
      unfold App.execAll at hk
      split at hk
      · cases hk
      · rename_i a1 h1
        have h2 := h.2
        rw [h1] at h2
        exact ih h2 k a' hk

def staysB (d : Denom) (a : App) : Op → Bool
  | .tx t => match Global.deductFee a.gw t.fees none with
    | .error _ => true
    | .ok w => listedMsgsB d (a.withGlobal w) t.msgs
  | .proposal ms => listedMsgsB d a ms
  | _ => a.chain.fund.params.listed d

theorem stays_of {d : Denom} {a : App} {op : Op} (h : staysB d a op = true) : StaysListed gov d a op := by
  cases op with
  | tx t =>
    intro w hw
    unfold staysB at h
    simp only [hw] at h
    exact listedMsgs_of h
  | proposal ms => exact listedMsgs_of h
  | outside | beginBlock | endBlock => exact listed_of h

/-- the side conditions of `Resting` for a run, as a test -/
def restRun (u : Addr) (d : Denom) (a : App) : List Op → Bool
  | [] => true
  | op :: l => passiveB u op && staysB d a op && fairB a op && saneB (a.step gov op).chain && restRun u d (a.step gov op) l

theorem run_resting {u : Addr} {d : Denom} {a0 a : App} (h : Resting gov u d a0 a) (l : List Op)
    (ho : restRun u d a l = true) : Resting gov u d a0 (run a l) := by
  induction l generalizing a with
  | nil => exact h
  | cons op l ih =>
    unfold restRun at ho
    simp only [Bool.and_eq_true] at ho
    obtain ⟨⟨⟨⟨h1, h2⟩, h3⟩, h4⟩, h5⟩ := ho
    exact ih (h.step op (passive_of h1) (stays_of h2) (fair_of h3) (sane_of h4)) h5

theorem night_rest : Resting gov 50 kyve slept (run slept night) := run_resting .refl _ (by decide +kernel)

/-- one bundle becomes final in the night: the funder pays for one -/
example : slept.chain.published 0 = 0 ∧ (run slept night).chain.published 0 = 1 ∧
    slept.chain.left 0 50 kyve = 2000000000 ∧ slept.chain.promised 0 50 kyve = 1000000 ∧
    (run slept night).chain.left 0 50 kyve = 1999000000 := by decide +kernel

example : ∃ p, slept.chain.pool.pools.get? 0 = some p ∧ (PaidAll 0 50 kyve slept.chain (run slept night).chain ∨
    PaidBack 0 50 kyve slept.chain (run slept night).chain) := by
  cases hp : slept.chain.pool.pools.get? 0 with
  | none => exact absurd (congrArg Option.isSome hp) (by decide +kernel)
  | some p => exact ⟨p, rfl, C111_application gov _ _ ⟨_, _, hist_slept⟩ 0 p hp 50 kyve night_rest⟩

end Sample
end Verif.App
