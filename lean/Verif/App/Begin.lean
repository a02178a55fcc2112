import Verif.App.TeamView
import Verif.Team.Required
import Verif.Chain.Inflation

/-!
# C95: the begin block of the whole application distributes what was minted

x/mint mints a block provision into the fee collector; x/team and x/bundles take their parts of it.
-/

set_option linter.dupNamespace false
namespace Verif.App
open Verif
open Verif.Chain (Chain)
open Spec

namespace App

/-- x/team's view of a history, with what its own invariants say -/
theorem team_facts {gov : Addr} {a0 a : App} {ops : List Op} (h : History gov a0 ops a) (hm : ∀ op ∈ ops, SaneTeam op)
    (hc : a.chain.crashed = false) (hh : a.teamHalted = false) :
    ∃ l : List Team.Op, (∀ o ∈ l, Team.Spec.SaneOp o) ∧
      Team.run (Team.World.init a0.chain.b a0.chain.now) l = a.tw ∧
      Team.Solv ((a0.chain.b (.mod .team)).amt kyve) a.tw ∧ Team.AllInv a.tw ∧ Team.Fresh a.tw.team := by
  obtain ⟨l, hl, hv⟩ := h.viewed hm hc
  have hf : (Team.run (Team.World.init a0.chain.b a0.chain.now) l).halted = false := by
    cases e : (Team.run (Team.World.init a0.chain.b a0.chain.now) l).halted with
    | false => rfl
    | true => rw [hv.halted e] at hh; cases hh
  have e : Team.run (Team.World.init a0.chain.b a0.chain.now) l = a.tw := by
    rw [hv.eq, hf]
    show (⟨_, _, _, false⟩ : Team.World) = ⟨_, _, _, a.teamHalted⟩
    rw [hh]
    rfl
  refine ⟨l, hl, e, ?_, ?_, ?_⟩
  · have h0 : Team.Solv ((a0.chain.b (.mod .team)).amt kyve) (Team.World.init a0.chain.b a0.chain.now) :=
      ⟨Nat.le_refl _, by simp [Team.Spec.credited, Team.Spec.paid, Team.Spec.balance, Team.World.init, Team.State.init]⟩
    rw [← e]
    exact h0.run (Team.AllInv.init _ _) (Team.Fresh.init _ _) hl hf
  · rw [← e]; exact (Team.AllInv.init _ _).run hl
  · rw [← e]; exact (Team.Fresh.init _ _).run l

/-- the reward of x/team does not get smaller with the balance it requires, and is at most the provision -/
theorem provision_mono {s s' : Team.State} {p n : Nat} (h : Team.requiredModuleBalance s ≤ Team.requiredModuleBalance s') :
    (Team.blockProvision s p n).1 ≤ (Team.blockProvision s' p n).1 := by
  unfold Team.blockProvision
  simp only
  apply Dec.trunc_mono
  apply Dec.mul_mono
  unfold Dec.quo
  apply Dec.chop_mono
  apply Nat.div_le_div_right
  unfold Dec.ofNat
  gcongr

theorem provision_le {s : Team.State} {p n : Nat} (h : Team.requiredModuleBalance s ≤ n - p) :
    (Team.blockProvision s p n).1 ≤ p ∧ (Team.blockProvision s p n).2 = false := by
  have hshare : Dec.quo (Dec.ofNat (Team.requiredModuleBalance s)) (Dec.ofNat (n - p)) ≤ Dec.one := by
    unfold Dec.quo Dec.ofNat
    apply Dec.chop_le_of_le
    apply Nat.div_le_of_le_mul
    calc Team.requiredModuleBalance s * Dec.one * Dec.one * Dec.one
        ≤ (n - p) * Dec.one * Dec.one * Dec.one := by gcongr
      _ = (n - p) * Dec.one * (Dec.one * Dec.one) := by ring
  refine ⟨?_, decide_eq_false (Nat.not_lt_of_le hshare)⟩
  unfold Team.blockProvision
  simp only
  rw [Dec.mul_ofNat]
  apply Dec.trunc_le
  rw [Nat.mul_comm p]
  exact Nat.mul_le_mul_right _ hshare

/-- C95: the balance x/team says it requires is its genesis allocation plus the credited rewards minus what it paid; its
account holds at least that, and the supply is at least that. -/
theorem C95_required (gov : Addr) (a0 a : App) (ops : List Op) (h : History gov a0 ops a) (hm : ∀ op ∈ ops, SaneTeam op)
    (hc : a.chain.crashed = false) (hh : a.teamHalted = false)
    (h0 : Team.ALLOCATION ≤ (a0.chain.b (.mod .team)).amt kyve) (hi : Team.Spec.totalIssued a.team ≤ Team.ALLOCATION)
    (hS : a.supply.amt kyve < 2 ^ 64) :
    Team.Spec.paid a.team ≤ Team.ALLOCATION + Team.Spec.credited a.team ∧
    Team.requiredModuleBalance a.team = Team.ALLOCATION + Team.Spec.credited a.team - Team.Spec.paid a.team ∧
    Team.requiredModuleBalance a.team ≤ (a.chain.b (.mod .team)).amt kyve ∧
    (a.chain.b (.mod .team)).amt kyve ≤ a.supply.amt kyve := by
  obtain ⟨l, -, -, hs, ha, -⟩ := team_facts h hm hc hh
  have hb : (a0.chain.b (.mod .team)).amt kyve + Team.Spec.credited a.team ≤
    (a.chain.b (.mod .team)).amt kyve + Team.Spec.paid a.team := hs.bal
  have hk := C93_account gov a ⟨a0, ops, h⟩ (.mod .team) kyve
  obtain ⟨r1, r2⟩ := Team.required_eq (w := a.tw) ha hs.auth hi (by
    show Team.ALLOCATION + Team.Spec.credited a.team < twoPow64 + Team.Spec.paid a.team
    unfold twoPow64
    omega)
  have r1 : Team.Spec.paid a.team ≤ Team.ALLOCATION + Team.Spec.credited a.team := r1
  have r2 : Team.requiredModuleBalance a.team = Team.ALLOCATION + Team.Spec.credited a.team - Team.Spec.paid a.team := r2
  exact ⟨r1, r2, by omega, hk⟩

theorem paid_distribute (w : Team.World) (p n : Nat) :
    Team.Spec.paid (Team.distribute w p n).team = Team.Spec.paid w.team := by
  have e2 := Team.credit_sum (f := fun a => a.unlockedClaimed + a.rewardsClaimed) (now := w.now)
    (r := (Team.blockProvision w.team p n).1)
    (fun _ _ => rfl) w.team.accounts.toList w.team.accounts (Team.entries_ok _) w.team.accounts.keys_nodup
  unfold Team.Spec.paid
  rw [Team.distribute_accounts, Team.distribute_claimed, e2]

/-- x/team's transfer, if the chain was not halted -/
theorem distribute_moves (w : Team.World) (p n : Nat) (h : (Team.distribute w p n).halted = false) :
    w.bank.send (.mod .feeCollector) (.mod .team) (Coins.single kyve (Team.blockProvision w.team p n).1) =
      .ok (Team.distribute w p n).bank := by
  rw [Team.distribute_halted] at h
  obtain ⟨-, -, -, h4⟩ := Team.or4 h
  rw [Team.distribute_bank]
  cases hb : w.bank.send (.mod .feeCollector) (.mod .team) (Coins.single kyve (Team.blockProvision w.team p n).1) with
  | error e => rw [hb] at h4; cases h4
  | ok b => rfl

theorem inflTransfers_frame (l : List (Nat × Nat)) {c c' : Chain} (h : Chain.Chain.inflTransfers l c = some c') {x : Acct}
    (h1 : x ≠ .mod .feeCollector) (h2 : ∀ id, x ≠ .pool id) : c'.b x = c.b x := by
  induction l generalizing c with
  | nil => injection h with h; rw [h]
  | cons t l ih =>
    unfold Chain.Chain.inflTransfers at h
    split at h
    · cases h
    · rename_i d hd
      rw [ih h]
      unfold Chain.Chain.inflTransfer at hd
      split at hd
      · cases hd
        exact Bank.orKeep_ne h1 (h2 _)
      · cases hd

/-- the begin block of the protocol leaves x/team's account alone -/
theorem beginBlock_frame {c : Chain} {dt p t : Nat} {r : Bool} (h : (c.beginBlock dt p t r).crashed = false) :
    (c.beginBlock dt p t r).b (.mod .team) = c.b (.mod .team) := by
  have e0 : c.beginBlock dt p t r = c.afterSplit r ((c.newBlock dt r).splitInflation p t) := by rw [Chain.Chain.beginBlock]
  rw [e0] at h ⊢
  cases hs : (c.newBlock dt r).splitInflation p t with
  | none => rw [hs] at h; cases h
  | some d =>
    rw [Chain.Chain.afterSplit_some, Chain.Chain.queues_outside d r ⟨by decide, by decide, by decide, (fun u e => by cases e)⟩]
    rw [Chain.Chain.split_eq] at hs
    rw [inflTransfers_frame _ hs (by decide) (by rintro _ ⟨⟩), Chain.Chain.newBlock_b]

theorem external_runners (c : Chain) (b : Bank) (x y z : Coins) (n : Nat) :
    ({ c.external b x y z with now := n } : Chain).runners = ({ c with now := n } : Chain).runners := rfl

theorem external_stoppers (c : Chain) (b : Bank) (x y z : Coins) (n : Nat) :
    ({ c.external b x y z with now := n } : Chain).stoppers = ({ c with now := n } : Chain).stoppers := rfl

theorem reserved_le {c : Chain} {p t : Nat} (h : c.pool.params.protocolInflationShare ≤ Dec.one) :
    c.reserved p t ≤ p - t := by
  unfold Chain.Chain.reserved
  apply Dec.trunc_le
  exact Dec.mul_le_left h

/-- **C95.** Let at most one pool be unable to run at the new block time, and let the provision be small enough for the
decimals; let others than x/team own at least the provision.  Then the begin block neither crashes nor schedules a halt,
x/team and the pools together get at most the provision, and the fee collector keeps exactly what they did not get. -/
theorem C95_begin_block (gov : Addr) (a0 a : App) (ops : List Op) (h : History gov a0 ops a)
    (hm : ∀ op ∈ ops, SaneTeam op) (hc : a.chain.crashed = false) (hh : a.teamHalted = false)
    (hch : a.chain.halted = false) (h0 : Team.ALLOCATION ≤ (a0.chain.b (.mod .team)).amt kyve)
    (hi : Team.Spec.totalIssued a.team ≤ Team.ALLOCATION) (dt p : Nat) (restarted : Bool)
    (hS : a.supply.amt kyve + p < 2 ^ 63)
    (hbal : Team.requiredModuleBalance a.team + p ≤ a.supply.amt kyve)
    (hn : p * a.team.accounts.size < 2 * Dec.one)
    (h1 : ({ a.chain with now := a.chain.now + dt } : Chain).runners.length * p < 2 * Dec.one)
    (h2 : ({ a.chain with now := a.chain.now + dt } : Chain).stoppers.length ≤ 1) :
    (a.beginBlock dt p restarted).chain.crashed = false ∧ (a.beginBlock dt p restarted).chain.halted = false ∧
    (a.beginBlock dt p restarted).teamHalted = false ∧
    ∃ (team : Nat) (paid : Nat → Nat),
      team + (a.chain.pool.pools.keys.map paid).sum ≤ p ∧
      ((a.beginBlock dt p restarted).chain.b (.mod .team)).amt kyve = (a.chain.b (.mod .team)).amt kyve + team ∧
      (∀ id, ((a.beginBlock dt p restarted).chain.b (.pool id)).amt kyve = (a.chain.b (.pool id)).amt kyve + paid id) ∧
      ((a.beginBlock dt p restarted).chain.b (.mod .feeCollector)).amt kyve + (team + (a.chain.pool.pools.keys.map paid).sum) =
        (a.chain.b (.mod .feeCollector)).amt kyve + p := by
  obtain ⟨q1, q2, q3, q4⟩ := C95_required gov a0 a ops h hm hc hh h0 hi (by omega)
  obtain ⟨l, hl, hrun, hsolv, hall, hfresh⟩ := team_facts h hm hc hh
  have hsup : (a.mint p).supply.amt kyve = a.supply.amt kyve + p := by
    show (a.supply.add (Coins.single kyve p)).amt kyve = _
    rw [Coins.amt_add, Coins.amt_single, if_pos rfl]
  have hreq : Team.requiredModuleBalance a.team ≤ (a.mint p).supply.amt kyve - p := by rw [hsup]; omega
  -- x/team
  obtain ⟨t1, r, t2, t3, t4⟩ := Team.C45_split_exact a0.chain.b a0.chain.now l hl dt p ((a.mint p).supply.amt kyve) a.tw hrun.symm
    hi hreq hn (by omega)
  have htick : Team.tick a.tw dt p = (a.mint p).twAt dt := by
    unfold Team.tick App.twAt App.tw
    rw [mint_b]
    rfl
  have hstep : Team.step a.tw (.block dt p ((a.mint p).supply.amt kyve)) =
      Team.distribute ((a.mint p).twAt dt) p ((a.mint p).supply.amt kyve) := by rw [← htick]; rfl
  have hall' : Team.AllInv (Team.step a.tw (.block dt p ((a.mint p).supply.amt kyve))) := hall.step trivial
  have hhalt' : (Team.step a.tw (.block dt p ((a.mint p).supply.amt kyve))).halted = false := t1.trans hh
  have hsolv' : Team.Solv ((a0.chain.b (.mod .team)).amt kyve) (Team.step a.tw (.block dt p ((a.mint p).supply.amt kyve))) :=
    hsolv.step hall hfresh hhalt'
  have hiss' := Team.issued_step (w := a.tw) hi hall hfresh (op := .block dt p ((a.mint p).supply.amt kyve)) trivial trivial
  rw [hstep] at t1 t3 t4 hall' hhalt' hsolv' hiss'
  have hb : ((a.mint p).teamBlock dt p).chain.b =
    (Team.distribute ((a.mint p).twAt dt) p ((a.mint p).supply.amt kyve)).bank := teamBlock_b _ _ _
  have hteam : ((a.mint p).teamBlock dt p).team =
    (Team.distribute ((a.mint p).twAt dt) p ((a.mint p).supply.amt kyve)).team := rfl
  have hsend := distribute_moves _ _ _ hhalt'
  rw [← hb] at hsend
  have hmb : ((a.mint p).twAt dt).bank = _ := mint_b a p
  rw [hmb] at hsend
  have hpaid' := paid_distribute ((a.mint p).twAt dt) p ((a.mint p).supply.amt kyve)
  -- the reward of x/team
  have hr1 : Team.blockProvision ((a.mint p).twAt dt).team p ((a.mint p).supply.amt kyve) =
    Team.blockProvision a.team p ((a.mint p).supply.amt kyve) := rfl
  rw [hr1] at hsend
  have hx : ∃ x : App, x = (a.mint p).teamBlock dt p := ⟨_, rfl⟩
  obtain ⟨x, ex⟩ := hx
  have hxr : ({ x.chain with now := x.chain.now + dt } : Chain).runners =
      ({ a.chain with now := a.chain.now + dt } : Chain).runners := by rw [ex]; rfl
  have hxs : ({ x.chain with now := x.chain.now + dt } : Chain).stoppers =
      ({ a.chain with now := a.chain.now + dt } : Chain).stoppers := by rw [ex]; rfl
  have hxp : x.chain.pool = a.chain.pool := by rw [ex]; rfl
  have hxc : x.chain.crashed = false := by rw [ex]; exact hc
  have hxh : x.chain.halted = false := by rw [ex]; exact hch
  have hxt : x.teamHalted = false := by rw [ex]; exact hhalt'
  have hxu : x.supply = (a.mint p).supply := by rw [ex]; rfl
  rw [← hteam] at t3 hiss' hpaid'
  have t4 : (((a.mint p).teamBlock dt p).chain.b (.mod .team)).amt kyve = (a.chain.b (.mod .team)).amt kyve + r := by
    rw [hb]; exact t4
  have hpaid' : Team.Spec.paid ((a.mint p).teamBlock dt p).team = Team.Spec.paid a.team := hpaid'
  have hc3 : ((a.mint p).teamBlock dt p).team.authClaimed ≤ ((a.mint p).teamBlock dt p).team.authTotal := by
    rw [hteam]; exact hsolv'.auth
  have t3 : Team.Spec.credited ((a.mint p).teamBlock dt p).team = Team.Spec.credited a.team + r := t3
  obtain ⟨-, u2⟩ := Team.required_eq hall' hsolv'.auth (by rw [← hteam]; exact hiss') (by
    rw [← hteam, t3, hpaid']
    unfold twoPow64
    omega)
  rw [← hteam, t3, hpaid'] at u2
  rw [← ex] at hsend t4 u2
  have eb : a.beginBlock dt p restarted = x.protocolBlock dt p restarted := by
    rw [App.beginBlock, ← ex]
  rw [eb]
  clear eb hb hteam hstep hall' hhalt' hsolv' hiss' t1 t3 hpaid' hmb hr1 htick hc3
  have hsup' : x.supply.amt kyve = a.supply.amt kyve + p := by rw [hxu, hsup]
  rw [hsup] at hsend
  have hgood : x.chain.pool.params.protocolInflationShare ≤ Dec.one := by
    rw [hxp]
    have hv := Pool.C39_params_valid gov _ (Verif.Chain.Reachable.good h.inv.reach).mods.pool
    unfold Pool.Params.validate at hv
    rw [Bool.and_eq_true, Bool.and_eq_true] at hv
    exact of_decide_eq_true hv.1.1
  clear ex
  -- the amount of the first transfer
  obtain ⟨s1, s2⟩ := Bank.send_ok hsend
  have e1 := s2 (.mod .team) kyve
  have e2 := s2 (.mod .feeCollector) kyve
  have e3 : ∀ id, x.chain.b (.pool id) = a.chain.b (.pool id) := fun id => by
    rw [Bank.send_ne hsend (by rintro ⟨⟩) (by rintro ⟨⟩)]; rfl
  have s1 := s1 kyve
  have f1 : (a.chain.b.upd (.mod .feeCollector) ((a.chain.b (.mod .feeCollector)).add (Coins.single kyve p)))
    (.mod .feeCollector) = (a.chain.b (.mod .feeCollector)).add (Coins.single kyve p) := rfl
  have f2 : (a.chain.b.upd (.mod .feeCollector) ((a.chain.b (.mod .feeCollector)).add (Coins.single kyve p)))
    (.mod .team) = a.chain.b (.mod .team) := rfl
  have hp2 := provision_le (s := x.team) (p := p) (n := x.supply.amt kyve) (by rw [hsup', u2]; omega)
  have hp1 := provision_mono (s := a.team) (s' := x.team) (p := p) (n := x.supply.amt kyve) (by rw [u2]; omega)
  rw [← hsup'] at s1 e1 e2
  rw [f1, if_pos rfl, if_neg (by rintro ⟨⟩), Coins.amt_add, Chain.Chain.amt_single, Chain.Chain.amt_single, Nat.add_zero] at e2
  rw [f2, if_neg (by rintro ⟨⟩), if_pos rfl, Chain.Chain.amt_single, Nat.sub_zero] at e1
  rw [f1, Coins.amt_add, Chain.Chain.amt_single, Chain.Chain.amt_single] at s1
  have hqr : (Team.blockProvision a.team p (x.supply.amt kyve)).1 = r := by omega
  rw [hqr] at e2 hp1 s1
  have e2 : (x.chain.b (.mod .feeCollector)).amt kyve + r = (a.chain.b (.mod .feeCollector)).amt kyve + p := by
    clear hsend; omega
  -- the protocol
  have hres := reserved_le (c := x.chain) (p := p) (t := (Team.blockProvision x.team p (x.supply.amt kyve)).1) hgood
  have hft : (x.protocolBlock dt p restarted).teamHalted = false := by
    show (x.teamHalted || _) = false
    rw [hxt, hp2.2]; rfl
  refine ⟨?_, ?_, hft, ?_⟩
  all_goals rw [protocolBlock_chain]
  all_goals generalize (Team.blockProvision x.team p (x.supply.amt kyve)).1 = te at *
  all_goals
    have hlen : ({ x.chain with now := x.chain.now + dt } : Chain).runners.length * x.chain.reserved p te < 2 * Dec.one := by
      rw [hxr]
      exact lt_of_le_of_lt (Nat.mul_le_mul_left _ (by omega)) h1
    have hst : ({ x.chain with now := x.chain.now + dt } : Chain).stoppers.length ≤ 1 := by rw [hxs]; exact h2
    have hcov := Chain.Chain.C29_covered x.chain dt p te restarted (by omega) hlen hst (by omega)
  · rw [hcov.1]; exact hxc
  · rw [hcov.2]; exact hxh
  · have k1 := hcov.1.trans hxc
    obtain ⟨paid, i1, i2, i3⟩ := Chain.Chain.C29_chain x.chain dt p te restarted k1 (hcov.2.trans hxh)
    have htot := i1.total (by unfold twoPow64; omega) hlen hst
    have htot : (a.chain.pool.pools.keys.map paid).sum ≤ x.chain.reserved p te := by rw [← hxp]; exact htot
    rw [hxp] at i3
    refine ⟨r, paid, by omega, ?_, fun id => ?_, by omega⟩
    · rw [beginBlock_frame k1]; exact t4
    · rw [i2 id, e3 id]

end App
end Verif.App
