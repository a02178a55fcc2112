import Verif.App.Properties
import Verif.Team.Properties

/-!
# C97: x/team inside the application

Every history of the application is, for x/team, one of its own histories (`Verif/Team/Model.lean`) in which everything
else acts from outside, so that the properties of x/team (C42-C45) hold in the whole application.
-/

set_option linter.dupNamespace false
namespace Verif.Chain
open Verif
namespace Chain

/-! ## only blocks move the clock -/

theorem now_micro {gov : Addr} {c : Chain} (μ : Micro) (hj : μ.judging = true) : (μ.run gov c).now = c.now := by
  cases μ with
  | finalize id v => exact finalize_now c id v
  | register m n =>
    show (c.register m n).now = c.now
    unfold register; split <;> rfl
  | del | st | fund | pool | pay | blank | next | cast | progress | crash => rfl
  | _ => cases hj

theorem now_steps {gov : Addr} {c c' : Chain} (h : JSteps gov c c') : c'.now = c.now := by
  induction h with
  | refl => rfl
  | cons μ _ _ hj _ ih => rw [now_micro μ hj, ih]

theorem kickAll_now (l : List Addr) (id : Nat) (c : Chain) : (c.kickAll id l).now = c.now := by
  induction l generalizing c with
  | nil => rfl
  | cons a l ih =>
    unfold kickAll
    exact (ih _).trans rfl

theorem now_exec (gov : Addr) (c c' : Chain) (h : Reachable gov c) (op : Op) (ho : op.inner = true)
    (hb : op.begins = false) (he : exec gov c op = .ok c') : c'.now = c.now := by
  have hs := (Reachable.good h).sound
  cases op with
  | submit m => exact now_steps (submit_steps (gov := gov) hs.mem he)
  | vote m => exact now_steps (vote_steps (gov := gov) hs.mem he)
  | skip m => exact now_steps (skip_steps (gov := gov) hs he)
  | claim x y id => exact now_steps (claim_steps (gov := gov) hs.mem he)
  | endBlock =>
    injection he with he
    rw [← he]
    exact now_steps (endBlock_steps (gov := gov) hs.mem)
  | createStaker x k n =>
    have he' : c.createStaker x k n = .ok c' := he
    unfold createStaker at he'
    split at he'
    · cases he'
    · split at he'
      · cases he'
      · cases he'; rfl
  | join m =>
    obtain ⟨w, hw, rfl⟩ := join_eq he
    show ((c.withSt (Stakers.noteGift m c.sw w)).noteGifts m).now = c.now
    rfl
  | leave | updateCommission | updateMetadata | createFunder | updatePool | enablePool | scheduleUpgrade | cancelUpgrade
    | bundlesParams | stakersParams | poolParams | fundersParams | claimRewards | delegate | redelegate | undelegate
    | withdraw | fund | defund | delegationParams =>
    obtain ⟨s, hr, rfl⟩ := map_ok he
    rfl
  | createPool m =>
    obtain ⟨s, -, rfl⟩ := createPool_eq he
    rfl
  | disablePool x id =>
    have he' : disablePool gov c x id = .ok c' := he
    unfold disablePool at he'
    split at he'
    · cases he'
    · unfold drain at he'
      split at he'
      · cases he'
        exact kickAll_now _ _ _
      · split at he'
        · cases he'
        · split at he'
          · cases he'
          · cases he'
            exact kickAll_now _ _ _
  | beginBlock => cases hb
  | external b gd gs gf => cases ho

end Chain
end Verif.Chain

namespace Verif.App
open Verif
open Verif.Chain (Chain)
open Spec

namespace App

/-- x/team's own history `w` agrees with the application -/
structure Views (a : App) (w : Team.World) : Prop where
  team : w.team = a.team
  bank : w.bank = a.chain.b
  now : w.now = a.chain.now
  halted : w.halted = true → a.teamHalted = true

/-- the messages of x/team in an operation have in-range numbers -/
def SaneTeam (op : Op) : Prop := ∀ m : TeamMsg, .team m ∈ op.msgs → Team.Spec.SaneOp m.op

/-- a history of x/team that agrees with the application, starting with the balances `b` at time `now` -/
def Viewed (b : Bank) (now : Nat) (a : App) : Prop :=
  ∃ l : List Team.Op, (∀ o ∈ l, Team.Spec.SaneOp o) ∧ Views a (Team.run (Team.World.init b now) l)

theorem Viewed.step {b : Bank} {now : Nat} {a' : App} {w : Team.World} {l : List Team.Op} {o : Team.Op}
    (hl : ∀ o ∈ l, Team.Spec.SaneOp o) (hw : Team.run (Team.World.init b now) l = w) (ho : Team.Spec.SaneOp o)
    (hv : Views a' (Team.step w o)) : Viewed b now a' := by
  refine ⟨l ++ [o], ?_, ?_⟩
  · intro x hx
    rcases List.mem_append.1 hx with hx | hx
    · exact hl x hx
    · rw [List.mem_singleton.1 hx]; exact ho
  · unfold Team.run at hw ⊢
    rw [List.foldl_append, hw]
    exact hv

/-- other modules: x/team's account loses nothing -/
theorem Viewed.outside {b : Bank} {now : Nat} {a a' : App} (h : Viewed b now a) (ht : a'.team = a.team)
    (hn : a'.chain.now = a.chain.now) (hh : a.teamHalted = true → a'.teamHalted = true)
    (hb : ∀ d, (a.chain.b (.mod .team)).amt d ≤ (a'.chain.b (.mod .team)).amt d) : Viewed b now a' := by
  obtain ⟨l, hl, hv⟩ := h
  refine Viewed.step (o := .external a'.chain.b ((a'.chain.b (.mod .team)).sub (a.chain.b (.mod .team)))) hl rfl trivial ?_
  generalize Team.run (Team.World.init b now) l = w at hv
  refine ⟨hv.team.trans ht.symm, ?_, hv.now.trans hn.symm, fun h => hh (hv.halted h)⟩
  funext x
  show (if x = .mod .team then _ else _) = _
  split
  · rename_i e
    rw [hv.bank, e]
    exact coins_sub_add hb
  · rfl

theorem Viewed.onlyFee {b : Bank} {now : Nat} {a a' : App} {x : Addr} (h : Viewed b now a) (hf : OnlyFee x a a') :
    Viewed b now a' := by
  have e := hf.1
  refine h.outside (by rw [e]) (by rw [e]) (by rw [e]; exact id) fun d => ?_
  rw [hf.2 _ (by rintro ⟨⟩) (by rintro ⟨⟩)]

theorem team_step {w w' : Team.World} {m : TeamMsg} (h : m.exec w = .ok w') : Team.step w m.op = w' := by
  cases m with
  | create x t c => show Team.orElse w (Team.create w x t c) = w'; rw [show Team.create w x t c = .ok w' from h]; rfl
  | claimUnlocked x i n r =>
    show Team.orElse w (Team.claimUnlocked w x i n r) = w'; rw [show Team.claimUnlocked w x i n r = .ok w' from h]; rfl
  | clawback x i c => show Team.orElse w (Team.clawback w x i c) = w'; rw [show Team.clawback w x i c = .ok w' from h]; rfl
  | claimAccountRewards x i n r =>
    show Team.orElse w (Team.claimAccountRewards w x i n r) = w'
    rw [show Team.claimAccountRewards w x i n r = .ok w' from h]; rfl
  | claimAuthorityRewards x n r =>
    show Team.orElse w (Team.claimAuthorityRewards w x n r) = w'
    rw [show Team.claimAuthorityRewards w x n r = .ok w' from h]; rfl

/-- replacing the halt flag of x/team commutes with its messages -/
theorem team_flag {w w' : Team.World} {m : TeamMsg} (h : m.exec w = .ok w') (f : Bool) :
    m.exec { w with halted := f } = .ok { w' with halted := f } := by
  cases m with
  | create x t c =>
    have h : Team.create w x t c = .ok w' := h
    show Team.create _ x t c = _
    unfold Team.create at h ⊢
    split at h
    · cases h
    · rename_i e1
      rw [if_neg e1]
      split at h
      · cases h
      · rename_i e2
        rw [if_neg e2]
        split at h
        · cases h
        · rename_i e3
          rw [if_neg e3]
          cases h; rfl
  | claimUnlocked x i n r =>
    have h : Team.claimUnlocked w x i n r = .ok w' := h
    show Team.claimUnlocked _ x i n r = _
    unfold Team.claimUnlocked at h ⊢
    split at h
    · cases h
    · rename_i e1
      rw [if_neg e1]
      split at h
      · cases h
      · rename_i acc e2
        simp only [e2]
        split at h
        · cases h
        · rename_i e3
          rw [if_neg e3]
          have ep : Team.payOut { w with halted := f } r n = Team.payOut w r n := rfl
          rw [ep]
          split at h
          · cases h
          · cases h; rfl
  | clawback x i c =>
    have h : Team.clawback w x i c = .ok w' := h
    show Team.clawback _ x i c = _
    unfold Team.clawback at h ⊢
    split at h
    · cases h
    · rename_i e1
      rw [if_neg e1]
      split at h
      · cases h
      · rename_i acc e2
        simp only [e2]
        split at h
        · cases h
        · rename_i e3
          rw [if_neg e3]
          split at h
          · cases h
          · rename_i e4
            rw [if_neg e4]
            cases h; rfl
  | claimAccountRewards x i n r =>
    have h : Team.claimAccountRewards w x i n r = .ok w' := h
    show Team.claimAccountRewards _ x i n r = _
    unfold Team.claimAccountRewards at h ⊢
    split at h
    · cases h
    · rename_i e1
      rw [if_neg e1]
      split at h
      · cases h
      · rename_i acc e2
        simp only [e2]
        split at h
        · cases h
        · rename_i e3
          rw [if_neg e3]
          have ep : Team.payOut { w with halted := f } r n = Team.payOut w r n := rfl
          rw [ep]
          split at h
          · cases h
          · cases h; rfl
  | claimAuthorityRewards x n r =>
    have h : Team.claimAuthorityRewards w x n r = .ok w' := h
    show Team.claimAuthorityRewards _ x n r = _
    unfold Team.claimAuthorityRewards at h ⊢
    split at h
    · cases h
    · rename_i e1
      rw [if_neg e1]
      split at h
      · cases h
      · rename_i e3
        rw [if_neg e3]
        have ep : Team.payOut { w with halted := f } r n = Team.payOut w r n := rfl
        rw [ep]
        split at h
        · cases h
        · cases h; rfl

theorem Views.eq {a : App} {w : Team.World} (h : Views a w) : w = { a.tw with halted := w.halted } := by
  obtain ⟨t, b, n, f⟩ := w
  have h1 : t = a.team := h.team
  have h2 : b = a.chain.b := h.bank
  have h3 : n = a.chain.now := h.now
  subst h1 h2 h3
  rfl

theorem Viewed.exec {b : Bank} {now : Nat} {gov : Addr} {a a' : App} (h : Viewed b now a) (hi : Inv gov a) {m : Msg}
    (he : a.exec gov m = .ok a') (hm : ∀ t, m = .team t → Team.Spec.SaneOp t.op) : Viewed b now a' := by
  cases m with
  | team t =>
    obtain ⟨w, hw, rfl⟩ := Chain.Chain.map_ok (show (t.exec a.tw).map a.withTeam = .ok a' from he)
    obtain ⟨l, hl, hv⟩ := h
    refine Viewed.step hl rfl (hm t rfl) ?_
    generalize Team.run (Team.World.init b now) l = v at hv
    have ev := hv.eq
    have hx := team_flag hw v.halted
    rw [← ev] at hx
    rw [team_step hx]
    obtain ⟨t1, t2, -⟩ := team_bank hw
    refine ⟨rfl, (withTeam_b (team_safe hw).1).symm, t1, fun hh => ?_⟩
    show w.halted = true
    rw [t2]
    exact hv.halted hh
  | protocol op =>
    have hsp := exec_spends hi he (.mod .team) (by rintro ⟨t, ⟨⟩⟩)
    obtain ⟨hsig, c, hc, rfl⟩ := exec_protocol he
    have hb : op.begins = false := by cases op <;> first | rfl | exact absurd rfl hsig
    exact h.outside rfl (Chain.Chain.now_exec gov a.chain c hi.reach op (inner_of_signed hsig) hb hc) id hsp
  | global s y =>
    obtain ⟨-, e, -⟩ := exec_global he
    exact h.outside (by rw [e]) (by rw [e]) (by rw [e]; exact id) fun d => by rw [e]
  | send s d c =>
    have hsp := exec_spends hi he (.mod .team) (by rintro ⟨t, ⟨⟩⟩)
    obtain ⟨b', hb, rfl⟩ := exec_send he
    exact h.outside rfl rfl id hsp

theorem Viewed.execAll {b : Bank} {now : Nat} {gov : Addr} {a a' : App} (h : Viewed b now a) (hi : Inv gov a) {ms : List Msg}
    (he : a.execAll gov ms = .ok a') (hs : SaneMsgs gov a ms) (hm : ∀ t : TeamMsg, .team t ∈ ms → Team.Spec.SaneOp t.op) :
    Viewed b now a' := by
  induction ms generalizing a with
  | nil => cases he; exact h
  | cons m l ih =>
    unfold App.execAll at he
    split at he
    · cases he
    · rename_i a1 h1
      obtain ⟨s1, s2⟩ := saneMsgs_tail hs h1
      exact ih (h.exec hi h1 fun t e => hm t (by rw [e]; exact List.mem_cons_self ..)) (hi.exec h1 s1).1 he s2
        fun t ht => hm t (List.mem_cons_of_mem _ ht)

theorem distribute_flag (w : Team.World) (p s : Nat) (f : Bool) :
    (Team.distribute { w with halted := f } p s).team = (Team.distribute w p s).team ∧
    (Team.distribute { w with halted := f } p s).bank = (Team.distribute w p s).bank := ⟨rfl, rfl⟩

theorem teamBlock_b (a : App) (dt p : Nat) : (a.teamBlock dt p).chain.b =
    (Team.distribute (a.twAt dt) p (a.supply.amt kyve)).bank := by
  obtain ⟨n, e⟩ := teamBlock_send a dt p
  exact withTeam_b (by rw [e]; exact safe_orKeep (by decide))

/-- the clock after the begin block -/
theorem beginBlock_now {c : Chain} {dt p t : Nat} {r : Bool} (h : (c.beginBlock dt p t r).crashed = false) :
    (c.beginBlock dt p t r).now = c.now + dt := by
  unfold Chain.Chain.beginBlock at h ⊢
  cases hx : (c.newBlock dt r).splitInflation p t with
  | none => rw [hx] at h; cases h
  | some x =>
    obtain ⟨b, hl, rfl, hk⟩ := Chain.Chain.splitInflation_eq hx
    rfl

theorem Viewed.begin {b : Bank} {now : Nat} {a : App} (h : Viewed b now a) (dt p : Nat) (r : Bool)
    (hc : (a.beginBlock dt p r).chain.crashed = false) : Viewed b now (a.beginBlock dt p r) := by
  -- x/mint and x/team
  have h1 : ∃ l : List Team.Op, (∀ o ∈ l, Team.Spec.SaneOp o) ∧ ∃ w, Team.run (Team.World.init b now) l = w ∧
      w.team = ((a.mint p).teamBlock dt p).team ∧ w.bank = ((a.mint p).teamBlock dt p).chain.b ∧
      w.now = a.chain.now + dt ∧ (w.halted = true → ((a.mint p).teamBlock dt p).teamHalted = true) := by
    obtain ⟨l, hl, hv⟩ := h
    refine ⟨l ++ [.block dt p ((a.mint p).supply.amt kyve)], ?_, _, rfl, ?_⟩
    · intro x hx
      rcases List.mem_append.1 hx with hx | hx
      · exact hl x hx
      · rw [List.mem_singleton.1 hx]; exact trivial
    · unfold Team.run at hv ⊢
      rw [List.foldl_append]
      generalize List.foldl Team.step (Team.World.init b now) l = v at hv
      have ev : Team.tick v dt p = { (a.mint p).twAt dt with halted := v.halted } := by
        unfold Team.tick App.twAt App.tw
        rw [mint_b, hv.bank, hv.now]
        show (⟨v.team, _, _, _⟩ : Team.World) = ⟨a.team, _, _, _⟩
        rw [hv.team]
        rfl
      have es : List.foldl Team.step v [.block dt p ((a.mint p).supply.amt kyve)] =
          Team.distribute (Team.tick v dt p) p ((a.mint p).supply.amt kyve) := rfl
      rw [es, ev]
      refine ⟨rfl, ?_, rfl, ?_⟩
      · rw [teamBlock_b]; rfl
      · intro hh
        show (Team.distribute ((a.mint p).twAt dt) p ((a.mint p).supply.amt kyve)).halted = true
        rw [Team.distribute_halted] at hh ⊢
        simp only [Bool.or_eq_true] at hh ⊢
        rcases hh with ((hh | hh) | hh) | hh
        · exact Or.inl (Or.inl (Or.inl (hv.halted hh)))
        · exact Or.inl (Or.inl (Or.inr hh))
        · exact Or.inl (Or.inr hh)
        · exact Or.inr hh
  obtain ⟨l, hl, w, hw, w1, w2, w3, w4⟩ := h1
  have hx : (a.mint p).teamBlock dt p = (a.mint p).teamBlock dt p := rfl
  revert hc
  unfold App.beginBlock
  have hxn : ((a.mint p).teamBlock dt p).chain.now = a.chain.now := rfl
  generalize (a.mint p).teamBlock dt p = x at *
  intro hc
  have hn : (x.protocolBlock dt p r).chain.now = x.chain.now + dt := by
    rw [protocolBlock_chain] at hc ⊢
    exact beginBlock_now hc
  have hsp : ∀ d, (x.chain.b (.mod .team)).amt d ≤ ((x.protocolBlock dt p r).chain.b (.mod .team)).amt d := by
    rw [protocolBlock_chain]
    exact Chain.Chain.spend_beginBlock (u := none) x.chain dt p _ r (.mod .team) id
  have hy : Viewed b now ({ x with chain := { x.chain with now := x.chain.now + dt } } : App) :=
    ⟨l, hl, by rw [hw]; exact ⟨w1, w2, by rw [w3, ← hxn], w4⟩⟩
  refine hy.outside (by rw [App.protocolBlock]) hn ?_ hsp
  intro hh
  have hh : x.teamHalted = true := hh
  rw [App.protocolBlock]
  show (x.teamHalted || _) = true
  rw [hh]; rfl

/-- every history of the application is one of x/team -/
theorem History.viewed {gov : Addr} {a0 a : App} {ops : List Op} (h : History gov a0 ops a) (hm : ∀ op ∈ ops, SaneTeam op)
    (hc : a.chain.crashed = false) : Viewed a0.chain.b a0.chain.now a := by
  induction h with
  | init dp sp bp gp b supply now _ _ _ _ => exact ⟨[], by simp, rfl, rfl, rfl, fun h => by cases h⟩
  | @step a0 a ops op hh hf hs ih =>
    have hm1 : ∀ op ∈ ops, SaneTeam op := fun o ho => hm o (List.mem_append_left _ ho)
    have hm2 : SaneTeam op := hm op (List.mem_append_right _ (List.mem_singleton.2 rfl))
    cases hca : a.chain.crashed with
    | true => rw [step_down hca, hca] at hc; cases hc
    | false =>
      have hv := ih hm1 hca
      have hi : Inv gov a := ⟨hh.inv.reach, hca, hh.inv.books⟩
      rw [step_up hca] at hc ⊢
      cases op with
      | tx t =>
        show Viewed _ _ (a.runTx gov t)
        rcases runTx_cases gov a t with e | ⟨-, w1, h1, hx⟩
        · rw [e]; exact hv
        · have hv1 := hv.onlyFee (deduct_fee h1).2.1
          rcases hx with e | ⟨a2, w3, h2, h3, e⟩
          · rw [e]; exact hv1
          · rw [e]
            exact (hv1.execAll (hi.deduct h1) h2 (hf w1 h1) hm2).onlyFee (refund_fee h3).2.1
      | proposal ms =>
        show Viewed _ _ (a.proposal gov ms)
        rcases proposal_cases gov a ms with e | ⟨-, a', ha, e⟩
        · rw [e]; exact hv
        · rw [e]; exact hv.execAll hi ha hf hm2
      | beginBlock dt p r => exact hv.begin dt p r hc
      | endBlock =>
        have hsp := endBlock_spends hi hh.params.1 (.mod .team) id
        have he : Chain.Chain.exec gov a.chain .endBlock = .ok a.chain.endBlock := rfl
        have hn := Chain.Chain.now_exec gov a.chain _ hi.reach .endBlock rfl rfl he
        refine hv.outside ?_ ?_ ?_ hsp
        · show a.endBlock.team = _
          unfold App.endBlock; split <;> rfl
        · show a.endBlock.chain.now = _
          unfold App.endBlock; split <;> exact hn
        · show _ → a.endBlock.teamHalted = _
          unfold App.endBlock; split <;> exact id
      | outside b s g gd gs gf gt =>
        refine hv.outside rfl rfl id fun d => ?_
        have e : (a.chain.external (b.upd (.mod .team) ((a.chain.b (.mod .team)).add gt)) gd gs gf).b (.mod .team) =
          (a.chain.b (.mod .team)).add gt := rfl
        show _ ≤ ((a.chain.external (b.upd (.mod .team) ((a.chain.b (.mod .team)).add gt)) gd gs gf).b (.mod .team)).amt d
        rw [e, Coins.amt_add]
        omega

/-! ## C97 -/

/-- C97: whatever else happens in the application, at every present or future time what an account of x/team claimed is
unlocked and vested. -/
theorem C97_claimed_is_unlocked (gov : Addr) (a0 a : App) (ops : List Op) (h : History gov a0 ops a)
    (hm : ∀ op ∈ ops, SaneTeam op) (hc : a.chain.crashed = false) (id : Nat) (acc : Team.Account)
    (ha : a.team.accounts.get? id = some acc) (t : Nat) (ht : a.chain.now ≤ t) :
    acc.unlockedClaimed ≤ Team.unlockedAmount acc t ∧ acc.unlockedClaimed ≤ Team.vestedAmount acc t := by
  obtain ⟨l, hl, hv⟩ := h.viewed hm hc
  exact Team.C42_claimed_is_unlocked _ _ l hl id acc (by rw [hv.team]; exact ha) t (by rw [hv.now]; exact ht)

/-- C97: unless x/team halted the chain, its account holds what it held at genesis plus all rewards credited, minus what
it paid out; nobody claimed more rewards than credited. -/
theorem C97_solvent (gov : Addr) (a0 a : App) (ops : List Op) (h : History gov a0 ops a)
    (hm : ∀ op ∈ ops, SaneTeam op) (hc : a.chain.crashed = false) (hh : a.teamHalted = false) :
    (a0.chain.b (.mod .team)).amt kyve + Team.Spec.credited a.team ≤
      (a.chain.b (.mod .team)).amt kyve + Team.Spec.paid a.team ∧
    a.team.authClaimed ≤ a.team.authTotal ∧
    ∀ id acc, a.team.accounts.get? id = some acc → acc.rewardsClaimed ≤ acc.totalRewards := by
  obtain ⟨l, hl, hv⟩ := h.viewed hm hc
  have hf : (Team.run (Team.World.init a0.chain.b a0.chain.now) l).halted = false := by
    cases e : (Team.run (Team.World.init a0.chain.b a0.chain.now) l).halted with
    | false => rfl
    | true => rw [hv.halted e] at hh; cases hh
  have := Team.C44_solvent a0.chain.b a0.chain.now l hl hf
  unfold Team.Spec.balance at this
  rw [hv.team, hv.bank] at this
  exact this

end App
end Verif.App
