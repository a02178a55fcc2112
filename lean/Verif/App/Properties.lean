import Verif.App.Accounts

/-!
# C92-C94, C96: accounts, supply, users' coins and transactions of the whole application
-/

set_option linter.dupNamespace false
namespace Verif.App
open Verif
open Verif.Chain (Chain)
open scoped BigOperators

namespace Spec

/-- the accounts the begin and end blocks take coins from: x/delegation, x/stakers, x/funders, x/pool, the pools and the
fee collector -/
def BlockPays : Acct → Prop
  | .user _ => False
  | .pool _ => True
  | .mod .delegation => True
  | .mod .stakers => True
  | .mod .funders => True
  | .mod .pool => True
  | .mod .feeCollector => True
  | .mod _ => False

/-- the accounts an operation may take coins from; anything may happen `outside` -/
def Pays : App.Op → Acct → Prop
  | .tx t, x => x = .user (feePayer t) ∨ ∃ m ∈ t.msgs, MayPay m x
  | .proposal ms, x => ∃ m ∈ ms, MayPay m x
  | .beginBlock _ _ _, x => BlockPays x
  | .endBlock, x => BlockPays x
  | .outside _ _ _ _ _ _ _, _ => True

/-- what is refunded of `n` coins of the fee: for transactions with a single message, the part configured for its type; the
type of wrapped messages is that of the wrapper -/
def refunds (p : Global.Params) (t : Tx) (n : Nat) : Nat :=
  match t.calls with
  | [c] => n * ((p.gasRefunds.find? (fun r => r.1 == c.type)).map (·.2)).getD 0 / 10 ^ 18
  | _ => 0

/-- nothing happened but that `x` paid `n d` of every coin `d` to the fee collector, and fee allowances -/
structure Charged (x : Addr) (n : Denom → Nat) (a a' : App) : Prop where
  only : OnlyFee x a a'
  payer : ∀ d, (a'.chain.b (.user x)).amt d + n d = (a.chain.b (.user x)).amt d
  collector : ∀ d, (a'.chain.b (.mod .feeCollector)).amt d = (a.chain.b (.mod .feeCollector)).amt d + n d

/-- nothing happened but that `x` got `n d` of every coin `d` from the fee collector, and fee allowances -/
structure Refunded (x : Addr) (n : Denom → Nat) (a a' : App) : Prop where
  only : OnlyFee x a a'
  payer : ∀ d, (a'.chain.b (.user x)).amt d = (a.chain.b (.user x)).amt d + n d
  collector : ∀ d, (a'.chain.b (.mod .feeCollector)).amt d + n d = (a.chain.b (.mod .feeCollector)).amt d

/-- what x/global burns of `n` coins in the fee collector -/
def burns (p : Global.Params) (height n : Nat) : Nat := if height = 1 then 0 else n * p.burnRatio / 10 ^ 18

end Spec

open Spec

namespace App

/-! ## proofs -/

theorem Reachable.up {gov : Addr} {a : App} (h : Reachable gov a) (hc : a.chain.crashed = false) : Inv gov a :=
  ⟨h.inv.reach, hc, h.inv.books⟩

theorem burn_ok {p : Global.Params} (h : p.validate = true) : p.burnRatio ≤ 10 ^ 18 := by
  unfold Global.Params.validate at h
  simp only [Bool.and_eq_true, decide_eq_true_eq] at h
  exact h.1.1

/-- the end block of x/global -/
theorem endBlock_global (w : Global.World) (hv : w.params.validate = true) :
    (∀ d, ((Global.endBlock w).bank (.mod .feeCollector)).amt d
      = (w.bank (.mod .feeCollector)).amt d - burns w.params w.height ((w.bank (.mod .feeCollector)).amt d)) ∧
    (∀ d, (Global.endBlock w).supply.amt d = w.supply.amt d - burns w.params w.height ((w.bank (.mod .feeCollector)).amt d)) ∧
    (∀ a, a ≠ .mod .feeCollector → (Global.endBlock w).bank a = w.bank a) ∧
    (Global.endBlock w).halted = w.halted := by
  by_cases hh : w.height = 1
  · have e : Global.endBlock w = w := by unfold Global.endBlock; rw [if_pos hh]
    rw [e]
    unfold burns
    refine ⟨fun _ => ?_, fun _ => ?_, fun _ _ => rfl, rfl⟩ <;> rw [if_pos hh, Nat.sub_zero]
  · unfold burns
    simp only [if_neg hh]
    exact Global.C47_burn w (burn_ok hv) hh

theorem endBlock_params (w : Global.World) : (Global.endBlock w).params = w.params := by
  rcases burnt w with e | e | ⟨c, -, -, e⟩ <;> rw [e]

/-- what the end block does after a protocol that did not crash -/
theorem endBlock_up {a : App} (hv : a.params.validate = true) (hc : a.chain.endBlock.crashed = false) :
    (∀ x, x ≠ .mod .feeCollector → a.endBlock.chain.b x = a.chain.endBlock.b x) ∧
    (∀ d, (a.endBlock.chain.b (.mod .feeCollector)).amt d = (a.chain.endBlock.b (.mod .feeCollector)).amt d -
      burns a.params a.height ((a.chain.endBlock.b (.mod .feeCollector)).amt d)) ∧
    (∀ d, a.endBlock.supply.amt d = a.supply.amt d -
      burns a.params a.height ((a.chain.endBlock.b (.mod .feeCollector)).amt d)) ∧
    a.endBlock.params = a.params ∧ a.endBlock.globalHalted = a.globalHalted := by
  have e : a.endBlock = ({ a with chain := a.chain.endBlock } : App).withGlobal
      (Global.endBlock ({ a with chain := a.chain.endBlock } : App).gw) := by
    unfold App.endBlock; rw [if_neg (by rw [hc]; decide)]
  obtain ⟨h1, h2, h3, h4⟩ := endBlock_global ({ a with chain := a.chain.endBlock } : App).gw hv
  have hb : a.endBlock.chain.b = (Global.endBlock ({ a with chain := a.chain.endBlock } : App).gw).bank := by
    rw [e]
    refine withGlobal_b fun m hm d => ?_
    rw [h3 _ (by rcases hm with rfl | rfl | rfl <;> decide)]
    exact Nat.le_refl _
  refine ⟨fun x hx => by rw [hb, h3 x hx]; rfl, fun d => by rw [hb, h1 d]; rfl, fun d => by rw [e]; exact h2 d, ?_, ?_⟩
  · rw [e]; exact endBlock_params _
  · rw [e]; exact h4

theorem beginBlock_params (a : App) (dt p : Nat) (r : Bool) : (a.beginBlock dt p r).params = a.params ∧
    (a.beginBlock dt p r).globalHalted = a.globalHalted ∧
    (a.beginBlock dt p r).supply = a.supply.add (Coins.single kyve p) := by
  unfold App.beginBlock
  rw [App.protocolBlock]
  exact ⟨rfl, rfl, rfl⟩

theorem step_up {gov : Addr} {a : App} (hc : a.chain.crashed = false) (op : Op) : a.step gov op =
    match op with
    | .tx t => a.runTx gov t
    | .proposal ms => a.proposal gov ms
    | .beginBlock dt p r => a.beginBlock dt p r
    | .endBlock => a.endBlock
    | .outside b s g gd gs gf gt => a.outside b s g gd gs gf gt := by
  unfold App.step
  rw [if_neg (by rw [hc]; decide)]
  cases op <;> rfl

theorem step_down {gov : Addr} {a : App} (hc : a.chain.crashed = true) (op : Op) : a.step gov op = a := by
  unfold App.step
  rw [if_pos hc]

theorem proposal_cases (gov : Addr) (a : App) (ms : List Msg) : (a.proposal gov ms = a) ∨
    ((∀ m ∈ ms, m.signer = some gov) ∧ ∃ a', a.execAll gov ms = .ok a' ∧ a.proposal gov ms = a') := by
  unfold App.proposal
  split
  · exact Or.inl rfl
  · rename_i hs
    split
    · exact Or.inl rfl
    · rename_i a' ha
      exact Or.inr ⟨by simpa using hs, a', ha, rfl⟩

/-- the parameters of x/global are valid, and it has not halted the chain -/
theorem History.params {gov : Addr} {ops : List Op} {a0 a : App} (h : History gov a0 ops a) :
    a.params.validate = true ∧ a.globalHalted = false := by
  induction h with
  | init dp sp bp gp b supply now _ _ hg _ => exact ⟨hg, rfl⟩
  | @step a0 a ops op _ hf hs ih =>
    cases hc : a.chain.crashed with
    | true => rw [step_down hc]; exact ih
    | false =>
      rw [step_up hc]
      cases op with
      | tx t => exact ⟨runTx_params.2.2 ih.1, runTx_params.2.1.trans ih.2⟩
      | proposal ms =>
        rcases proposal_cases gov a ms with e | ⟨-, a', ha, e⟩
        · show (a.proposal gov ms).params.validate = true ∧ (a.proposal gov ms).globalHalted = false
          rw [e]; exact ih
        · show (a.proposal gov ms).params.validate = true ∧ (a.proposal gov ms).globalHalted = false
          rw [e]
          exact ⟨(execAll_params ha).2.2 ih.1, (execAll_params ha).2.1.trans ih.2⟩
      | beginBlock dt p r =>
        obtain ⟨e1, e2, -⟩ := beginBlock_params a dt p r
        exact ⟨by rw [e1]; exact ih.1, by rw [e2]; exact ih.2⟩
      | endBlock =>
        cases hc : a.chain.endBlock.crashed with
        | true =>
          have e : a.endBlock = { a with chain := a.chain.endBlock } := by
            unfold App.endBlock; rw [if_pos hc]
          show a.endBlock.params.validate = true ∧ a.endBlock.globalHalted = false
          rw [e]; exact ih
        | false =>
          obtain ⟨-, -, -, e1, e2⟩ := endBlock_up ih.1 hc
          exact ⟨by rw [e1]; exact ih.1, by rw [e2]; exact ih.2⟩
      | outside b s g gd gs gf gt => exact ih

theorem Reachable.params {gov : Addr} {a : App} (h : Reachable gov a) : a.params.validate = true ∧ a.globalHalted = false :=
  h.elim fun _ h => h.elim fun _ h => h.params

/-! ### accounts -/

theorem runTx_spends {gov : Addr} {a : App} (h : Inv gov a) (hv : a.params.validate = true) {t : Tx}
    (hf : Fair gov a (.tx t)) : OnlySpends (Pays (.tx t)) a.chain.b (a.runTx gov t).chain.b := by
  rcases runTx_cases gov a t with e | ⟨-, w1, h1, hh⟩
  · rw [e]; exact OnlySpends.refl _ _
  · obtain ⟨d1, d2, d3⟩ := deduct_fee h1
    have i1 := h.deduct h1
    rcases hh with e | ⟨a2, w3, h2, h3, e⟩
    · rw [e, d3]; exact OnlySpends.send d1 (Or.inl rfl)
    · have hx := execAll_spends i1 h2 (hf w1 h1)
      obtain ⟨r1, r2, r3⟩ := refund_fee h3
      have hv2 : a2.params.validate = true :=
        (execAll_params h2).2.2 (by rw [(onlyFee_params d2).1]; exact hv)
      rw [e, r3]
      intro x hn d
      have hn1 : x ≠ .user (feePayer t) := fun e => hn (Or.inl e)
      have hn2 : ¬ ∃ m ∈ t.msgs, MayPay m x := fun e => hn (Or.inr e)
      have e2 := hx x hn2 d
      rw [d3] at e2
      have e1 := (Bank.send_ok d1).2 x d
      rw [if_neg hn1] at e1
      rcases r1 with r1 | ⟨c, r1, rc⟩
      · rw [r1]
        show _ ≤ (a2.chain.b x).amt d
        omega
      · have e3 := (Bank.send_ok r1).2 x d
        have := rc hv2 d
        by_cases ef : x = .mod .feeCollector
        · rw [if_pos ef] at e1 e3
          split at e3 <;> omega
        · rw [if_neg ef] at e1 e3
          omega

theorem beginBlock_spends (a : App) (dt p : Nat) (r : Bool) :
    OnlySpends BlockPays a.chain.b (a.beginBlock dt p r).chain.b := by
  have h1 : OnlySpends BlockPays a.chain.b (a.mint p).chain.b := by
    rw [mint_b]
    intro x hx d
    show _ ≤ (if x = .mod .feeCollector then _ else _ : Coins).amt d
    rw [if_neg (by rintro rfl; exact hx trivial)]
  have h2 : OnlySpends BlockPays (a.mint p).chain.b ((a.mint p).teamBlock dt p).chain.b := by
    obtain ⟨n, e⟩ := teamBlock_send (a.mint p) dt p
    have : ((a.mint p).teamBlock dt p).chain.b = (Team.distribute ((a.mint p).twAt dt) p ((a.mint p).supply.amt kyve)).bank :=
      withTeam_b (by rw [e]; exact safe_orKeep (by decide))
    rw [this, e]
    exact OnlySpends.orKeep trivial
  have h3 : OnlySpends BlockPays ((a.mint p).teamBlock dt p).chain.b (a.beginBlock dt p r).chain.b := by
    unfold App.beginBlock
    rw [protocolBlock_chain]
    refine (Chain.Chain.spend_beginBlock (u := none) _ dt p _ r).mono fun x hx => ?_
    cases x with
    | user u => cases hx
    | pool i => trivial
    | mod m => cases m <;> first | trivial | cases hx
  exact h1.trans (h2.trans h3)

theorem endBlock_spends {gov : Addr} {a : App} (h : Inv gov a) (hv : a.params.validate = true) :
    OnlySpends BlockPays a.chain.b a.endBlock.chain.b := by
  have he : Chain.Chain.exec gov a.chain .endBlock = .ok a.chain.endBlock := rfl
  have h1 : OnlySpends BlockPays a.chain.b a.chain.endBlock.b := by
    refine (Chain.Chain.spend_exec gov a.chain a.chain.endBlock h.reach .endBlock rfl he).mono fun x hx => ?_
    cases x with
    | user u => cases hx
    | pool i => trivial
    | mod m => cases m <;> first | trivial | cases hx
  cases hc : a.chain.endBlock.crashed with
  | true =>
    have e : a.endBlock = { a with chain := a.chain.endBlock } := by
      unfold App.endBlock; rw [if_pos hc]
    rw [e]; exact h1
  | false =>
    refine h1.trans fun x hx d => ?_
    rw [(endBlock_up hv hc).1 x (by rintro rfl; exact hx trivial)]

/-! ## C92 -/

/-- C92: an operation only takes coins from the accounts it may take them from; in particular a transaction takes nothing
from the fee collector in the end, although it may refund a part of the fee. -/
theorem C92_accounts (gov : Addr) (a : App) (h : Reachable gov a) (op : Op) (hf : Fair gov a op) :
    OnlySpends (Pays op) a.chain.b (a.step gov op).chain.b := by
  cases hc : a.chain.crashed with
  | true => rw [step_down hc]; exact OnlySpends.refl _ _
  | false =>
    rw [step_up hc]
    have hi := h.up hc
    cases op with
    | tx t => exact runTx_spends hi h.params.1 hf
    | proposal ms =>
      show OnlySpends _ _ (a.proposal gov ms).chain.b
      rcases proposal_cases gov a ms with e | ⟨-, a', ha, e⟩
      · rw [e]; exact OnlySpends.refl _ _
      · rw [e]; exact execAll_spends hi ha hf
    | beginBlock dt p r => exact beginBlock_spends a dt p r
    | endBlock => exact endBlock_spends hi h.params.1
    | outside b s g gd gs gf gt => exact fun x hx => absurd trivial hx

theorem team_authority {w w' : Team.World} {m : TeamMsg} (h : m.exec w = .ok w') : Team.isAuthority m.signer = true := by
  cases m with
  | create x t c =>
    have h : Team.create w x t c = .ok w' := h
    unfold Team.create at h
    split at h
    · cases h
    · rename_i e
      show Team.isAuthority x = true
      simpa using e
  | claimUnlocked x i n r =>
    have h : Team.claimUnlocked w x i n r = .ok w' := h
    unfold Team.claimUnlocked at h
    split at h
    · cases h
    · rename_i e
      show Team.isAuthority x = true
      simpa using e
  | clawback x i c =>
    have h : Team.clawback w x i c = .ok w' := h
    unfold Team.clawback at h
    split at h
    · cases h
    · rename_i e
      show Team.isAuthority x = true
      simpa using e
  | claimAccountRewards x i n r =>
    have h : Team.claimAccountRewards w x i n r = .ok w' := h
    unfold Team.claimAccountRewards at h
    split at h
    · cases h
    · rename_i e
      show Team.isAuthority x = true
      simpa using e
  | claimAuthorityRewards x n r =>
    have h : Team.claimAuthorityRewards w x n r = .ok w' := h
    unfold Team.claimAuthorityRewards at h
    split at h
    · cases h
    · rename_i e
      have e : x = Team.FOUNDATION := not_not.1 e
      show Team.isAuthority x = true
      rw [e]; decide

theorem execAll_authority {gov : Addr} {a a' : App} {ms : List Msg} (he : a.execAll gov ms = .ok a') {m : TeamMsg}
    (hm : .team m ∈ ms) : Team.isAuthority m.signer = true := by
  induction ms generalizing a with
  | nil => cases hm
  | cons x l ih =>
    unfold App.execAll at he
    split at he
    · cases he
    · rename_i a1 h1
      rcases List.mem_cons.1 hm with rfl | hm
      · obtain ⟨w, hw, -⟩ := Chain.Chain.map_ok (show (m.exec a.tw).map a.withTeam = .ok a1 from h1)
        exact team_authority hw
      · exact ih he hm

/-- the messages the operation executes -/
def Op.msgs : Op → List Msg
  | .tx t => t.msgs
  | .proposal ms => ms
  | _ => []

/-- C92: x/team's account only loses coins by messages of x/team, which were signed by the foundation or BCP. -/
theorem C92_team (gov : Addr) (a : App) (h : Reachable gov a) (op : Op) (hf : Fair gov a op) (d : Denom)
    (hl : ((a.step gov op).chain.b (.mod .team)).amt d < (a.chain.b (.mod .team)).amt d) :
    ∃ m : TeamMsg, .team m ∈ op.msgs ∧ (m.signer = Team.FOUNDATION ∨ m.signer = Team.BCP) := by
  cases hc : a.chain.crashed with
  | true => rw [step_down hc] at hl; omega
  | false =>
    have hs := C92_accounts gov a h op hf (.mod .team)
    have key : ∀ ms a1 a2, App.execAll gov a1 ms = .ok a2 → (∃ m ∈ ms, MayPay m (.mod .team)) →
        ∃ m : TeamMsg, .team m ∈ ms ∧ (m.signer = Team.FOUNDATION ∨ m.signer = Team.BCP) := by
      rintro ms a1 a2 he ⟨m, hm, t, rfl⟩
      refine ⟨t, hm, ?_⟩
      have := execAll_authority he hm
      unfold Team.isAuthority at this
      simpa using this
    cases op with
    | tx t =>
      rcases Classical.em (Pays (.tx t) (.mod .team)) with hp | hp
      · have hp : ∃ m ∈ t.msgs, MayPay m (.mod .team) := hp.resolve_left (by rintro ⟨⟩)
        rw [step_up hc] at hl
        rcases runTx_cases gov a t with e | ⟨-, w1, h1, hh⟩
        · have hl : ((a.runTx gov t).chain.b (.mod .team)).amt d < (a.chain.b (.mod .team)).amt d := hl
          rw [e] at hl; omega
        · rcases hh with e | ⟨a2, w3, h2, h3, e⟩
          · have hl : ((a.runTx gov t).chain.b (.mod .team)).amt d < (a.chain.b (.mod .team)).amt d := hl
            rw [e, (deduct_fee h1).2.1.2 _ (by rintro ⟨⟩) (by rintro ⟨⟩)] at hl; omega
          · exact key _ _ _ h2 hp
      · exact absurd (hs hp d) (by omega)
    | proposal ms =>
      rcases Classical.em (Pays (.proposal ms) (.mod .team)) with hp | hp
      · rw [step_up hc] at hl
        have hl : ((a.proposal gov ms).chain.b (.mod .team)).amt d < (a.chain.b (.mod .team)).amt d := hl
        rcases proposal_cases gov a ms with e | ⟨-, a', ha, e⟩
        · rw [e] at hl; omega
        · exact key _ _ _ ha hp
      · exact absurd (hs hp d) (by omega)
    | beginBlock dt p r => exact absurd (hs id d) (by omega)
    | endBlock => exact absurd (hs id d) (by omega)
    | outside b s g gd gs gf gt =>
      rw [step_up hc] at hl
      have hl : ((a.chain.external (b.upd (.mod .team) ((a.chain.b (.mod .team)).add gt)) gd gs gf).b (.mod .team)).amt d <
        (a.chain.b (.mod .team)).amt d := hl
      have e : (a.chain.external (b.upd (.mod .team) ((a.chain.b (.mod .team)).add gt)) gd gs gf).b (.mod .team) =
          (a.chain.b (.mod .team)).add gt := rfl
      rw [e, Coins.amt_add] at hl
      omega

/-! ## C93 -/

/-- C93: finitely many accounts hold coins, and together they hold the supply, in every state of the application. -/
theorem C93_books (gov : Addr) (a : App) (h : Reachable gov a) :
    ∃ T : Finset Acct, (∀ x, x ∉ T → a.chain.b x = Coins.zero) ∧
      ∀ d, ∑ x ∈ T, (a.chain.b x).amt d = a.supply.amt d := h.inv.books

/-- C93: no account holds more than the supply. -/
theorem C93_account (gov : Addr) (a : App) (h : Reachable gov a) (x : Acct) (d : Denom) :
    (a.chain.b x).amt d ≤ a.supply.amt d := by
  obtain ⟨T, h1, h2⟩ := C93_books gov a h
  rw [← h2 d]
  by_cases hx : x ∈ T
  · exact Finset.single_le_sum (f := fun x => (a.chain.b x).amt d) (fun _ _ => Nat.zero_le _) hx
  · rw [h1 x hx]; exact Nat.zero_le _

/-- C93: the supply of a coin only changes by the provision minted in the begin block, and by the part of the fee
collector's coins (after x/pool and x/bundles) that is burnt in the end block. -/
theorem C93_supply (gov : Addr) (a : App) (h : Reachable gov a) (hc : a.chain.crashed = false) (op : Op)
    (hf : Fair gov a op) (d : Denom) :
    match op with
    | .tx _ => (a.step gov op).supply.amt d = a.supply.amt d
    | .proposal _ => (a.step gov op).supply.amt d = a.supply.amt d
    | .beginBlock _ p _ => (a.step gov op).supply.amt d = a.supply.amt d + if d = kyve then p else 0
    | .endBlock => a.chain.endBlock.crashed = false → (a.step gov op).supply.amt d + burns a.params a.height
        ((a.chain.endBlock.b (.mod .feeCollector)).amt d) = a.supply.amt d
    | .outside _ _ _ _ _ _ _ => True := by
  have hi := h.up hc
  rw [step_up hc]
  cases op with
  | tx t =>
    show (a.runTx gov t).supply.amt d = _
    rcases runTx_cases gov a t with e | ⟨-, w1, h1, hh⟩
    · rw [e]
    · have d4 := (onlyFee_params (deduct_fee h1).2.1).2.2.2
      rcases hh with e | ⟨a2, w3, h2, h3, e⟩
      · rw [e, d4]
      · rw [e, (onlyFee_params (refund_fee h3).2.1).2.2.2, ((hi.deduct h1).execAll h2 (hf w1 h1)).2, d4]
  | proposal ms =>
    show (a.proposal gov ms).supply.amt d = _
    rcases proposal_cases gov a ms with e | ⟨-, a', ha, e⟩
    · rw [e]
    · rw [e, (hi.execAll ha hf).2]
  | beginBlock dt p r =>
    show (a.beginBlock dt p r).supply.amt d = _
    rw [(beginBlock_params a dt p r).2.2, Coins.amt_add, Coins.amt_single]
  | endBlock =>
    intro hb
    show a.endBlock.supply.amt d + _ = _
    rw [(endBlock_up h.params.1 hb).2.2.1 d]
    have e1 : burns a.params a.height ((a.chain.endBlock.b (.mod .feeCollector)).amt d) ≤
        (a.chain.endBlock.b (.mod .feeCollector)).amt d := by
      unfold burns
      split
      · exact Nat.zero_le _
      · exact Global.share_le (burn_ok h.params.1)
    have he : Chain.Chain.exec gov a.chain .endBlock = .ok a.chain.endBlock := rfl
    obtain ⟨T, h1, h2⟩ := Books.move hi.books (Chain.Chain.C89_exec gov _ _ hi.reach _ rfl he)
    have e2 : (a.chain.endBlock.b (.mod .feeCollector)).amt d ≤ a.supply.amt d := by
      rw [← h2 d]
      by_cases hx : Acct.mod .feeCollector ∈ T
      · exact Finset.single_le_sum (f := fun x => (a.chain.endBlock.b x).amt d) (fun _ _ => Nat.zero_le _) hx
      · rw [h1 _ hx]; exact Nat.zero_le _
    omega
  | outside => trivial

/-! ## C94 -/

theorem tookPart {t : Tx} (hs : t.signed = true) {m : Msg} (hm : m ∈ t.msgs) {u : Addr} (hu : m.signer = some u) :
    TookPart t u := by
  unfold Tx.signed at hs
  simp only [Bool.and_eq_true, List.all_eq_true] at hs
  unfold Tx.msgs at hm
  rw [List.mem_flatMap] at hm
  obtain ⟨c, hc, hm⟩ := hm
  have h := hs.2 c hc
  cases c with
  | plain m' =>
    have : m = m' := by simpa [Call.msgs] using hm
    subst this
    unfold Tx.allows at h
    simp only [hu] at h
    exact Or.inl (by simpa using h)
  | wrapped g ms =>
    have hm : m ∈ ms := hm
    unfold Tx.allows at h
    simp only [Bool.and_eq_true, List.all_eq_true] at h
    have h2 := h.2 m hm
    rw [hu] at h2
    simp only [Bool.or_eq_true, beq_iff_eq] at h2
    have h1 : g ∈ t.signers := by simpa using h.1
    rcases h2 with rfl | h2
    · exact Or.inl h1
    · exact Or.inr ⟨g, h1, by simpa using h2⟩

theorem asked_zero {t : Tx} (hs : t.signed = true) {u : Addr} (hu : ¬ TookPart t u) (d : Denom) : asked t.msgs u d = 0 := by
  unfold asked
  rw [List.sum_eq_zero]
  intro x hx
  rw [List.mem_map] at hx
  obtain ⟨m, hm, rfl⟩ := hx
  rw [if_neg fun e => hu (tookPart hs hm e)]

theorem runTx_lost {gov : Addr} {a : App} (h : Inv gov a) {t : Tx} (hf : Fair gov a (.tx t)) (u : Addr) (d : Denom) :
    (a.chain.b (.user u)).amt d ≤ ((a.runTx gov t).chain.b (.user u)).amt d +
      (if u = feePayer t then t.fee.amt d else 0) + asked t.msgs u d := by
  rcases runTx_cases gov a t with e | ⟨-, w1, h1, hh⟩
  · rw [e]; omega
  · obtain ⟨d1, d2, d3⟩ := deduct_fee h1
    obtain ⟨s1, s2⟩ := Bank.send_ok d1
    have e1 : (a.chain.b (.user u)).amt d ≤ (w1.bank (.user u)).amt d + (if u = feePayer t then t.fee.amt d else 0) := by
      rw [s2]
      by_cases eu : u = feePayer t
      · have := s1 d
        rw [if_pos eu, if_pos (by rw [eu]), if_neg (by rintro ⟨⟩), eu]
        omega
      · rw [if_neg eu, if_neg (by rintro ⟨⟩; exact eu rfl)]
        omega
    rcases hh with e | ⟨a2, w3, h2, h3, e⟩
    · rw [e, d3]; omega
    · have e2 := execAll_lost (h.deduct h1) h2 (hf w1 h1) u d
      rw [d3] at e2
      obtain ⟨r1, -, r3⟩ := refund_fee h3
      have e3 : (a2.chain.b (.user u)).amt d ≤ (w3.bank (.user u)).amt d := by
        rcases r1 with rfl | ⟨c, r1, -⟩
        · exact Nat.le_refl _
        · rw [(Bank.send_ok r1).2, if_neg (by rintro ⟨⟩)]; omega
      rw [e, r3]
      omega

/-- C94: a transaction takes from a user at most the fee, if it is the one who pays it, and what the messages ask it for. -/
theorem C94_transaction (gov : Addr) (a : App) (h : Reachable gov a) (t : Tx) (hf : Fair gov a (.tx t)) (u : Addr)
    (d : Denom) : (a.chain.b (.user u)).amt d ≤ ((a.step gov (.tx t)).chain.b (.user u)).amt d +
      (if u = feePayer t then t.fee.amt d else 0) + asked t.msgs u d := by
  cases hc : a.chain.crashed with
  | true => rw [step_down hc]; omega
  | false => rw [step_up hc]; exact runTx_lost (h.up hc) hf u d

/-- C94: who neither signed a transaction nor authorised a signer of it loses nothing by it, but for the fee if it has
granted the payer an allowance of at least this fee. -/
theorem C94_strangers (gov : Addr) (a : App) (h : Reachable gov a) (t : Tx) (hf : Fair gov a (.tx t)) (u : Addr)
    (hu : ¬ TookPart t u) (d : Denom) :
    (a.chain.b (.user u)).amt d ≤ ((a.step gov (.tx t)).chain.b (.user u)).amt d ∨
    (t.granter = some u ∧ (∀ e, t.fee.amt e ≤ ((a.grants.get? (u, t.payer)).getD Coins.zero).amt e) ∧
      (a.chain.b (.user u)).amt d ≤ ((a.step gov (.tx t)).chain.b (.user u)).amt d + t.fee.amt d) := by
  cases hc : a.chain.crashed with
  | true => rw [step_down hc]; exact Or.inl (Nat.le_refl _)
  | false =>
    have hl := runTx_lost (h.up hc) hf u d
    rw [step_up hc]
    show (_ ≤ ((a.runTx gov t).chain.b (.user u)).amt d) ∨ (_ ∧ _ ∧ (_ ≤ ((a.runTx gov t).chain.b (.user u)).amt d + _))
    rcases runTx_cases gov a t with e | ⟨hs, w1, h1, hh⟩
    · rw [e]; exact Or.inl (Nat.le_refl _)
    · rw [asked_zero hs hu d] at hl
      by_cases eu : u = feePayer t
      · rw [if_pos eu] at hl
        have hp : t.payer ∈ t.signers := by
          unfold Tx.signed at hs
          simp only [Bool.and_eq_true] at hs
          simpa using hs.1.2
        have hup : u ≠ t.payer := fun e => hu (Or.inl (e ▸ hp))
        cases hg : t.granter with
        | none =>
          exfalso
          apply hup
          rw [eu]
          unfold feePayer
          rw [hg]; rfl
        | some g =>
          have hgu : g = u := by
            rw [eu]
            unfold feePayer
            rw [hg]; rfl
          subst hgu
          refine Or.inr ⟨rfl, ?_, hl⟩
          unfold Global.deductFee at h1
          split at h1
          · cases h1
          · split at h1
            · cases h1
            · split at h1
              · cases h1
              · rename_i aw ha
                exact ((Global.feeAccount_ok ha).2.2.2.2.2.2.2.1 g hg hup).1
      · rw [if_neg eu] at hl
        exact Or.inl hl

/-- C94: governance proposals take coins only from x/gov's own account; blocks take nothing from any user. -/
theorem C94_blocks (gov : Addr) (a : App) (h : Reachable gov a) (op : Op) (hf : Fair gov a op) (u : Addr) (d : Denom) :
    match op with
    | .proposal _ => u ≠ gov → (a.chain.b (.user u)).amt d ≤ ((a.step gov op).chain.b (.user u)).amt d
    | .beginBlock _ _ _ => (a.chain.b (.user u)).amt d ≤ ((a.step gov op).chain.b (.user u)).amt d
    | .endBlock => (a.chain.b (.user u)).amt d ≤ ((a.step gov op).chain.b (.user u)).amt d
    | _ => True := by
  have hs := C92_accounts gov a h op hf (.user u)
  cases op with
  | tx t => trivial
  | proposal ms =>
    intro hu
    cases hc : a.chain.crashed with
    | true => rw [step_down hc]
    | false =>
      rcases proposal_cases gov a ms with e | ⟨hg, -⟩
      · have : a.step gov (.proposal ms) = a := by rw [step_up hc]; exact e
        rw [this]
      · refine hs ?_ d
        rintro ⟨m, hm, hp⟩
        have hp : m.signer = some u := hp
        rw [hg m hm] at hp
        cases hp
        exact hu rfl
  | beginBlock dt p r => exact hs id d
  | endBlock => exact hs id d
  | outside => trivial

/-! ## C96 -/

theorem deduct_charged {a : App} {t : Tx} {w : Global.World} {o : Option DecCoins}
    (h : Global.deductFee a.gw t.fees o = .ok w) : Charged (feePayer t) (t.fee.amt ·) a (a.withGlobal w) := by
  obtain ⟨d1, d2, d3⟩ := deduct_fee h
  obtain ⟨s1, s2⟩ := Bank.send_ok d1
  refine ⟨d2, fun d => ?_, fun d => ?_⟩
  · rw [d3, s2, if_pos rfl, if_neg (by rintro ⟨⟩)]
    have := s1 d
    omega
  · rw [d3, s2, if_neg (by rintro ⟨⟩), if_pos rfl]
    omega

theorem refund_refunded {a : App} {t : Tx} {w : Global.World} (h : Global.refundFee a.gw t.fees = .ok w) :
    Refunded (feePayer t) (fun d => refunds a.params t (t.fee.amt d)) a (a.withGlobal w) := by
  obtain ⟨-, d2, d3⟩ := refund_fee h
  obtain ⟨r1, r2, -⟩ := Global.C47_refund _ _ _ h
  have e : ∀ n, Global.Spec.refund a.gw.params t.fees n = refunds a.params t n := fun n => by
    unfold Global.Spec.refund refunds Tx.fees
    simp only
    rcases t.calls with _ | ⟨c, _ | ⟨c', l⟩⟩ <;> rfl
  refine ⟨d2, fun d => ?_, fun d => ?_⟩
  · rw [d3]
    exact (r1 d).trans (by rw [e]; rfl)
  · rw [d3]
    have := r2 d
    rw [e] at this
    exact this.symm

/-- C96: a transaction is all or nothing: either nothing happens, or only the fee is paid, or the fee is paid, all messages
are executed one after the other, and the refund is paid back. -/
theorem C96_all_or_nothing (gov : Addr) (a : App) (t : Tx) (hc : a.chain.crashed = false) :
    a.step gov (.tx t) = a ∨ Charged (feePayer t) (t.fee.amt ·) a (a.step gov (.tx t)) ∨
    ∃ a1 a2, Charged (feePayer t) (t.fee.amt ·) a a1 ∧ a1.execAll gov t.msgs = .ok a2 ∧
      Refunded (feePayer t) (fun d => refunds a2.params t (t.fee.amt d)) a2 (a.step gov (.tx t)) := by
  rw [step_up hc]
  show a.runTx gov t = a ∨ Charged _ _ a (a.runTx gov t) ∨ ∃ a1 a2, _ ∧ _ ∧ Refunded _ _ a2 (a.runTx gov t)
  rcases runTx_cases gov a t with e | ⟨-, w1, h1, hh⟩
  · exact Or.inl e
  · rcases hh with e | ⟨a2, w3, h2, h3, e⟩
    · rw [e]; exact Or.inr (Or.inl (deduct_charged h1))
    · rw [e]; exact Or.inr (Or.inr ⟨_, a2, deduct_charged h1, h2, refund_refunded h3⟩)

/-- C96: a transaction only has an effect if its payer signed it, and the signer of each of its messages signed it or
authorised one who did. -/
theorem C96_signed (gov : Addr) (a : App) (t : Tx) (hc : a.chain.crashed = false) (he : a.step gov (.tx t) ≠ a) :
    t.payer ∈ t.signers ∧ t.calls ≠ [] ∧ ∀ m ∈ t.msgs, ∃ s, m.signer = some s ∧ TookPart t s := by
  rw [step_up hc] at he
  have he : a.runTx gov t ≠ a := he
  rcases runTx_cases gov a t with e | ⟨hs, -⟩
  · exact absurd e he
  · unfold Tx.signed at hs
    simp only [Bool.and_eq_true] at hs
    refine ⟨by simpa using hs.1.2, ?_, ?_⟩
    · intro e
      rw [e] at hs
      exact absurd hs.1.1 (by decide)
    · intro m hm
      obtain ⟨c, hcm, hmc⟩ := List.mem_flatMap.1 hm
      have hal := List.all_eq_true.1 hs.2 c hcm
      cases c with
      | plain m' =>
        rw [List.mem_singleton.1 hmc]
        have hal : (match m'.signer with | none => false | some s => t.signers.contains s) = true := hal
        cases e : m'.signer with
        | none => rw [e] at hal; cases hal
        | some s => rw [e] at hal; exact ⟨s, rfl, Or.inl (by simpa using hal)⟩
      | wrapped g ms =>
        unfold Tx.allows at hal
        rw [Bool.and_eq_true] at hal
        have hx := List.all_eq_true.1 hal.2 m hmc
        cases e : m.signer with
        | none => rw [e] at hx; cases hx
        | some s =>
          rw [e] at hx
          have hg : g ∈ t.signers := by simpa using hal.1
          have hx : (s == g || t.authorized.contains (s, g)) = true := hx
          rw [Bool.or_eq_true] at hx
          rcases hx with hx | hx
          · rw [eq_of_beq hx]; exact ⟨g, rfl, Or.inl hg⟩
          · exact ⟨s, rfl, Or.inr ⟨g, hg, by simpa using hx⟩⟩

/-- C96: if the transaction is signed, its gas suffices, its fee is accepted and its messages succeed, then it takes
effect: the refund does not fail, unless the fee is paid by a grantee of an allowance. -/
theorem C96_takes_effect (gov : Addr) (a : App) (h : Reachable gov a) (hc : a.chain.crashed = false) (t : Tx)
    (hf : Fair gov a (.tx t)) (hs : t.signed = true) (gas : Nat)
    (hg : Global.adjustGas a.params t.gas t.fees.msgs t.gasBefore = .ok gas) (w1 : Global.World)
    (h1 : Global.deductFee a.gw t.fees none = .ok w1) (a2 : App) (h2 : (a.withGlobal w1).execAll gov t.msgs = .ok a2)
    (hgr : t.granter = none ∨ t.granter = some t.payer) :
    Refunded (feePayer t) (fun d => refunds a2.params t (t.fee.amt d)) a2 (a.step gov (.tx t)) := by
  have hi := h.up hc
  obtain ⟨d1, d2, d3⟩ := deduct_fee h1
  have hx := execAll_spends (hi.deduct h1) h2 (hf w1 h1) (.mod .feeCollector) (by rintro ⟨m, -, hm⟩; exact hm)
  have hv2 : a2.params.validate = true := (execAll_params h2).2.2 (by rw [(onlyFee_params d2).1]; exact h.params.1)
  have hfee : ∀ d, t.fee.amt d ≤ (a2.chain.b (.mod .feeCollector)).amt d := fun d => by
    have := hx d
    rw [d3, (Bank.send_ok d1).2, if_neg (by rintro ⟨⟩), if_pos rfl] at this
    omega
  have hr : ∃ w3, Global.refundFee a2.gw t.fees = .ok w3 := by
    unfold Global.refundFee
    split
    · exact ⟨_, rfl⟩
    · split
      · rename_i m hm
        split
        · exact ⟨_, rfl⟩
        · have ha : Global.feeAccount a2.gw t.fees = .ok (t.payer, a2.gw) := by
            unfold Global.feeAccount
            split
            · rfl
            · rename_i g hg
              have hg : t.granter = some g := hg
              rcases hgr with e | e
              · rw [hg] at e; cases e
              · rw [hg] at e; injection e with e
                rw [if_pos (show g = t.fees.payer from e)]; rfl
          rw [ha]
          obtain ⟨b, hb⟩ := Bank.send_succeeds (b := a2.gw.bank) (s := .mod .feeCollector) (t := .user t.payer)
            (c := Global.refundOf t.fees.fee (Global.refundFraction m a2.gw.params.gasRefunds)) (fun d => by
              rw [Global.refundOf_amt]
              refine Nat.le_trans (Global.share_le ?_) (hfee d)
              rw [Global.refundFraction_eq]
              exact Global.refundShare_le hv2 m)
          show ∃ w3, (match a2.gw.bank.send (.mod .feeCollector) (.user t.payer)
            (Global.refundOf t.fees.fee (Global.refundFraction m a2.gw.params.gasRefunds)) with
            | .error e => .error e | .ok b => .ok { a2.gw with bank := b }) = Except.ok w3
          rw [hb]
          exact ⟨_, rfl⟩
      · exact ⟨_, rfl⟩
  obtain ⟨w3, h3⟩ := hr
  have e : a.step gov (.tx t) = a2.withGlobal w3 := by
    rw [step_up hc]
    show a.runTx gov t = _
    unfold App.runTx
    rw [if_neg (by rw [hs]; decide), hg, h1]
    show (match (a.withGlobal w1).execAll gov t.msgs with | .error _ => _ | .ok a2 => _) = _
    rw [h2]
    show (match Global.refundFee a2.gw t.fees with | .error _ => _ | .ok a2 => _) = _
    rw [h3]
  rw [e]
  exact refund_refunded h3

/-- C96: x/global never halts the chain. -/
theorem C96_never_halts (gov : Addr) (a : App) (h : Reachable gov a) : a.globalHalted = false := h.params.2

end App
end Verif.App
