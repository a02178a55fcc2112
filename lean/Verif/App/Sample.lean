import Verif.App.Begin
import Verif.Chain.SampleReach

/-!
# A sample history of the application

Governance creates a pool, four stakers join it with transactions, and bundles are proposed, with fees, a refund, a wrapped
message and a fee allowance.  It provides the concrete cases for the theorems about the application.
-/

set_option linter.dupNamespace false
namespace Verif.App.Sample
open Verif
open Verif.Chain (Chain)
open App

/-- x/gov's account -/
def gov : Addr := 99
/-- the users that hold coins at genesis -/
def holders : List Addr := [1, 2, 3, 4, 11, 50]
/-- everybody has 5000000000 ukyve and user 4 much more, x/team its allocation -/
def bank : Bank := fun a => match a with
  | .user u => if u ∈ holders then Coins.single kyve (if u = 4 then Team.ALLOCATION else 5000000000) else Coins.zero
  | .mod .team => Coins.single kyve Team.ALLOCATION
  | _ => Coins.zero
/-- x/global: a minimal gas price of 0.02, half of the fees burnt, a gas adjustment for `MsgSubmitBundleProposal` and a
refund of a quarter for it -/
def params : Global.Params :=
  ⟨20000000000000000, 500000000000000000, [(Msg.type (.protocol (.submit (Verif.Chain.Sample.bundle 1 0 0))), 1000)],
    [(Msg.type (.protocol (.submit (Verif.Chain.Sample.bundle 1 0 0))), 250000000000000000)]⟩
/-- the supply -/
def supply : Coins := Coins.single kyve (2 * Team.ALLOCATION + 5 * 5000000000)
/-- genesis, at the time of the token generation event -/
def start : App := init .default .default .default params bank supply Team.TGE

/-- a transaction of one message with a fee of 4000 and 200000 gas -/
def single (signer : Addr) (m : Msg) : Op :=
  .tx ⟨[.plain m], Coins.single kyve 4000, 200000, signer, none, [signer], [], 5000⟩
/-- the same for several messages -/
def several (signer : Addr) (ms : List Msg) : Op :=
  .tx ⟨ms.map .plain, Coins.single kyve 4000, 200000, signer, none, [signer], [], 5000⟩

/-- the set-up: a block, governance creates the pool, the stakers and a funder join -/
def setup : List Op :=
  [.beginBlock 10 1000000 false,
   .proposal [.protocol (.createPool Verif.Chain.Sample.pool),
     .protocol (.poolParams gov ⟨some 500000000000000000, none, none⟩)],
   .endBlock,
   .beginBlock 10 1000000 false,
   several 1 [.protocol (.createStaker 1 100000000000000000 100), .protocol (Verif.Chain.Sample.joins 1)],
   several 2 [.protocol (.createStaker 2 100000000000000000 100), .protocol (Verif.Chain.Sample.joins 2)],
   several 3 [.protocol (.createStaker 3 100000000000000000 100), .protocol (Verif.Chain.Sample.joins 3)],
   several 50 [.protocol (.createFunder 50),
     .protocol (.fund ⟨50, 0, Coins.single kyve 2000000000, Coins.single kyve 1000000⟩)],
   .endBlock]

/-- a run -/
def run (a : App) (ops : List Op) : App := ops.foldl (fun a op => a.step gov op) a

/-- after the set-up -/
def ready : App := run start setup

/-- staker 1's node claims the uploader role, somebody creates a team account, and a minute passes -/
def role : List Op :=
  [single 11 (.protocol (.claim 11 1 0)),
   single 1 (.team (.create 1 10000000000000000 Team.TGE)),
   .endBlock, .beginBlock 60 1000000 false]
/-- then the node may submit -/
def turn : App := run ready role
/-- the node submits a bundle: it gets a quarter of the fee back -/
def submit : Op := single 11 (.protocol (.submit (Verif.Chain.Sample.bundle 1 7 0)))
/-- after it -/
def submitted : App := run turn [submit]
/-- the same, wrapped: no refund -/
def wrapped : Op :=
  .tx ⟨[.wrapped 3 [.protocol (.submit (Verif.Chain.Sample.bundle 1 7 0))]], Coins.single kyve 4000, 200000, 3, none, [3],
    [(11, 3)], 5000⟩

/-! ## these are histories -/

/-- the side conditions of `History`, as a test -/
def saneB (c : Chain) : Bool := Delegation.dustOk c.del.trace && decide (Delegation.totalAll c.del < 2 ^ 63)

theorem sane_of {c : Chain} (h : saneB c = true) : Chain.Sane c := by
  unfold saneB at h
  rw [Bool.and_eq_true] at h
  exact ⟨Delegation.calm_of_dustOk h.1, of_decide_eq_true h.2⟩

/-- the same for messages -/
def saneMsgsB (a : App) : List Msg → Bool
  | [] => saneB a.chain
  | m :: l => saneB a.chain && match a.exec gov m with
    | .error _ => true
    | .ok a' => saneMsgsB a' l

theorem saneMsgs_of {a : App} {ms : List Msg} (h : saneMsgsB a ms = true) : SaneMsgs gov a ms := by
  induction ms generalizing a with
  | nil =>
    intro k a' hk
    rw [List.take_nil] at hk
    cases hk
    exact sane_of h
  | cons m l ih =>
    unfold saneMsgsB at h
    rw [Bool.and_eq_true] at h
    intro k a' hk
    cases k with
    | zero => cases hk; exact sane_of h.1
    | succ k =>
      rw [List.take_succ_cons] at hk
      unfold App.execAll at hk
      split at hk
      · cases hk
      · rename_i a1 h1
        have h2 := h.2
        rw [h1] at h2
        exact ih h2 k a' hk

/-- the same for operations; `outside` is treated apart -/
def fairB (a : App) : Op → Bool
  | .tx t => match Global.deductFee a.gw t.fees none with
    | .error _ => true
    | .ok w => saneMsgsB (a.withGlobal w) t.msgs
  | .proposal ms => saneMsgsB a ms
  | .outside _ _ _ _ _ _ _ => false
  | _ => true

theorem fair_of {a : App} {op : Op} (h : fairB a op = true) : Fair gov a op := by
  cases op with
  | tx t =>
    intro w hw
    unfold fairB at h
    simp only [hw] at h
    exact saneMsgs_of h
  | proposal ms => exact saneMsgs_of h
  | outside => cases h
  | beginBlock | endBlock => trivial

/-- the same for a run -/
def okRun (a : App) : List Op → Bool
  | [] => true
  | op :: l => fairB a op && saneB (a.step gov op).chain && okRun (a.step gov op) l

theorem run_history {a0 a : App} {ops : List Op} (h : History gov a0 ops a) (l : List Op) (ho : okRun a l = true) :
    History gov a0 (ops ++ l) (run a l) := by
  induction l generalizing a ops with
  | nil => rw [List.append_nil]; exact h
  | cons op l ih =>
    unfold okRun at ho
    rw [Bool.and_eq_true, Bool.and_eq_true] at ho
    have := ih (h.step op (fair_of ho.1.1) (sane_of ho.1.2)) ho.2
    rw [List.append_assoc] at this
    exact this

theorem books : Books (Chain.Chain.init .default .default .default bank Team.TGE).b supply := by
  refine ⟨[Acct.user 1, .user 2, .user 3, .user 4, .user 11, .user 50, .mod .team].toFinset, ?_, ?_⟩
  · intro a ha
    have hb : ∀ x : Acct, (x = .user 1 ∨ x = .user 2 ∨ x = .user 3 ∨ x = .user 4 ∨ x = .user 11 ∨ x = .user 50 ∨
        x = .mod .team) ∨ bank x = Coins.zero := by
      intro x
      rcases x with u | m | p
      · by_cases hu : u ∈ holders
        · refine Or.inl ?_
          simp only [holders, List.mem_cons, List.not_mem_nil, or_false] at hu
          simpa using hu
        · refine Or.inr ?_
          show (if u ∈ holders then _ else _) = _
          rw [if_neg hu]
      · cases m <;> first | exact Or.inr rfl | simp
      · exact Or.inr rfl
    show (if _ then _ else bank a) = _
    split
    · rfl
    · rcases hb a with h | h
      · exact absurd (by simpa using h) ha
      · exact h
  · intro d
    rw [List.sum_toFinset _ (by decide)]
    show ([Acct.user 1, .user 2, .user 3, .user 4, .user 11, .user 50, .mod .team].map _).sum = _
    simp only [List.map_cons, List.map_nil, List.sum_cons, List.sum_nil]
    show (Coins.single kyve 5000000000).amt d + ((Coins.single kyve 5000000000).amt d + ((Coins.single kyve 5000000000).amt d +
      ((Coins.single kyve Team.ALLOCATION).amt d + ((Coins.single kyve 5000000000).amt d + ((Coins.single kyve 5000000000).amt d +
        ((Coins.single kyve Team.ALLOCATION).amt d + 0)))))) = (Coins.single kyve (2 * Team.ALLOCATION + 5 * 5000000000)).amt d
    simp only [Coins.amt_single]
    by_cases h : d = kyve
    · simp only [if_pos h]; omega
    · simp only [if_neg h]

theorem hist_start : History gov start [] start :=
  .init _ _ _ _ _ _ _ (by decide) (by decide) (by decide +kernel) books
theorem hist_ready : History gov start setup ready := run_history hist_start _ (by decide +kernel)
theorem hist_turn : History gov start (setup ++ role) turn := run_history hist_ready _ (by decide +kernel)
theorem hist_submitted : History gov start (setup ++ role ++ [submit]) submitted :=
  run_history hist_turn _ (by decide +kernel)

theorem reach_ready : Reachable gov ready := ⟨_, _, hist_ready⟩
theorem reach_turn : Reachable gov turn := ⟨_, _, hist_turn⟩
theorem reach_submitted : Reachable gov submitted := ⟨_, _, hist_submitted⟩

/-! ## what happens -/

/-- C92-C94, C96: a reachable state, a transaction that meets the side conditions and takes effect: the node pays 4000 and
gets 1000 back -/
example : fairB turn submit = true ∧ turn.chain.crashed = false ∧
    (turn.chain.b (.user 11)).amt kyve = (submitted.chain.b (.user 11)).amt kyve + 3000 ∧
    (submitted.chain.b (.mod .feeCollector)).amt kyve = (turn.chain.b (.mod .feeCollector)).amt kyve + 3000 ∧
    (turn.chain.bun.proposals.get? 0).map (·.storageId) = some 0 ∧
    (submitted.chain.bun.proposals.get? 0).map (·.storageId) = some 7 := by decide +kernel

/-- C96: wrapped into `MsgExec` the same message has the same effect, but there is no refund, and no gas adjustment: the
limit of 5500 gas suffices, which is not enough for the plain message -/
example : ((turn.step gov wrapped).chain.bun.proposals.get? 0).map (·.storageId) = some 7 ∧
    (turn.chain.b (.user 3)).amt kyve = ((turn.step gov wrapped).chain.b (.user 3)).amt kyve + 4000 ∧
    (turn.chain.b (.user 11)).amt kyve = ((turn.step gov wrapped).chain.b (.user 11)).amt kyve := by decide +kernel

/-- a failing transaction: the fee is paid and nothing else happens (the second message fails) -/
def failing : Op := several 3 [.send 3 (.user 4) (Coins.single kyve 10), .protocol (.createStaker 3 0 0)]

example : fairB turn failing = true ∧ ((turn.step gov failing).chain.b (.user 4)).amt kyve = (turn.chain.b (.user 4)).amt kyve ∧
    (turn.chain.b (.user 3)).amt kyve = ((turn.step gov failing).chain.b (.user 3)).amt kyve + 4000 := by decide +kernel

/-- a transaction that nobody signed, one without enough gas and one without enough fees do nothing -/
example : (turn.step gov (.tx ⟨[.plain (.send 3 (.user 4) (Coins.single kyve 10))], Coins.single kyve 4000, 200000, 4, none,
      [4], [], 0⟩)).chain.b (.user 3) = turn.chain.b (.user 3) ∧
    (turn.step gov (.tx ⟨[.plain (.protocol (.submit (Verif.Chain.Sample.bundle 1 7 0)))], Coins.single kyve 4000, 5500, 11,
      none, [11], [], 5000⟩)).chain.b (.user 11) = turn.chain.b (.user 11) ∧
    (turn.step gov (.tx ⟨[.plain (.send 3 (.user 4) (Coins.single kyve 10))], Coins.single kyve 3999, 200000, 3, none,
      [3], [], 0⟩)).chain.b (.user 3) = turn.chain.b (.user 3) := by decide +kernel

/-- C93, C95: the begin block mints, x/team and the pool get their shares, and the end block burns half of the rest -/
def block : App := submitted.step gov .endBlock
/-- the next begin block -/
def next : App := block.step gov (.beginBlock 10 1000000 false)

theorem hist_block : History gov start (setup ++ role ++ [submit] ++ [.endBlock]) block :=
  run_history hist_submitted [.endBlock] (by decide +kernel)

example : (submitted.chain.b (.mod .feeCollector)).amt kyve = 511002 ∧
    submitted.supply.amt kyve = block.supply.amt kyve + 255501 ∧ submitted.chain.endBlock.crashed = false ∧
    (block.chain.b (.mod .feeCollector)).amt kyve = 255501 := by decide +kernel

/-- of a provision of 1000000, x/team gets one half and the pool one quarter; the fee collector keeps the rest -/
example : (next.chain.b (.mod .team)).amt kyve = (block.chain.b (.mod .team)).amt kyve + 499999 ∧
    (next.chain.b (.pool 0)).amt kyve = (block.chain.b (.pool 0)).amt kyve + 250000 ∧
    (next.chain.b (.mod .feeCollector)).amt kyve = (block.chain.b (.mod .feeCollector)).amt kyve + 250001 ∧
    next.supply.amt kyve = block.supply.amt kyve + 1000000 := by decide +kernel

/-- C95: the hypotheses of `C95_begin_block` hold -/
example : block.chain.crashed = false ∧ block.teamHalted = false ∧ block.chain.halted = false ∧
    Team.ALLOCATION ≤ (start.chain.b (.mod .team)).amt kyve ∧ Team.Spec.totalIssued block.team ≤ Team.ALLOCATION ∧
    block.supply.amt kyve + 1000000 < 2 ^ 63 ∧
    Team.requiredModuleBalance block.team + 1000000 ≤ block.supply.amt kyve ∧
    1000000 * block.team.accounts.size < 2 * Dec.one ∧
    ({ block.chain with now := block.chain.now + 10 } : Chain).runners.length * 1000000 < 2 * Dec.one ∧
    ({ block.chain with now := block.chain.now + 10 } : Chain).runners.length = 1 ∧
    ({ block.chain with now := block.chain.now + 10 } : Chain).stoppers.length ≤ 1 := by decide +kernel

/-! ## fee allowances -/

/-- user 4 gives user 3 an allowance (x/feegrant, a dependency) -/
def allow : Op := .outside turn.chain.b turn.supply ((∅ : Map (Addr × Addr) Coins).set (4, 3) (Coins.single kyve 9000))
  Coins.zero Coins.zero Coins.zero Coins.zero
/-- after it -/
def allowed : App := turn.step gov allow
/-- user 3 uses it -/
def uses : Op := .tx ⟨[.plain (.send 3 (.user 1) (Coins.single kyve 10))], Coins.single kyve 4000, 200000, 3, some 4, [3], [],
  5000⟩

theorem hist_allowed : History gov start (setup ++ role ++ [allow]) allowed := by
  refine hist_turn.step allow ?_ (sane_of (by decide +kernel))
  show Books (turn.outside _ _ _ _ _ _ _).chain.b turn.supply
  have e : (turn.outside turn.chain.b turn.supply ((∅ : Map (Addr × Addr) Coins).set (4, 3) (Coins.single kyve 9000))
      Coins.zero Coins.zero Coins.zero Coins.zero).chain.b = turn.chain.b := by
    generalize turn = a
    generalize ((∅ : Map (Addr × Addr) Coins).set (4, 3) (Coins.single kyve 9000)) = g
    have hz : ∀ c : Coins, c.add Coins.zero = c := fun c => by
      ext d
      rw [Coins.amt_add]
      rfl
    funext x
    show (if x = .mod .delegation then _ else if x = .mod .stakers then _ else if x = .mod .funders then _ else
      (a.chain.b.upd (.mod .team) _) x) = _
    rw [hz, hz]
    split
    · rfl
    · split
      · rfl
      · split
        · rfl
        · unfold Bank.upd
          split
          · rename_i h; rw [h]
          · rfl
  rw [e]
  exact hist_turn.inv.books

/-- C94: user 4 did not take part, and pays the fee -/
example : fairB allowed uses = true ∧
    (allowed.chain.b (.user 4)).amt kyve = ((allowed.step gov uses).chain.b (.user 4)).amt kyve + 4000 ∧
    ((allowed.step gov uses).chain.b (.user 1)).amt kyve = (allowed.chain.b (.user 1)).amt kyve + 10 := by decide +kernel

/-- C48, C96: a transaction whose fee would be refunded uses the allowance twice: with 5000 left, the messages are
reverted although they succeed, and the fee is paid -/
def refundable : Op := .tx ⟨[.plain (.protocol (.submit (Verif.Chain.Sample.bundle 1 7 0)))], Coins.single kyve 4000, 200000, 11,
  some 4, [11], [], 5000⟩

example : (({ turn with grants := (∅ : Map (Addr × Addr) Coins).set (4, 11) (Coins.single kyve 9000) } : App).step gov
      refundable).chain.bun.proposals.get? 0 |>.map (·.storageId) |> (· = some 7) := by decide +kernel
example : (({ turn with grants := (∅ : Map (Addr × Addr) Coins).set (4, 11) (Coins.single kyve 5000) } : App).step gov
      refundable).chain.bun.proposals.get? 0 |>.map (·.storageId) |> (· = some 0) := by decide +kernel

/-! ## x/team -/

/-- two years later the account of x/team claims -/
def years : List Op :=
  [.endBlock, .beginBlock 70000000 1000000 false, .endBlock, .beginBlock 10 1000000 false,
   single 2 (.team (.claimUnlocked 2 0 1000 5)),
   single 1 (.team (.claimAccountRewards 1 0 700 6))]
/-- then -/
def claimed : App := run submitted years

theorem hist_claimed : History gov start (setup ++ role ++ [submit] ++ years) claimed :=
  run_history hist_submitted _ (by decide +kernel)

/-- the messages of x/team have in-range numbers, as a test -/
def teamB : Msg → Bool
  | .team (.create _ total c) => decide (total < 2 ^ 63 ∧ c < 2 ^ 62)
  | .team (.clawback _ _ cb) => decide (cb < 2 ^ 64)
  | _ => true

theorem sane_team : ∀ op ∈ setup ++ role ++ [submit] ++ years, SaneTeam op := by
  intro op ho m hm
  have hl : ((setup ++ role ++ [submit] ++ years).all fun op => op.msgs.all teamB) = true := by decide +kernel
  have hb := List.all_eq_true.1 (List.all_eq_true.1 hl op ho) _ hm
  cases m with
  | create x total c => exact of_decide_eq_true (p := total < 2 ^ 63 ∧ c < 2 ^ 62) hb
  | clawback x id cb => exact of_decide_eq_true (p := cb < 2 ^ 64) hb
  | claimUnlocked | claimAccountRewards | claimAuthorityRewards => trivial

/-- C97: what it claimed -/
example : claimed.chain.crashed = false ∧ claimed.teamHalted = false ∧
    (claimed.chain.b (.user 5)).amt kyve = 1000 ∧ (claimed.chain.b (.user 6)).amt kyve = 700 ∧
    (claimed.team.accounts.get? 0).map (fun a => (a.unlockedClaimed, a.totalRewards, a.rewardsClaimed)) =
      some (1000, 44842, 700) ∧
    Team.Spec.paid claimed.team = 1700 := by decide +kernel

end Verif.App.Sample
