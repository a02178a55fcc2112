import Verif.Chain.Spending
import Verif.Team.Model
import Verif.Global.Model

/-!
# The whole application

All modelled modules on one bank: the protocol (`Verif/Chain/Model.lean`), x/team, x/global, transactions with several
messages and fees, and the blocks in the order of /repo/app/app_config.go:116-160.
Dependencies that are not modelled (x/staking, x/distribution, x/gov's voting, IBC, ...) are the operation `outside`.
-/

set_option linter.dupNamespace false
namespace Verif.App
open Verif
open Verif.Chain (Chain)

/-- the state: the protocol with the bank, x/team, and what x/global works on (`supply` and `grants` belong to x/bank and
x/feegrant, dependencies); `height` is the block height -/
structure App where
  chain : Chain
  team : Team.State
  supply : Coins
  grants : Map (Addr × Addr) Coins
  params : Global.Params
  height : Nat
  teamHalted : Bool
  globalHalted : Bool

namespace App

/-- the bank -/
def bank (a : App) : Bank := a.chain.b

/-- what x/team sees -/
def tw (a : App) : Team.World := ⟨a.team, a.chain.b, a.chain.now, a.teamHalted⟩

/-- what x/global sees; the bond denomination is ukyve -/
def gw (a : App) : Global.World := ⟨a.chain.b, a.supply, a.grants, a.params, kyve, a.height, a.globalHalted⟩

/-- other balances.  What the accounts of x/delegation, x/stakers and x/funders have more is noted in the history variables
of these modules. -/
def setBank (c : Chain) (b : Bank) : Chain :=
  c.external b ((b (.mod .delegation)).sub (c.b (.mod .delegation))) ((b (.mod .stakers)).sub (c.b (.mod .stakers)))
    ((b (.mod .funders)).sub (c.b (.mod .funders)))

/-- after x/team -/
def withTeam (a : App) (w : Team.World) : App :=
  { a with team := w.team, teamHalted := w.halted, chain := setBank a.chain w.bank }

/-- after x/global -/
def withGlobal (a : App) (w : Global.World) : App :=
  { a with
    chain := setBank a.chain w.bank
    supply := w.supply
    grants := w.grants
    params := w.params
    globalHalted := w.halted }

end App

/-! ## messages -/

/-- the messages of x/team, /repo/x/team/keeper/msg_server_*.go -/
inductive TeamMsg where
  | create (auth : Addr) (total commencement : Nat)
  | claimUnlocked (auth : Addr) (id amount : Nat) (recipient : Addr)
  | clawback (auth : Addr) (id cb : Nat)
  | claimAccountRewards (auth : Addr) (id amount : Nat) (recipient : Addr)
  | claimAuthorityRewards (auth : Addr) (amount : Nat) (recipient : Addr)

/-- the same in the histories of x/team -/
def TeamMsg.op : TeamMsg → Team.Op
  | .create a t c => .create a t c
  | .claimUnlocked a i n r => .claimUnlocked a i n r
  | .clawback a i c => .clawback a i c
  | .claimAccountRewards a i n r => .claimAccountRewards a i n r
  | .claimAuthorityRewards a n r => .claimAuthorityRewards a n r

/-- who signs -/
def TeamMsg.signer : TeamMsg → Addr
  | .create a _ _ => a
  | .claimUnlocked a _ _ _ => a
  | .clawback a _ _ => a
  | .claimAccountRewards a _ _ _ => a
  | .claimAuthorityRewards a _ _ => a

/-- what x/team answers -/
def TeamMsg.exec (w : Team.World) : TeamMsg → Except String Team.World
  | .create a t c => Team.create w a t c
  | .claimUnlocked a i n r => Team.claimUnlocked w a i n r
  | .clawback a i c => Team.clawback w a i c
  | .claimAccountRewards a i n r => Team.claimAccountRewards w a i n r
  | .claimAuthorityRewards a n r => Team.claimAuthorityRewards w a n r

/-- a message: of the protocol, of x/team, x/global's parameter update, or a transfer (x/bank's `MsgSend`, dependency) -/
inductive Msg where
  | protocol (op : Chain.Chain.Op)
  | team (m : TeamMsg)
  | global (signer : Addr) (y : Global.Payload)
  | send (src : Addr) (dst : Acct) (c : Coins)

/-- who signs; the blocks of the protocol are signed by nobody -/
def Msg.signer : Msg → Option Addr
  | .protocol op => op.signer
  | .team m => some m.signer
  | .global a _ => some a
  | .send a _ _ => some a

/-- the coins the message asks its signer to pay -/
def Msg.spends : Msg → Coins
  | .protocol op => op.spends
  | .send _ _ c => c
  | _ => Coins.zero

/-- `sdk.MsgTypeURL`; the numbers are arbitrary, but different for different types of messages -/
def Msg.type : Msg → Global.MsgType
  | .protocol op => 10 + op.ctorIdx
  | .team m => 1 + m.ctorIdx
  | .global _ _ => 8
  | .send _ _ _ => 9

/-- the accounts that cannot receive transfers, /repo/app/app_config.go:190-211: all module accounts but x/gov's (a user
in this model), not the pools' -/
def blocked : Acct → Bool
  | .mod _ => true
  | _ => false

namespace App

/-- a message handler: the new state or an error.  What is not a message (the blocks of `Chain.Op`) is refused. -/
def exec (gov : Addr) (a : App) : Msg → Except String App
  | .protocol op =>
    if op.signer.isNone then .error "not a message"
    else (Chain.Chain.exec gov a.chain op).map (fun c => { a with chain := c })
  | .team m => (m.exec a.tw).map a.withTeam
  | .global s y => (Global.updateParams gov a.gw s y).map a.withGlobal
  | .send s d c =>
    if blocked d || c.isZero then .error "not allowed"
    else (a.chain.b.send (.user s) d c).map (fun b => { a with chain := setBank a.chain b })

/-- the messages one after the other, all or nothing (SDK `BaseApp.runMsgs`, dependency) -/
def execAll (gov : Addr) (a : App) : List Msg → Except String App
  | [] => .ok a
  | m :: l => match a.exec gov m with
    | .error e => .error e
    | .ok a' => execAll gov a' l

end App

/-! ## transactions -/

/-- what stands in a transaction: a message, or several messages wrapped in x/authz's `MsgExec` by somebody their signers
authorised (x/group's execution of a group's messages is of the same kind).  Simplification: nested wrappers are
flattened. -/
inductive Call where
  | plain (m : Msg)
  | wrapped (grantee : Addr) (ms : List Msg)

/-- the messages that are executed -/
def Call.msgs : Call → List Msg
  | .plain m => [m]
  | .wrapped _ ms => ms

/-- `sdk.MsgTypeURL` of the outer message -/
def Call.type : Call → Global.MsgType
  | .plain m => m.type
  | .wrapped _ _ => 7

/-- a transaction: messages, fee, gas limit, fee payer and granter, the accounts whose signatures are on it (checked by
the SDK's ante handlers, dependency), the pairs (account, grantee) for which x/authz has a sufficient authorization
(dependency), and the gas the ante handlers consumed before the gas adjustment -/
structure Tx where
  calls : List Call
  fee : Coins
  gas : Nat
  payer : Addr
  granter : Option Addr
  signers : List Addr
  authorized : List (Addr × Addr)
  gasBefore : Nat

/-- the messages that are executed, in this order -/
def Tx.msgs (t : Tx) : List Msg := t.calls.flatMap Call.msgs

/-- what x/global sees of it -/
def Tx.fees (t : Tx) : Global.Tx := ⟨t.calls.map Call.type, t.fee, t.gas, t.payer, t.granter⟩

/-- the signer of a plain message signed the transaction; for wrapped messages the grantee did, and the signer of each
message is the grantee or has authorised it -/
def Tx.allows (t : Tx) : Call → Bool
  | .plain m => match m.signer with | none => false | some s => t.signers.contains s
  | .wrapped g ms => t.signers.contains g &&
      ms.all (fun m => match m.signer with | none => false | some s => s == g || t.authorized.contains (s, g))

/-- `SigVerificationDecorator` (dependency, /repo/app/ante.go:26-58): the payer and the signers of all messages signed;
there is at least one message (SDK `validateBasicTxMsgs`) -/
def Tx.signed (t : Tx) : Bool :=
  !t.calls.isEmpty && t.signers.contains t.payer && t.calls.all t.allows

namespace App

/-- SDK `BaseApp.runTx` in FinalizeBlock with the handlers of /repo/app/ante.go:26-72: ante handlers; then the messages
and the post handler, whose effects are only kept if both succeed -/
def runTx (gov : Addr) (a : App) (t : Tx) : App :=
  if !t.signed then a
  else match Global.adjustGas a.params t.gas t.fees.msgs t.gasBefore with
  | .error _ => a
  | .ok _ => match Global.deductFee a.gw t.fees none with
    | .error _ => a
    | .ok w1 => match (a.withGlobal w1).execAll gov t.msgs with
      | .error _ => a.withGlobal w1
      | .ok a2 => match Global.refundFee a2.gw t.fees with
        | .error _ => a.withGlobal w1
        | .ok w3 => a2.withGlobal w3

/-- x/gov's end block (dependency): the messages of a passed proposal, all signed by x/gov's account (checked when the
proposal is submitted), all or nothing, without fees -/
def proposal (gov : Addr) (a : App) (ms : List Msg) : App :=
  if !ms.all (fun m => m.signer == some gov) then a
  else match a.execAll gov ms with
  | .error _ => a
  | .ok a' => a'

/-! ## blocks -/

/-- x/mint's begin block (dependency): the block provision goes to the fee collector -/
def mint (a : App) (provision : Nat) : App :=
  { a with
    chain := setBank a.chain
      (a.chain.b.upd (.mod .feeCollector) ((a.chain.b (.mod .feeCollector)).add (Coins.single kyve provision)))
    supply := a.supply.add (Coins.single kyve provision) }

/-- what x/team sees at the new block time -/
def twAt (a : App) (dt : Nat) : Team.World := { a.tw with now := a.chain.now + dt }

/-- x/team's begin block (/repo/x/team/abci.go:18-58) -/
def teamBlock (a : App) (dt provision : Nat) : App :=
  a.withTeam (Team.distribute (a.twAt dt) provision (a.supply.amt kyve))

/-- the begin blocks of x/bundles, x/delegation and x/stakers.  `SplitInflation` asks for the share of x/team again
(/repo/x/bundles/abci.go:31), after x/team has credited the rewards of this block.  Simplification: should that share
exceed the provision, the chain is halted and the rest of this block does not matter. -/
def protocolBlock (a : App) (dt provision : Nat) (restarted : Bool) : App :=
  { a with
    chain := a.chain.beginBlock dt provision (Team.blockProvision a.team provision (a.supply.amt kyve)).1 restarted
    teamHalted := a.teamHalted || (Team.blockProvision a.team provision (a.supply.amt kyve)).2
    height := a.height + 1 }

/-- the begin block (/repo/app/app_config.go:116-138): x/mint, x/team, x/bundles, x/delegation, x/stakers -/
def beginBlock (a : App) (dt provision : Nat) (restarted : Bool) : App :=
  ((a.mint provision).teamBlock dt provision).protocolBlock dt provision restarted

/-- the end block (/repo/app/app_config.go:141-160): x/pool, x/bundles, and x/global if there was no panic -/
def endBlock (a : App) : App :=
  if a.chain.endBlock.crashed then { a with chain := a.chain.endBlock }
  else ({ a with chain := a.chain.endBlock } : App).withGlobal
    (Global.endBlock ({ a with chain := a.chain.endBlock } : App).gw)

/-- everything else (x/staking, x/distribution, x/gov deposits, IBC, fee allowances): balances, supply and allowances
change arbitrarily, except that the accounts of x/delegation, x/stakers, x/funders and x/team can only receive coins -/
def outside (a : App) (b : Bank) (supply : Coins) (grants : Map (Addr × Addr) Coins) (gd gs gf gt : Coins) : App :=
  { a with
    chain := a.chain.external (b.upd (.mod .team) ((a.chain.b (.mod .team)).add gt)) gd gs gf
    supply := supply
    grants := grants }

/-- everything that can happen -/
inductive Op where
  | tx (t : Tx)
  | proposal (ms : List Msg)
  | beginBlock (dt provision : Nat) (restarted : Bool)
  | endBlock
  | outside (b : Bank) (supply : Coins) (grants : Map (Addr × Addr) Coins) (gd gs gf gt : Coins)

/-- what it does; nothing happens after a crash -/
def step (gov : Addr) (a : App) (op : Op) : App :=
  if a.chain.crashed then a
  else match op with
  | .tx t => a.runTx gov t
  | .proposal ms => a.proposal gov ms
  | .beginBlock dt p r => a.beginBlock dt p r
  | .endBlock => a.endBlock
  | .outside b s g gd gs gf gt => a.outside b s g gd gs gf gt

/-- an empty chain: no pools, stakers, delegations, funders, bundles, team accounts; the accounts of x/delegation,
x/stakers and x/funders are empty -/
def init (dp : Delegation.Params) (sp : Stakers.Params) (bp : Bundles.Params) (gp : Global.Params) (b : Bank)
    (supply : Coins) (now : Nat) : App :=
  { chain := Chain.Chain.init dp sp bp b now
    team := Team.State.init
    supply := supply
    grants := ∅
    params := gp
    height := 0
    teamHalted := false
    globalHalted := false }

end App
end Verif.App
