import Verif.Lib.Coins

/-!
# x/global

Model of /repo/x/global: the consensus minimum fee, gas adjustments, fee refunds, fee burning and the
parameter update.  A transaction runs through the ante handlers, its messages (abstract: an arbitrary function on
the state) and the post handler, as arranged in /repo/app/ante.go:26-58, 60-72.
Not modelled: signatures, memo, the ordering in the mempool (the priority is), events, blocked recipients.
-/

namespace Verif.Global
open Verif

/-- `sdk.MsgTypeURL` of a message -/
abbrev MsgType := Nat

/-- x/global/types/params.go:15-23 and global.pb.go -/
structure Params where
  minGasPrice : Dec
  burnRatio : Dec
  gasAdjustments : List (MsgType × Nat)
  gasRefunds : List (MsgType × Dec)

/-- x/global/types/params.go:31-139 `Params.Validate` (raw decimals are non-negative by construction;
a gas adjustment must be an `int64`-positive number) -/
def Params.validate (p : Params) : Bool :=
  decide (p.burnRatio ≤ Dec.one) && p.gasAdjustments.all (fun a => decide (a.2 < 2 ^ 63))
    && p.gasRefunds.all (fun r => decide (r.2 ≤ Dec.one))

/-- `sdk.FeeTx` -/
structure Tx where
  msgs : List MsgType
  fee : Coins
  gas : Nat
  payer : Addr
  granter : Option Addr

/-- `sdk.Coins.Max` (dependency), used in x/global/utils.go:80 -/
def coinsMax (a b : Coins) : Coins := Coins.ofFn (a.denoms ++ b.denoms) (fun d => Nat.max (a.amt d) (b.amt d))

/-- `sdk.Coins.IsAnyGTE` (dependency): some coin of `a` is at least the (non-zero) amount in `b` -/
def isAnyGTE (a b : Coins) : Bool := a.denoms.any (fun d => decide (b.amt d ≠ 0) && decide (b.amt d ≤ a.amt d))

/-- `ceil(gasPrice * gas)` for every price, x/global/utils.go:65-71 and 74-78 -/
def feesFor (prices : DecCoins) (gas : Nat) : Coins :=
  Coins.ofFn prices.denoms (fun d => Dec.ceil (Dec.mul (prices.amt d) (Dec.ofNat gas)))

/-- x/global/utils.go:63-81 the required fees; `validatorPrices` are the node's own minimum gas prices, used only in
CheckTx -/
def requiredFees (minGasPrice : Dec) (bond : Denom) (gas : Nat) (checkTx : Option DecCoins) : Coins :=
  let consensus := feesFor (Coins.single bond minGasPrice) gas
  match checkTx with
  | none => consensus
  | some validatorPrices => coinsMax consensus (feesFor validatorPrices gas)

/-- x/global/utils.go:45-87 `BuildTxFeeChecker` without the priority.  Gas limits of `2^63` and more never reach it (the
SDK's `Tx.ValidateBasic` rejects them); `getTxPriority` divides by the gas limit and panics when it is zero and a fee is
given. -/
def checkFee (p : Params) (bond : Denom) (checkTx : Option DecCoins) (tx : Tx) : Except String Coins :=
  let required := requiredFees p.minGasPrice bond tx.gas checkTx
  if !required.isZero && !isAnyGTE tx.fee required then .error "insufficient fees"
  else if tx.gas = 0 && !tx.fee.isZero then .error "division by zero"
  else .ok tx.fee

/-- x/global/utils.go:99-103 the price per gas a coin offers, in whole coins; prices that are no `int64` count as the
largest one -/
def coinPriority (fee : Coins) (gas : Nat) (d : Denom) : Nat :=
  if fee.amt d / gas < 2 ^ 63 then fee.amt d / gas else 2 ^ 63 - 1

/-- x/global/utils.go:98-107 the loop of `getTxPriority` -/
def priorityLoop (fee : Coins) (gas : Nat) : List Denom → Nat → Nat
  | [], priority => priority
  | d :: t, priority =>
    priorityLoop fee gas t
      (if priority = 0 ∨ coinPriority fee gas d < priority then coinPriority fee gas d else priority)

/-- x/global/utils.go:96-110 `getTxPriority` (the gas limit is neither zero nor `2^63` or more, see `checkFee`) -/
def txPriority (fee : Coins) (gas : Nat) : Nat := priorityLoop fee gas fee.denoms 0

/-- x/global/utils.go:45-90 `BuildTxFeeChecker`: the fee and the priority in the mempool -/
def feeChecker (p : Params) (bond : Denom) (checkTx : Option DecCoins) (tx : Tx) : Except String (Coins × Nat) :=
  match checkFee p bond checkTx tx with
  | .error e => .error e
  | .ok fee => .ok (fee, txPriority fee tx.gas)

/-- the SDK's `checkTxFeeWithValidatorMinGasPrices` (dependency), used up to height 1 (x/global/ante.go:44-49): only
CheckTx asks for fees -/
def defaultCheck (checkTx : Option DecCoins) (tx : Tx) : Except String Coins :=
  match checkTx with
  | none => .ok tx.fee
  | some prices =>
    if !prices.isZero && !isAnyGTE tx.fee (feesFor prices tx.gas) then .error "insufficient fees" else .ok tx.fee

/-- the state the decorators work on; `grants` are basic fee allowances (spend limits) by (granter, grantee) -/
structure World where
  bank : Bank
  supply : Coins
  grants : Map (Addr × Addr) Coins
  params : Params
  bond : Denom
  height : Nat
  halted : Bool

/-- `feegrant.Keeper.UseGrantedFees` with a basic allowance (dependency): the spend limit is lowered by the fee,
an exhausted allowance is removed. -/
def useGrant (g : Map (Addr × Addr) Coins) (granter payer : Addr) (fee : Coins) :
    Except String (Map (Addr × Addr) Coins) :=
  match g.get? (granter, payer) with
  | none => .error "fee allowance not found"
  | some limit =>
    if fee.le limit then
      .ok (if (limit.sub fee).isZero then g.del (granter, payer) else g.set (granter, payer) (limit.sub fee))
    else .error "fee limit exceeded"

/-- x/global/utils.go:23-39 `GetFeeAccount` (the SDK's `checkDeductFee` contains the same code) -/
def feeAccount (w : World) (tx : Tx) : Except String (Addr × World) :=
  match tx.granter with
  | none => .ok (tx.payer, w)
  | some g =>
    if g = tx.payer then .ok (tx.payer, w)
    else match useGrant w.grants g tx.payer tx.fee with
      | .error e => .error e
      | .ok gs => .ok (g, { w with grants := gs })

/-- `ctx.GasMeter().ConsumeGas` (dependency): panics when the limit is exceeded -/
def consumeGas (limit consumed amount : Nat) : Except String Nat :=
  if consumed + amount > limit then .error "out of gas" else .ok (consumed + amount)

/-- the inner loop x/global/ante.go:73-78: the first matching adjustment -/
def adjustmentOf (m : MsgType) : List (MsgType × Nat) → Nat
  | [] => 0
  | a :: t => if m = a.1 then a.2 else adjustmentOf m t

/-- x/global/ante.go:69-82 `GasAdjustmentDecorator`: new gas consumption -/
def adjustGas (p : Params) (limit : Nat) : List MsgType → Nat → Except String Nat
  | [], consumed => .ok consumed
  | m :: t, consumed =>
    match consumeGas limit consumed (adjustmentOf m p.gasAdjustments) with
    | .error e => .error e
    | .ok c => adjustGas p limit t c

/-- x/global/ante.go:42-52 `DeductFeeDecorator` with the SDK's `checkDeductFee` (dependency): refuse a gas limit of zero,
check the fee (from height 2 on with the code above), find the account, move the fee to the fee collector.  `checkTx` as
in `requiredFees`. -/
def deductFee (w : World) (tx : Tx) (checkTx : Option DecCoins) : Except String World :=
  if tx.gas = 0 then .error "must provide positive gas"
  else
    match (if w.height > 1 then checkFee w.params w.bond checkTx tx else defaultCheck checkTx tx) with
    | .error e => .error e
    | .ok fee =>
      match feeAccount w tx with
      | .error e => .error e
      | .ok aw =>
        match aw.2.bank.send (.user aw.1) (.mod .feeCollector) fee with
        | .error e => .error e
        | .ok b => .ok { aw.2 with bank := b }

/-- x/global/post.go:51-58 the refund percentage of a message type -/
def refundFraction (m : MsgType) : List (MsgType × Dec) → Dec
  | [] => 0
  | r :: t => if m = r.1 then r.2 else refundFraction m t

/-- x/global/post.go:66-70 the refund for a fee -/
def refundOf (fee : Coins) (q : Dec) : Coins := fee.mapAmt (fun n => Dec.trunc (Dec.mul (Dec.ofNat n) q))

/-- x/global/post.go:35-83 `RefundFeeDecorator.PostHandle` -/
def refundFee (w : World) (tx : Tx) : Except String World :=
  if tx.fee.isZero then .ok w
  else match tx.msgs with
  | [m] =>
    if refundFraction m w.params.gasRefunds = 0 then .ok w
    else match feeAccount w tx with
      | .error e => .error e
      | .ok aw =>
        match aw.2.bank.send (.mod .feeCollector) (.user aw.1)
            (refundOf tx.fee (refundFraction m w.params.gasRefunds)) with
        | .error e => .error e
        | .ok b => .ok { aw.2 with bank := b }
  | _ => .ok w

/-- A transaction in FinalizeBlock (SDK `BaseApp.runTx`, dependency): ante handlers; then messages and post handler,
whose effects are only kept if both succeed.  `exec` is the effect of the messages.  `gasBefore` is the gas consumed
by the ante handlers before the gas adjustment. -/
def runTx (w : World) (tx : Tx) (gasBefore : Nat) (exec : World → Except String World) : World :=
  match adjustGas w.params tx.gas tx.msgs gasBefore with
  | .error _ => w
  | .ok _ =>
    match deductFee w tx none with
    | .error _ => w
    | .ok w1 =>
      match exec w1 with
      | .error _ => w1
      | .ok w2 =>
        match refundFee w2 tx with
        | .error _ => w1
        | .ok w3 => w3

/-- `bank.BurnCoins` (dependency) -/
def burn (w : World) (m : Mod) (c : Coins) : Except String World :=
  if c.le (w.bank (.mod m)) then
    .ok { w with bank := w.bank.upd (.mod m) ((w.bank (.mod m)).sub c), supply := w.supply.sub c }
  else .error "insufficient funds"

/-- x/global/abci.go:36-41 the coins to burn -/
def burnAmount (fees : Coins) (ratio : Dec) : Coins := fees.mapAmt (fun n => Dec.trunc (Dec.mul (Dec.ofNat n) ratio))

/-- x/global/abci.go:17-47 `EndBlocker` -/
def endBlock (w : World) : World :=
  if w.height = 1 then w
  else if w.params.burnRatio = 0 then w
  else if (w.bank (.mod .feeCollector)).isZero then w
  else match burn w .feeCollector (burnAmount (w.bank (.mod .feeCollector)) w.params.burnRatio) with
    | .error _ => { w with halted := true }
    | .ok w' => w'

/-- the JSON payload of a parameter update: the fields it mentions; a list element may leave out fields.  A refund
without a fraction is refused by `ValidateBasic` (the fraction is nil), so it is not represented. -/
structure Payload where
  minGasPrice : Option Dec
  burnRatio : Option Dec
  gasAdjustments : Option (List (Option MsgType × Option Nat))
  gasRefunds : Option (List (Option MsgType × Dec))

/-- the type of a message that is not given: the empty string -/
def noType : MsgType := 0

/-- `json.Unmarshal` of a list into an existing slice: element `i` is decoded into element `i`, so the fields left out
are those that stood there before; the result is as long as the payload -/
def mergeAdjustments : List (MsgType × Nat) → List (Option MsgType × Option Nat) → List (MsgType × Nat)
  | _, [] => []
  | [], q :: qs => (q.1.getD noType, q.2.getD 0) :: mergeAdjustments [] qs
  | e :: es, q :: qs => (q.1.getD e.1, q.2.getD e.2) :: mergeAdjustments es qs

/-- the same for refunds -/
def mergeRefunds : List (MsgType × Dec) → List (Option MsgType × Dec) → List (MsgType × Dec)
  | _, [] => []
  | [], q :: qs => (q.1.getD noType, q.2) :: mergeRefunds [] qs
  | e :: es, q :: qs => (q.1.getD e.1, q.2) :: mergeRefunds es qs

/-- `json.Unmarshal(payload, &params)`: mentioned fields are overwritten -/
def Payload.apply (y : Payload) (p : Params) : Params :=
  ⟨y.minGasPrice.getD p.minGasPrice, y.burnRatio.getD p.burnRatio,
   match y.gasAdjustments with | none => p.gasAdjustments | some l => mergeAdjustments p.gasAdjustments l,
   match y.gasRefunds with | none => p.gasRefunds | some l => mergeRefunds p.gasRefunds l⟩

/-- x/global/types/params.go:26-28 `DefaultParams` -/
def Params.default : Params := ⟨0, 0, [], []⟩

/-- x/global/keeper/msg_server_update_params.go:16-35 and types/msgs.go:20-34 (`ValidateBasic`, which validates the
payload applied to the default parameters) -/
def updateParams (authority : Addr) (w : World) (signer : Addr) (payload : Payload) : Except String World :=
  if !(payload.apply .default).validate then .error "invalid params"
  else if signer ≠ authority then .error "invalid authority"
  else .ok { w with params := payload.apply w.params }

end Verif.Global
