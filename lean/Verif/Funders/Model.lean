import Verif.Lib.Coins

/-!
# x/funders

Model of /repo/x/funders: funding and defunding pools, charging funders for a finalized bundle, eviction of the
lowest funder, parameter update (genesis: `Verif/Funders/Genesis.lean`).
Not modelled: events, paginated queries, the descriptive fields of a funder; the second store index of fundings
(`FundingKeyPrefixByPool`, written together with the first one in `SetFunding`, read only by queries).
-/

set_option linter.dupNamespace false

namespace Verif.Funders
open Verif

/-- proto `WhitelistCoinEntry` (x/funders/types/params.pb.go) -/
structure Entry where
  denom : Denom
  decimals : Nat
  minAmount : Nat
  minPerBundle : Nat
  weight : Dec
deriving DecidableEq, Repr

/-- x/funders/types/params.go:19-24 -/
structure Params where
  whitelist : List Entry
  minMultiple : Nat
deriving DecidableEq, Repr

/-- x/funders/types/params.go:27-40 `DefaultParams` -/
def Params.default : Params := ⟨[⟨kyve, 6, 1000000000, 100000, Dec.one⟩], 20⟩

/-- proto `Funding` (x/funders/types/funders.pb.go); its address and pool id are its key -/
structure Funding where
  funder : Addr
  pool : Nat
  amounts : Coins
  perBundle : Coins
  totalFunded : Coins
deriving DecidableEq, Repr

/-- x/funders/types/keys.go:21 -/
def MaxFunders : Nat := 50

/-- x/funders store.  `active` is `FundingState` per pool (its list of active funder addresses). -/
structure State where
  funders : Map Addr Unit
  fundings : Map (Addr × Nat) Funding
  active : Map Nat (List Addr)
  params : Params
  /-- history variable: coins the module account received from outside (see `Op.external`); not read by the model -/
  gifts : Coins

/-- x/funders/keeper/getters_funding.go:25-39 `GetFunding` -/
def State.funding? (s : State) (a : Addr) (pool : Nat) : Option Funding := s.fundings.get? (a, pool)

/-- x/funders/keeper/getters_funding.go:92-107 `SetFunding` -/
def State.setFunding (s : State) (f : Funding) : State :=
  { s with fundings := s.fundings.set (f.funder, f.pool) f }

/-- x/funders/keeper/getters_funding_state.go:51-58 `SetFundingState` -/
def State.setActive (s : State) (pool : Nat) (l : List Addr) : State := { s with active := s.active.set pool l }

/-- x/funders/keeper/logic_funders.go:14-20 `CreateFundingState` -/
def State.createFundingState (s : State) (pool : Nat) : State := s.setActive pool []

/-- x/funders/keeper/getters_funding_state.go:60-69 `GetActiveFundings` -/
def State.activeFundings (s : State) (pool : Nat) (l : List Addr) : List Funding :=
  l.filterMap (fun a => s.funding? a pool)

/-- `GetCoinWhitelistMap` (x/funders/keeper/logic_funders.go:47-56): the last entry of a denom wins -/
def Params.entry? (p : Params) (d : Denom) : Option Entry := p.whitelist.reverse.find? (fun e => e.denom == d)

/-- is `d` in the whitelist map? -/
def Params.listed (p : Params) (d : Denom) : Bool := (p.entry? d).isSome

/-- x/funders/types/funders.go:14 score of one coin -/
def Entry.score (e : Entry) (amount : Nat) : Nat :=
  Dec.trunc (Dec.quo (e.weight * amount) (Dec.ofNat (10 ^ e.decimals)))

/-- x/funders/types/funders.go:8-19 `GetScore`: `none` is the panic of `TruncateInt64`; the sum wraps at 2^64 -/
def score (p : Params) (c : Coins) : Option Nat :=
  c.denoms.foldl (fun acc d => match acc, p.entry? d with
    | none, _ => none
    | some x, none => some x
    | some x, some e => if e.score (c.amt d) < 2 ^ 63 then some (u64add x (e.score (c.amt d))) else none) (some 0)

/-- x/funders/types/funders.go:23-33 `CleanAmountsPerBundle` -/
def Funding.clean (f : Funding) : Funding :=
  { f with perBundle := f.perBundle.filter (fun d => f.amounts.amt d != 0) }

/-- `DenomsSubsetOf` (cosmos-sdk types/coin.go; for sorted coin sets without zeros) -/
def subsetOf (a b : Coins) : Bool := a.denoms.all (fun d => b.amt d != 0)

/-- `IsAnyGT` (cosmos-sdk types/coin.go): some coin of `a` exceeds a *positive* amount of the same coin in `b` -/
def isAnyGT (a b : Coins) : Bool := a.denoms.any (fun d => decide (a.amt d > b.amt d) && b.amt d != 0)

/-- x/funders/keeper/logic_funders.go:140-146 minimum funding amounts as coins -/
def Params.minAmounts (p : Params) : Coins := Coins.sumL (p.whitelist.map (fun e => Coins.single e.denom e.minAmount))

/-- x/funders/keeper/logic_funders.go:140-146 minimum amounts per bundle as coins -/
def Params.minPerBundles (p : Params) : Coins :=
  Coins.sumL (p.whitelist.map (fun e => Coins.single e.denom e.minPerBundle))

/-- x/funders/keeper/logic_funders.go:137-187 `ensureParamsCompatibility`; returns the cleaned funding.
A multiple of 2^63 or more is negative as `int64`, so `MulInt` panics unless there is nothing to multiply. -/
def ensureParams (p : Params) (f0 : Funding) : Except String Funding :=
  let f := f0.clean
  if !subsetOf f.amounts f.perBundle then .error "coin without amount per bundle"
  else if !subsetOf f.amounts p.minAmounts then .error "coin not whitelisted"
  else if !subsetOf f.perBundle p.minPerBundles then .error "amount per bundle coin not whitelisted"
  else if isAnyGT p.minAmounts f.amounts then .error "below min funding amount"
  else if isAnyGT p.minPerBundles f.perBundle then .error "below min amount per bundle"
  else if p.minMultiple ≥ 2 ^ 63 ∧ f.perBundle.isZero = false then .error "panic: negative coin amount"
  else if p.minMultiple > 0 ∧ isAnyGT (f.perBundle.mapAmt (· * p.minMultiple)) f.amounts then
    .error "below funding multiple"
  else .ok f

/-- `SetInactive` (x/funders/types/funders.go:59-67): overwrite the first occurrence with the last element, drop the
last element -/
def setInactive (l : List Addr) (a : Addr) : List Addr :=
  if a ∈ l then (l.set (l.idxOf a) (l.getLastD 0)).dropLast else l

/-- `SetActive` (x/funders/types/funders.go:70-78) -/
def setActive (l : List Addr) (a : Addr) : List Addr := if a ∈ l then l else l ++ [a]

/-- the loop of `GetLowestFunding` (x/funders/keeper/logic_funders.go:120-125): `none` if a score panics -/
def lowestLoop (p : Params) : Funding → List Funding → Option Funding
  | low, [] => some low
  | low, f :: fs =>
    match score p f.amounts, score p low.amounts with
    | some x, some y => if x < y then lowestLoop p f fs else lowestLoop p low fs
    | _, _ => none

/-- x/funders/keeper/logic_funders.go:112-128 `GetLowestFunding` -/
def lowestFunding (p : Params) : List Funding → Option Funding
  | [] => none
  | f :: fs => lowestLoop p f (f :: fs)

/-- state, active list of the pool (not yet written) and balances -/
structure Work where
  s : State
  l : List Addr
  b : Bank

/-- x/funders/keeper/logic_funders.go:217-226: pay back and remove the lowest funder -/
def evict (s : State) (l : List Addr) (b : Bank) (low : Funding) : Except String Work :=
  match b.send (.mod .funders) (.user low.funder) low.amounts with
  | .error e => .error e
  | .ok b' => .ok ⟨s.setFunding { low with amounts := Coins.zero, perBundle := Coins.zero }, setInactive l low.funder, b'⟩

/-- x/funders/keeper/logic_funders.go:195-238 `ensureFreeSlot` -/
def ensureFreeSlot (s : State) (pool : Nat) (l : List Addr) (b : Bank) (f : Funding) : Except String Work :=
  if (s.activeFundings pool l).length < MaxFunders then .ok ⟨s, l, b⟩
  else match lowestFunding s.params (s.activeFundings pool l) with
    | none => .error "no lowest funding (or panic)"
    | some low =>
      if low.funder = f.funder then .ok ⟨s, l, b⟩
      else match score s.params f.amounts, score s.params low.amounts with
        | some x, some y => if x < y then .error "funds too low" else evict s l b low
        | _, _ => .error "panic"

/-- `MsgFundPool` -/
structure FundMsg where
  creator : Addr
  pool : Nat
  amounts : Coins
  perBundle : Coins

/-- x/funders/keeper/msg_server_fund_pool.go:37-61: the new or updated funding.  Coins already present in the
funding's amounts per bundle are kept unless the message sets them. -/
def mergeFunding (old : Option Funding) (m : FundMsg) : Funding :=
  match old with
  | some f =>
    { f with
      amounts := f.amounts.add m.amounts
      perBundle := m.perBundle.add (f.perBundle.filter (fun d => m.perBundle.amt d == 0)) }
  | none => ⟨m.creator, m.pool, m.amounts, m.perBundle, Coins.zero⟩

/-- x/funders/keeper/msg_server_fund_pool.go:75-86: take the coins, activate and store the funding -/
def finishFund (w : Work) (m : FundMsg) (f : Funding) : Except String (State × Bank) :=
  match w.b.send (.user m.creator) (.mod .funders) m.amounts with
  | .error e => .error e
  | .ok b' => .ok ((w.s.setFunding f).setActive m.pool (setActive w.l f.funder), b')

/-- x/funders/keeper/msg_server_fund_pool.go:17-96 `FundPool` (`ValidateBasic`:
x/funders/types/message_fund_pool.go:34-56).  `poolExists` is the answer of x/pool. -/
def fundPool (s : State) (b : Bank) (poolExists : Bool) (m : FundMsg) : Except String (State × Bank) :=
  if m.amounts.isZero && m.perBundle.isZero then .error "empty request"
  else if !s.funders.has m.creator then .error "funder does not exist"
  else if !poolExists then .error "pool does not exist"
  else match s.active.get? m.pool with
    | none => .error "funding state does not exist"
    | some l =>
      match ensureParams s.params (mergeFunding (s.funding? m.creator m.pool) m) with
      | .error e => .error e
      | .ok f =>
        match ensureFreeSlot s m.pool l b f with
        | .error e => .error e
        | .ok w => finishFund w m f

/-- `MsgDefundPool` -/
structure DefundMsg where
  creator : Addr
  pool : Nat
  amounts : Coins

/-- x/funders/keeper/msg_server_defund_pool.go:50-60 -/
def finishDefund (s : State) (b : Bank) (m : DefundMsg) (l : List Addr) (pay : Coins) (f : Funding) :
    Except String (State × Bank) :=
  match b.send (.mod .funders) (.user m.creator) pay with
  | .error e => .error e
  | .ok b' =>
    .ok ((s.setFunding f).setActive m.pool (if f.amounts.isZero then setInactive l f.funder else l), b')

/-- x/funders/keeper/msg_server_defund_pool.go:18-68 `DefundPool`.  A missing funding state calls `PanicHalt`; the
proofs show it is never missing; here it is an error. -/
def defundPool (s : State) (b : Bank) (m : DefundMsg) : Except String (State × Bank) :=
  if m.amounts.isZero then .error "empty amount"
  else match s.funding? m.creator m.pool with
    | none => .error "funding does not exist"
    | some f =>
      match s.active.get? m.pool with
      | none => .error "HALT: funding state does not exist"
      | some l =>
        if (f.amounts.min m.amounts).isZero then .error "funds too low"
        else match ensureParams s.params { f with amounts := f.amounts.sub (f.amounts.min m.amounts) } with
          | .error e => .error e
          | .ok f' => finishDefund s b m l (f.amounts.min m.amounts) f'

/-- x/funders/types/funders.go:36-44 the coins charged for one bundle -/
def Funding.charge (p : Params) (f : Funding) : Coins := (f.amounts.min f.perBundle).filter p.listed

/-- x/funders/types/funders.go:35-50 `ChargeOneBundle`, the funding afterwards -/
def Funding.charged (p : Params) (f : Funding) : Funding :=
  Funding.clean { f with totalFunded := f.totalFunded.add (f.charge p), amounts := f.amounts.sub (f.charge p) }

/-- loop state of `ChargeFundersOfPool` -/
structure Charge where
  s : State
  l : List Addr
  paid : Coins

/-- x/funders/keeper/logic_funders.go:82-88 one iteration -/
def chargeOne (c : Charge) (f : Funding) : Charge :=
  let f' := f.charged c.s.params
  ⟨c.s.setFunding f', if f'.amounts.isZero then setInactive c.l f'.funder else c.l, c.paid.add (f.charge c.s.params)⟩

/-- x/funders/keeper/logic_funders.go:64-108 `ChargeFundersOfPool` with recipient x/pool (its only caller,
x/bundles/keeper/logic_bundles.go:579).  If the transfer fails the store was written already: `PanicHalt` in the
caller does not revert. -/
def chargeFundersOfPool (s : State) (b : Bank) (pool : Nat) : Except String (Coins × State × Bank) :=
  match s.active.get? pool with
  | none => .error "funding state does not exist"
  | some l =>
    let c := (s.activeFundings pool l).foldl chargeOne ⟨s, l, Coins.zero⟩
    if (s.activeFundings pool l).isEmpty then .ok (Coins.zero, s, b)
    else match b.send (.mod .funders) (.mod .pool) c.paid with
      | .error e => .error e
      | .ok b' => .ok (c.paid, c.s.setActive pool c.l, b')

/-- x/funders/keeper/logic_funders.go:22-32 `GetTotalActiveFunding` -/
def totalActiveFunding (s : State) (pool : Nat) : Coins :=
  match s.active.get? pool with
  | none => Coins.zero
  | some l => Coins.sumL (l.map (fun a => match s.funding? a pool with | some f => f.amounts | none => Coins.zero))

/-- x/funders/keeper/msg_server_create_funder.go:14-43 -/
def createFunder (s : State) (a : Addr) : Except String State :=
  if s.funders.has a then .error "funder already exists" else .ok { s with funders := s.funders.set a () }

/-- one element of the list `coin_whitelist` in the JSON payload of a parameter update: the fields it gives.  The
types of the fields (x/funders/types/params.pb.go:31-46) make decoding fail for anything else than what is here; a
negative amount or weight or an empty denom is refused wherever it stands (x/funders/types/params.go:52-66), so it is
not represented either. -/
structure EntryPatch where
  denom : Option Denom := none
  decimals : Option Nat := none
  minAmount : Option Nat := none
  minPerBundle : Option Nat := none
  weight : Option Dec := none
deriving DecidableEq, Repr

/-- the JSON payload of a parameter update (x/funders/types/params.pb.go:97-103).  Simplified: each key at most once;
a `null` list (refused, since it drops the native coin) is the empty list. -/
structure ParamsPayload where
  whitelist : Option (List EntryPatch) := none
  minMultiple : Option Nat := none
deriving DecidableEq, Repr

/-- `json.Unmarshal` into an existing entry: the fields that are given -/
def Entry.merge (e : Entry) (q : EntryPatch) : Entry :=
  ⟨q.denom.getD e.denom, q.decimals.getD e.decimals, q.minAmount.getD e.minAmount, q.minPerBundle.getD e.minPerBundle,
    q.weight.getD e.weight⟩

/-- a new entry decoded from an element that gives a denom (others are refused by `ParamsPayload.valid`) -/
def EntryPatch.fresh (q : EntryPatch) : Entry :=
  ⟨q.denom.getD kyve, q.decimals.getD 0, q.minAmount.getD 0, q.minPerBundle.getD 0, q.weight.getD 0⟩

/-- `json.Unmarshal` of a list into an existing slice of pointers: element `i` is decoded into what element `i`
already points to, the result is as long as the payload (encoding/json, `(*decodeState).array`) -/
def mergeList : List Entry → List EntryPatch → List Entry
  | _, [] => []
  | [], q :: qs => q.fresh :: mergeList [] qs
  | e :: es, q :: qs => e.merge q :: mergeList es qs

/-- `json.Unmarshal(payload, &params)` -/
def Params.merge (p : Params) (y : ParamsPayload) : Params :=
  ⟨match y.whitelist with | none => p.whitelist | some l => mergeList p.whitelist l, y.minMultiple.getD p.minMultiple⟩

/-- x/funders/types/msgs.go:20-35 `ValidateBasic`: the payload decoded into the default parameters is valid
(x/funders/types/params.go:44-77).  The default has one entry, so the later ones must give everything but the
decimals. -/
def ParamsPayload.valid (y : ParamsPayload) : Bool :=
  (y.whitelist.getD []).all (fun q => decide (q.decimals.getD 0 < 2 ^ 32)) &&
  decide (y.minMultiple.getD 0 < 2 ^ 64) &&
  ((y.whitelist.getD []).drop 1).all (fun q =>
    q.denom.isSome && q.minAmount.isSome && q.minPerBundle.isSome && q.weight.isSome) &&
  (Params.default.merge y).whitelist.any (fun e => e.denom == kyve)

/-- x/funders/keeper/msg_server_update_params.go:17-35: the payload decoded into the current parameters is stored
without being validated (`ValidateBasic`, called by the message router, decodes it into the defaults) -/
def updateParams (gov : Addr) (s : State) (authority : Addr) (y : ParamsPayload) : Except String State :=
  if !y.valid then .error "invalid params"
  else if gov ≠ authority then .error "invalid authority"
  else .ok { s with params := s.params.merge y }

/-- everything that touches x/funders -/
inductive Op where
  | createFunder (a : Addr)
  /-- `CreatePool` in x/pool; pool ids are fresh (`Pool.C40_create_effect`), so nothing happens for a used id -/
  | poolCreated (id : Nat)
  /-- `poolExists` is x/pool's answer; any answer is allowed here -/
  | fund (poolExists : Bool) (m : FundMsg)
  | defund (m : DefundMsg)
  /-- a bundle of the pool was finalized -/
  | charge (pool : Nat)
  | updateParams (authority : Addr) (y : ParamsPayload)
  /-- anything else on the chain: every account but the funders module account may change arbitrarily, and the funders
  module account may receive coins (app/app_config.go:190-207 blocks module accounts as recipients of `MsgSend` only;
  `JoinPool` in x/stakers sends coins to an arbitrary address given by the user) -/
  | external (b : Bank) (gift : Coins)

/-- module state and balances -/
structure World where
  s : State
  b : Bank

/-- a failing message changes nothing -/
def orElse (w : World) : Except String (State × Bank) → World
  | .ok r => ⟨r.1, r.2⟩
  | .error _ => w

/-- a failing message changes nothing -/
def orElseS (w : World) : Except String State → World
  | .ok s => ⟨s, w.b⟩
  | .error _ => w

/-- a failing charge (never happens, see `C34_charge_succeeds`) changes nothing -/
def orElseC (w : World) : Except String (Coins × State × Bank) → World
  | .ok r => ⟨r.2.1, r.2.2⟩
  | .error _ => w

/-- one operation -/
def step (gov : Addr) (w : World) : Op → World
  | .createFunder a => orElseS w (createFunder w.s a)
  | .poolCreated id => if w.s.active.has id then w else ⟨w.s.createFundingState id, w.b⟩
  | .fund ok m => orElse w (fundPool w.s w.b ok m)
  | .defund m => orElse w (defundPool w.s w.b m)
  | .charge id => orElseC w (chargeFundersOfPool w.s w.b id)
  | .updateParams a y => orElseS w (updateParams gov w.s a y)
  | .external b' g =>
    ⟨{ w.s with gifts := w.s.gifts.add g }, fun a => if a = .mod .funders then (w.b a).add g else b' a⟩

/-- a history -/
def run (gov : Addr) (w : World) (ops : List Op) : World := ops.foldl (step gov) w

/-- empty genesis: no funders, no pools, the funders account is empty -/
def World.init (b : Bank) : World := ⟨⟨∅, ∅, ∅, .default, Coins.zero⟩, fun a => if a = .mod .funders then Coins.zero else b a⟩

end Verif.Funders
