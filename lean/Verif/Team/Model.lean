import Verif.Lib.Coins

/-!
# x/team

Model of /repo/x/team: vesting curves, claims, clawback, account creation and the per-block inflation
distribution.  `uint64`/`int64` conversions are modelled with wrap-around.
Not modelled: events, queries other than `GetTeamInfo`'s numbers, bech32 validation.
-/

namespace Verif.Team
open Verif

/-- x/team/types/keys.go:22 `VESTING_DURATION` -/
def VESTING : Nat := 3 * 365 * 24 * 3600
/-- x/team/types/keys.go:25 `UNLOCK_DURATION` -/
def UNLOCK : Nat := 2 * 365 * 24 * 3600
/-- x/team/types/keys.go:28 `CLIFF_DURATION` -/
def CLIFF : Nat := 1 * 365 * 24 * 3600
/-- x/team/types/types.go:46 `TEAM_ALLOCATION_STRING` -/
def ALLOCATION : Nat := 165000000000000000
/-- x/team/types/types.go:47 `TGE_STRING` = 2023-02-01T10:34:15 as unix time (types.go:80-85) -/
def TGE : Nat := 1675247655
/-- x/team/types/types.go:44 the foundation authority (an arbitrary fixed address) -/
def FOUNDATION : Addr := 1
/-- x/team/types/types.go:45 the BCP authority (an arbitrary fixed address, different from the other) -/
def BCP : Addr := 2

/-- proto `TeamVestingAccount` (x/team/types/team.pb.go) -/
structure Account where
  id : Nat
  totalAllocation : Nat
  commencement : Nat
  clawback : Nat
  unlockedClaimed : Nat
  lastClaimedTime : Nat
  totalRewards : Nat
  rewardsClaimed : Nat
deriving DecidableEq, Repr

/-- `uint64(LegacyNewDec(int64(a)).Mul(LegacyNewDec(int64(num))).Quo(LegacyNewDec(int64(den))).TruncateInt64())`
as used in x/team/keeper/logic_team.go:151-155 and 192-196.  `int64(a)` is negative for `a ≥ 2^63`; `Mul`, `Quo` and
`TruncateInt64` are symmetric in the sign, and the final conversion wraps.  `num`, `den` are durations below
`2^63`. -/
def scaled (a num den : Nat) : Nat :=
  if a < 2 ^ 63 then
    Dec.trunc (Dec.quo (Dec.mul (Dec.ofNat a) (Dec.ofNat num)) (Dec.ofNat den))
  else
    (2 ^ 64 - Dec.trunc (Dec.quo (Dec.mul (Dec.ofNat (2 ^ 64 - a)) (Dec.ofNat num)) (Dec.ofNat den))) % 2 ^ 64

/-- x/team/keeper/logic_team.go:129-160 `getVestedAmount` -/
def vestedAmount (a : Account) (time : Nat) : Nat :=
  let d0 := if time > a.commencement then time - a.commencement else 0
  let d := if 0 < a.clawback ∧ a.clawback < time then u64sub a.clawback a.commencement else d0
  if d < CLIFF then 0
  else if d < VESTING then scaled a.totalAllocation d VESTING
  else a.totalAllocation

/-- x/team/keeper/logic_team.go:163-167 `getVestingMaxAmount` -/
def maxAmount (a : Account) : Nat := vestedAmount a (u64add a.commencement VESTING)

/-- x/team/keeper/logic_team.go:170-173 `getLockUpReferenceDate` -/
def lockUpReferenceDate (a : Account) : Nat := u64add (max a.commencement TGE) CLIFF

/-- x/team/keeper/logic_team.go:177-201 `getUnlockedAmount` -/
def unlockedAmount (a : Account) (time : Nat) : Nat :=
  let tu := lockUpReferenceDate a
  if time < tu then 0
  else if time - tu < UNLOCK then scaled (vestedAmount a time) (time - tu) UNLOCK
  else maxAmount a

/-- x/team/keeper/logic_team.go:51-65 `GetVestingStatus`, the field `CurrentClaimableAmount` -/
def claimable (a : Account) (time : Nat) : Nat :=
  if unlockedAmount a time > a.unlockedClaimed then unlockedAmount a time - a.unlockedClaimed else 0

/-- x/team store: accounts, counter and `Authority` (getters_team_vesting_account.go:16-63) -/
structure State where
  accounts : Map Nat Account
  count : Nat
  authTotal : Nat
  authClaimed : Nat
deriving Repr

/-- empty store -/
def State.init : State := ⟨∅, 0, 0, 0⟩

/-- x/team/keeper/logic_team.go:87-93 `GetIssuedTeamAllocation` (uint64 addition) -/
def issued (s : State) : Nat := s.accounts.vals.foldl (fun u a => u64add u (maxAmount a)) 0

/-- x/team/keeper/logic_team.go:95-125 `GetTeamInfo`, the field `RequiredModuleBalance` (uint64 arithmetic) -/
def requiredModuleBalance (s : State) : Nat :=
  s.accounts.vals.foldl
    (fun r a => u64sub (u64add r (u64sub a.totalRewards a.rewardsClaimed)) a.unlockedClaimed)
    (u64add ALLOCATION (u64sub s.authTotal s.authClaimed))

/-- The part of the chain state x/team works on: its store, the bank, the block time and the
emergency-halt flag set by `util.PanicHalt`. -/
structure World where
  team : State
  bank : Bank
  now : Nat
  halted : Bool

/-- `msg.Authority` check of x/team/keeper/msg_server_claim_unlocked.go:16-18 (same in claim_account_rewards.go:16,
clawback.go:15, create_team_vesting_account.go:15) -/
def isAuthority (a : Addr) : Bool := a = FOUNDATION || a = BCP

/-- `util.TransferFromModuleToAddress(.., "team", recipient, amount)` (util/logic_bank.go:32-47):
`sdk.NewInt64Coin` panics (the transaction fails) if `int64(amount)` is negative. -/
def payOut (w : World) (recipient : Addr) (amount : Nat) : Except String Bank :=
  if amount < 2 ^ 63 then w.bank.send (.mod .team) (.user recipient) (Coins.single kyve amount)
  else .error "negative coin amount"

/-- x/team/keeper/msg_server_create_team_vesting_account.go:12-41 and
getters_team_vesting_account.go:67-86 `AppendTeamVestingAccount` -/
def create (w : World) (auth : Addr) (total commencement : Nat) : Except String World :=
  if !isAuthority auth then .error "invalid authority"
  else if total = 0 ∨ commencement = 0 then .error "total allocation or commencement invalid"
  else if u64add (issued w.team) total > ALLOCATION then .error "available funds too low"
  else
    let id := w.team.count
    let acc : Account := ⟨id, total, commencement, 0, 0, 0, 0, 0⟩
    .ok { w with team := { w.team with accounts := w.team.accounts.set id acc, count := id + 1 } }

/-- x/team/keeper/msg_server_claim_unlocked.go:13-52 -/
def claimUnlocked (w : World) (auth : Addr) (id amount : Nat) (recipient : Addr) : Except String World :=
  if !isAuthority auth then .error "invalid authority"
  else match w.team.accounts.get? id with
  | none => .error "not found"
  | some acc =>
    if amount > claimable acc w.now then .error "claim amount too high"
    else match payOut w recipient amount with
    | .error e => .error e
    | .ok bank =>
      let acc' := { acc with unlockedClaimed := acc.unlockedClaimed + amount, lastClaimedTime := w.now }
      .ok { w with bank := bank, team := { w.team with accounts := w.team.accounts.set id acc' } }

/-- x/team/keeper/msg_server_clawback.go:12-45 -/
def clawback (w : World) (auth : Addr) (id cb : Nat) : Except String World :=
  if !isAuthority auth then .error "invalid authority"
  else match w.team.accounts.get? id with
  | none => .error "not found"
  | some acc =>
    if 0 < cb ∧ cb < acc.commencement then .error "invalid clawback date"
    else if 0 < cb ∧ cb < acc.lastClaimedTime then .error "invalid clawback date"
    else .ok { w with team := { w.team with accounts := w.team.accounts.set id { acc with clawback := cb } } }

/-- x/team/keeper/msg_server_claim_account_rewards.go:14-48 -/
def claimAccountRewards (w : World) (auth : Addr) (id amount : Nat) (recipient : Addr) : Except String World :=
  if !isAuthority auth then .error "invalid authority"
  else match w.team.accounts.get? id with
  | none => .error "not found"
  | some acc =>
    if u64sub acc.totalRewards acc.rewardsClaimed < amount then .error "claim amount too high"
    else match payOut w recipient amount with
    | .error e => .error e
    | .ok bank =>
      let acc' := { acc with rewardsClaimed := acc.rewardsClaimed + amount }
      .ok { w with bank := bank, team := { w.team with accounts := w.team.accounts.set id acc' } }

/-- x/team/keeper/msg_server_claim_authority_rewards.go:14-44 (foundation only) -/
def claimAuthorityRewards (w : World) (auth : Addr) (amount : Nat) (recipient : Addr) : Except String World :=
  if auth ≠ FOUNDATION then .error "invalid authority"
  else if u64sub w.team.authTotal w.team.authClaimed < amount then .error "claim amount too high"
  else match payOut w recipient amount with
  | .error e => .error e
  | .ok bank => .ok { w with bank := bank, team := { w.team with authClaimed := w.team.authClaimed + amount } }

/-- x/team/abci.go:28-32: the inflation reward of one account for a team reward of `r`.
Simplification: `int64(vested - claimed)` is taken as non-negative (the difference is below `2^63`). -/
def accountReward (a : Account) (now r : Nat) : Nat :=
  Dec.trunc (Dec.mul (Dec.ofNat r)
    (Dec.quo (Dec.ofNat (u64sub (vestedAmount a now) a.unlockedClaimed)) (Dec.ofNat ALLOCATION)))

/-- x/team/keeper/logic_team.go:16-47 `GetTeamBlockProvision`: the block provision and the total supply
(already including the provision) are inputs coming from x/mint and x/bank.  Returns the reward and
whether the code calls `PanicHalt`.  Simplification: the supply before the provision is positive. -/
def blockProvision (s : State) (provision supply : Nat) : Nat × Bool :=
  let share := Dec.quo (Dec.ofNat (requiredModuleBalance s)) (Dec.ofNat (supply - provision))
  (Dec.trunc (Dec.mul share (Dec.ofNat provision)), decide (share > Dec.one))

/-- one pass of the loop x/team/abci.go:26-40: credit every account, return the sum credited -/
def creditAccounts (accs : Map Nat Account) (now r : Nat) : List (Nat × Account) → Nat × Map Nat Account
  | [] => (0, accs)
  | (id, a) :: t =>
    let w := accountReward a now r
    let c := creditAccounts (accs.set id { a with totalRewards := a.totalRewards + w }) now r t
    (w + c.1, c.2)

/-- x/team/abci.go:18-58 `DistributeTeamInflation` at block time `now` (begin-block, no revert on errors) -/
def distribute (w : World) (provision supply : Nat) : World :=
  let p := blockProvision w.team provision supply
  let c := creditAccounts w.team.accounts w.now p.1 w.team.accounts.toList
  let sent := w.bank.send (.mod .feeCollector) (.mod .team) (Coins.single kyve p.1)
  { team := { accounts := c.2
              count := w.team.count
              authTotal := w.team.authTotal + u64sub p.1 c.1
              authClaimed := w.team.authClaimed }
    bank := w.bank.orKeep sent
    now := w.now
    halted := w.halted || p.2 || decide (c.1 > p.1) || Bank.failed sent }

/-- Everything that can happen to x/team. -/
inductive Op where
  | create (auth : Addr) (total commencement : Nat)
  | claimUnlocked (auth : Addr) (id amount : Nat) (recipient : Addr)
  | clawback (auth : Addr) (id cb : Nat)
  | claimAccountRewards (auth : Addr) (id amount : Nat) (recipient : Addr)
  | claimAuthorityRewards (auth : Addr) (amount : Nat) (recipient : Addr)
  /-- a new block `dt` seconds later: x/mint mints `provision` to the fee collector (the supply is `supply`
  afterwards), then x/team distributes -/
  | block (dt provision supply : Nat)
  /-- anything else (transfers, other modules): all balances may change arbitrarily, except that x/team's account can
  only receive coins (nobody else can spend from it) -/
  | external (b : Bank) (gift : Coins)

/-- a failing transaction is reverted -/
def orElse (w : World) : Except String World → World
  | .ok w' => w'
  | .error _ => w

/-- a new block `dt` seconds later; x/mint (dependency, runs before x/team: app/app_config.go:116-120) has minted
`provision` to the fee collector -/
def tick (w : World) (dt provision : Nat) : World :=
  { w with
    now := w.now + dt
    bank := w.bank.upd (.mod .feeCollector) ((w.bank (.mod .feeCollector)).add (Coins.single kyve provision)) }

/-- one message or block; a failing transaction changes nothing -/
def step (w : World) : Op → World
  | .create auth total c => orElse w (create w auth total c)
  | .claimUnlocked auth id amount r => orElse w (claimUnlocked w auth id amount r)
  | .clawback auth id cb => orElse w (clawback w auth id cb)
  | .claimAccountRewards auth id amount r => orElse w (claimAccountRewards w auth id amount r)
  | .claimAuthorityRewards auth amount r => orElse w (claimAuthorityRewards w auth amount r)
  | .block dt provision supply => distribute (tick w dt provision) provision supply
  | .external b gift =>
    { w with bank := fun a => if a = .mod .team then (w.bank a).add gift else b a }

/-- a history -/
def run (w : World) (ops : List Op) : World := ops.foldl step w

/-- x/team at genesis: no accounts, the module account holds exactly the team allocation -/
def World.init (bank : Bank) (now : Nat) : World := ⟨State.init, bank, now, false⟩

end Verif.Team
