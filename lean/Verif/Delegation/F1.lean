import Verif.Lib.Coins

/-!
# x/delegation: the F1 reward distribution of one staker

Model of `x/delegation/keeper/logic_f1distribution.go` and of the store it works on.  All keys of the
store start with the staker's address, so the store splits into one independent record per staker;
`F1` is that record.  `Verif/Delegation/Model.lean` puts the records of all stakers, the queue, the
redelegation spells, the ranking and the bank together.

Amounts are natural numbers (the code: `uint64`, converted to `int64` for decimals; the total supply of
`ukyve` is assumed to be below `2^63`).  The two subtractions that could underflow are recorded in
`wrapped`.
-/

namespace Verif.Delegation

/-- `DelegationData` (proto/kyve/delegation/v1beta1/delegation.proto; `types/delegation.pb.go`) -/
structure Data where
  /-- `CurrentRewards` -/
  cur : Coins
  /-- `TotalDelegation` -/
  total : Nat
  /-- `LatestIndexK` -/
  latest : Nat
  /-- `DelegatorCount` -/
  count : Nat
  /-- `LatestIndexWasUndelegation` -/
  undel : Bool
deriving DecidableEq, Repr

/-- the zero value of `DelegationData` -/
def Data.fresh : Data := ⟨Coins.zero, 0, 0, 0, false⟩

/-- `Delegator`: `InitialAmount`, `KIndex` -/
structure Del where
  amount : Nat
  k : Nat
deriving DecidableEq, Repr

/-- Everything the store holds for one staker. -/
structure F1 where
  /-- `DelegationData` (keeper/getters_delegation_data.go) -/
  data : Option Data
  /-- `Delegator` by delegator address (keeper/getters_delegator.go) -/
  dels : Map Addr Del
  /-- `DelegationEntry.Value` by period (keeper/getters_delegation_entries.go) -/
  entries : Map Nat DecCoins
  /-- `DelegationSlash.Fraction` by period (keeper/getters_delegation_slash.go) -/
  slashes : Map Nat Dec
  /-- `util.PanicHalt` was called by the F1 code, or `DecCoins.Sub` panicked (negative result) -/
  halted : Bool
  /-- a `uint64` subtraction of the F1 code underflowed; the model stops following the code then -/
  wrapped : Bool
deriving DecidableEq, Repr

/-- The empty store. -/
def F1.init : F1 := ⟨none, ∅, ∅, ∅, false, false⟩

/-- the quotient of a period, logic_f1distribution.go:37-46 (and again :312-319) -/
def periodQuo (cur : Coins) (total : Nat) : DecCoins :=
  if total = 0 then Coins.zero
  else cur.mapAmt (fun c => Dec.quo (Dec.ofNat c) (Dec.ofNat total))

/-- the value of the entry at `j`, the empty coins if there is none -/
def entryVal (e : Map Nat DecCoins) (j : Nat) : DecCoins := (e.get? j).getD Coins.zero

/-- the entries after `f1StartNewPeriod`, logic_f1distribution.go:25-72.  If no previous entry exists,
the code's `RemoveDelegationEntry("", 0)` deletes nothing. -/
def newEntries (e : Map Nat DecCoins) (d : Data) : Map Nat DecCoins :=
  if d.undel && (e.get? d.latest).isSome then
    (e.set (d.latest + 1) ((periodQuo d.cur d.total).add (entryVal e d.latest))).del d.latest
  else e.set (d.latest + 1) ((periodQuo d.cur d.total).add (entryVal e d.latest))

/-- the metadata after `f1StartNewPeriod`, logic_f1distribution.go:62-70 -/
def newData (d : Data) : Data :=
  { d with cur := Coins.zero, latest := d.latest + 1, undel := false }

/-- `f1CreateDelegator`, logic_f1distribution.go:76-106 -/
def createDelegator (s : F1) (who : Addr) (amount : Nat) : F1 :=
  if amount = 0 then s
  else
    { s with
      entries := newEntries s.entries (s.data.getD Data.fresh)
      data := some { newData (s.data.getD Data.fresh) with
        total := (s.data.getD Data.fresh).total + amount
        count := (s.data.getD Data.fresh).count + 1 }
      dels := s.dels.set who ⟨amount, (s.data.getD Data.fresh).latest + 1⟩ }

/-- `GetAllDelegationSlashesBetween`, getters_delegation_slash.go:82-97 (both ends inclusive) -/
def slashesBetween (m : Map Nat Dec) (lo hi : Nat) : List (Nat × Dec) :=
  m.toList.filter (fun p => decide (lo ≤ p.1) && decide (p.1 ≤ hi))

/-- one slash applied to a decimal balance, logic_f1distribution.go:242-243 -/
def slashOne (b : Dec) (q : Dec) : Dec := b - Dec.mulTrunc b q

/-- The calls of the handler in `f1IterateConstantDelegationPeriods`, logic_f1distribution.go:226-247:
start index, end index, decimal balance. -/
def segs : List (Nat × Dec) → Nat → Nat → Dec → List (Nat × Nat × Dec)
  | [], p, m, b => [(p, m, b)]
  | (k, q) :: t, p, m, b => (p, k, b) :: segs t k m (slashOne b q)

/-- the balance passed to the last call of the handler -/
def slashBal (l : List (Nat × Dec)) (b : Dec) : Dec := l.foldl (fun b p => slashOne b p.2) b

/-- The decimal balance of a delegator record up to period `hi`: `f1GetCurrentDelegation` before the
final truncation, logic_f1distribution.go:263-269. -/
def balUpTo (m : Map Nat Dec) (x : Del) (hi : Nat) : Dec :=
  slashBal (slashesBetween m x.k hi) (Dec.ofNat x.amount)

/-- `f1GetCurrentDelegation`, logic_f1distribution.go:251-270 (the missing-metadata halt is
`lookupHalts`) -/
def curDel (s : F1) (who : Addr) : Nat :=
  match s.dels.get? who with
  | none => 0
  | some x => Dec.trunc (balUpTo s.slashes x (s.data.getD Data.fresh).latest)

/-- `PanicHalt` "No delegationData although somebody is delegating",
logic_f1distribution.go:121-124, 190-192, 259-261, 283-285 -/
def lookupHalts (s : F1) (who : Addr) : Bool := s.dels.has who && s.data.isNone

/-- `f1GetEntryDifference`, logic_f1distribution.go:329-342 -/
def entryDiff (e : Map Nat DecCoins) (lo hi : Nat) : DecCoins :=
  (entryVal e hi).sub (entryVal e lo)

/-- `f1GetEntryDifference` calls `PanicHalt` (an entry is missing) or panics (`DecCoins.Sub` of a larger
value), logic_f1distribution.go:331-341 -/
def diffBad (e : Map Nat DecCoins) (lo hi : Nat) : Bool :=
  !(e.has lo) || !(e.has hi) || !((entryVal e lo).le (entryVal e hi))

/-- `safeMulDec`, logic_f1distribution.go:353-358 -/
def safeMulDec (c : DecCoins) (b : Dec) : DecCoins :=
  if b = 0 then Coins.zero else c.mapAmt (fun v => Dec.mul v b)

/-- the sum over the periods of constant delegation, logic_f1distribution.go:202-211 and :295-307 -/
def rewardOf (e : Map Nat DecCoins) : List (Nat × Nat × Dec) → DecCoins
  | [] => Coins.zero
  | (lo, hi, b) :: t => (safeMulDec (entryDiff e lo hi) b).add (rewardOf e t)

/-- `truncateDecCoins`, logic_f1distribution.go:345-351 -/
def truncateDecCoins (c : DecCoins) : Coins := c.mapAmt Dec.trunc

/-- a call of `f1GetEntryDifference` in the list halts or panics -/
def anyBad (e : Map Nat DecCoins) (l : List (Nat × Nat × Dec)) : Bool :=
  l.any (fun p => diffBad e p.1 p.2.1)

/-- the periods of constant delegation of a delegator record up to period `hi` -/
def periodsOf (m : Map Nat Dec) (x : Del) (hi : Nat) : List (Nat × Nat × Dec) :=
  segs (slashesBetween m x.k hi) x.k hi (Dec.ofNat x.amount)

/-- the part of `f1WithdrawRewards` after the delegator was found, logic_f1distribution.go:194-221 -/
def withdrawFound (s : F1) (who : Addr) (x : Del) (d : Data) : F1 × Coins :=
  ({ s with
      data := some (newData d)
      entries := (newEntries s.entries d).del x.k
      dels := s.dels.set who ⟨Dec.trunc (balUpTo s.slashes x (d.latest + 1)), d.latest + 1⟩
      halted := s.halted || s.data.isNone
        || anyBad (newEntries s.entries d) (periodsOf s.slashes x (d.latest + 1)) },
   truncateDecCoins (rewardOf (newEntries s.entries d) (periodsOf s.slashes x (d.latest + 1))))

/-- `f1WithdrawRewards`, logic_f1distribution.go:181-221 -/
def withdraw (s : F1) (who : Addr) : F1 × Coins :=
  match s.dels.get? who with
  | none => (s, Coins.zero)
  | some x => withdrawFound s who x (s.data.getD Data.fresh)

/-- the part of `f1RemoveDelegator` after the delegator was found, logic_f1distribution.go:125-147 -/
def removeFound (s : F1) (who : Addr) (x : Del) (d : Data) (bal : Nat) : F1 :=
  { s with
    data := some { newData d with undel := true, total := d.total - bal, count := d.count - 1 }
    dels := s.dels.del who
    entries :=
      if d.count - 1 = 0 then ((newEntries s.entries d).del x.k).del (d.latest + 1)
      else (newEntries s.entries d).del x.k
    halted := s.halted || s.data.isNone
    wrapped := s.wrapped || decide (d.total < bal) || decide (d.count = 0) }

/-- `f1RemoveDelegator`, logic_f1distribution.go:111-148: the new store and the undelegated amount -/
def remove (s : F1) (who : Addr) : F1 × Nat :=
  match s.dels.get? who with
  | none => (s, 0)
  | some x => (removeFound s who x (s.data.getD Data.fresh) (curDel s who), curDel s who)

/-- the amount removed by `f1Slash`, logic_f1distribution.go:169-170 -/
def slashedAmount (total : Nat) (q : Dec) : Nat := Dec.trunc (Dec.mul (Dec.ofNat total) q)

/-- `f1Slash`, logic_f1distribution.go:154-177, called by `SlashDelegators` only if the staker has
delegation data (exported_functions.go:92): the new store and the slashed amount. -/
def slash (s : F1) (q : Dec) : F1 × Nat :=
  match s.data with
  | none => (s, 0)
  | some d =>
    ({ s with
        data := some { newData d with total := d.total - slashedAmount d.total q }
        entries := newEntries s.entries d
        slashes := s.slashes.set (d.latest + 1) q
        wrapped := s.wrapped || decide (d.total < slashedAmount d.total q) },
     slashedAmount d.total q)

/-- `AddAmountToDelegationRewards`, getters_delegation_data.go:20-26 -/
def payout (s : F1) (c : Coins) : F1 :=
  match s.data with
  | none => s
  | some d => { s with data := some { d with cur := d.cur.add c } }

/-- `f1GetOutstandingRewards`, logic_f1distribution.go:274-327 -/
def outstanding (s : F1) (who : Addr) : Coins :=
  match s.dels.get? who with
  | none => Coins.zero
  | some x =>
    truncateDecCoins
      ((rewardOf s.entries (periodsOf s.slashes x (s.data.getD Data.fresh).latest)).add
        (safeMulDec (periodQuo (s.data.getD Data.fresh).cur (s.data.getD Data.fresh).total)
          (balUpTo s.slashes x (s.data.getD Data.fresh).latest)))

/-- the halts of `f1GetOutstandingRewards`, logic_f1distribution.go:283-310, 331-341 -/
def outstandingHalts (s : F1) (who : Addr) : Bool :=
  match s.dels.get? who with
  | none => false
  | some x =>
    s.data.isNone
      || anyBad s.entries (periodsOf s.slashes x (s.data.getD Data.fresh).latest)
      || !(s.entries.has (s.data.getD Data.fresh).latest)

/-- `performDelegation` (logic_delegation.go:11-31) without the transfers: the new store and the
rewards paid out on the way -/
def delegate (s : F1) (who : Addr) (amount : Nat) : F1 × Coins :=
  if s.dels.has who then
    (createDelegator (remove (withdraw s who).1 who).1 who ((remove (withdraw s who).1 who).2 + amount),
     (withdraw s who).2)
  else (createDelegator s who amount, Coins.zero)

/-- what `performUndelegation` (logic_delegation.go:49-57) does after the withdrawal -/
def undelegateRest (s : F1) (who : Addr) (amount : Nat) (u : Nat) : F1 :=
  if amount < u then createDelegator s who (u - amount) else s

/-- `performUndelegation` (logic_delegation.go:36-58) without the transfers: the new store and the
rewards paid out on the way -/
def undelegate (s : F1) (who : Addr) (amount : Nat) : F1 × Coins :=
  (undelegateRest (remove (withdraw s who).1 who).1 who amount (remove (withdraw s who).1 who).2,
   (withdraw s who).2)

/-- the amount `performUndelegation` returns, logic_delegation.go:49-57 -/
def undelegated (s : F1) (who : Addr) (amount : Nat) : Nat :=
  if amount < (remove (withdraw s who).1 who).2 then
    (remove (withdraw s who).1 who).2 - ((remove (withdraw s who).1 who).2 - amount)
  else (remove (withdraw s who).1 who).2 - 0

end Verif.Delegation
