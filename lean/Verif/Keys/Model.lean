import Mathlib.Data.List.Basic

/-!
# Store keys

Model of /repo/util/logic.go and the key constructors in /repo/x/*/types/keys.go.  A byte is a natural number, a key a
list of bytes.  The memory store (`StakerIndexKeyPrefix`) is a separate store.
-/

namespace Verif.Keys

abbrev Bytes := List Nat

/-- the `k` lowest bytes of `n`, most significant first -/
def be : Nat → Nat → Bytes
  | 0, _ => []
  | k + 1, n => (n / 256 ^ k % 256) :: be k n

/-- util/logic.go:12-16 `AInt`: 8 bytes, big endian -/
def u64 (n : Nat) : Bytes := be 8 n

/-- A key part: util/logic.go:22-37 (`string`s and `[]byte`s are appended as they are) -/
inductive Part where
  | int (n : Nat)
  | str (b : Bytes)

/-- util/logic.go:22-37 `GetByteKey` -/
def byteKey : List Part → Bytes
  | [] => []
  | .int n :: t => u64 n ++ byteKey t
  | .str b :: t => b ++ byteKey t

/-- all keys of the x/delegation store (x/delegation/types/keys.go:21-88, prefixes lines 21-52) -/
inductive DelegationKey where
  | params
  | delegator (staker delegator : Bytes)
  | delegatorIdx2 (delegator staker : Bytes)
  | entry (staker : Bytes) (k : Nat)
  | data (staker : Bytes)
  | slash (staker : Bytes) (k : Nat)
  | queue
  | undelegation (k : Nat)
  | undelegationIdx2 (staker : Bytes) (k : Nat)
  | redelegation (delegator : Bytes) (time : Nat)

/-- x/delegation/types/keys.go -/
def DelegationKey.encode : DelegationKey → Bytes
  | .params => [0]
  | .delegator s d => [1, 0] ++ byteKey [.str s, .str d]
  | .delegatorIdx2 d s => [1, 1] ++ byteKey [.str d, .str s]
  | .entry s k => [2] ++ byteKey [.str s, .int k]
  | .data s => [3] ++ byteKey [.str s]
  | .slash s k => [4] ++ byteKey [.str s, .int k]
  | .queue => [5]
  | .undelegation k => [6, 0] ++ byteKey [.int k]
  | .undelegationIdx2 s k => [6, 1] ++ byteKey [.str s, .int k]
  | .redelegation d t => [7] ++ byteKey [.str d, .int t]

/-- all keys of the x/stakers store (x/stakers/types/keys.go:22-99, x/stakers/keeper/getters_queue.go:13,28 and
getters_staker.go:215,227 for the counters: "total_stakers" followed by the pool id) -/
inductive StakersKey where
  | params
  | staker (s : Bytes)
  | valaccount (pool : Nat) (s : Bytes)
  | valaccountIdx2 (s : Bytes) (pool : Nat)
  | commission (k : Nat)
  | commissionIdx2 (s : Bytes)
  | leave (k : Nat)
  | leaveIdx2 (s : Bytes) (pool : Nat)
  | active (s : Bytes)
  | queueCommission
  | queueLeave
  | count (pool : Nat)

/-- "total_stakers" -/
def totalStakers : Bytes := [116, 111, 116, 97, 108, 95, 115, 116, 97, 107, 101, 114, 115]

/-- x/stakers/types/keys.go -/
def StakersKey.encode : StakersKey → Bytes
  | .params => [0]
  | .staker s => [1] ++ byteKey [.str s]
  | .valaccount p s => [2, 0] ++ byteKey [.int p, .str s]
  | .valaccountIdx2 s p => [2, 1] ++ byteKey [.str s, .int p]
  | .commission k => [4, 0] ++ byteKey [.int k]
  | .commissionIdx2 s => [4, 1] ++ byteKey [.str s]
  | .leave k => [5, 0] ++ byteKey [.int k]
  | .leaveIdx2 s p => [5, 1] ++ byteKey [.str s, .int p]
  | .active s => [6] ++ byteKey [.str s]
  | .queueCommission => [30, 2]
  | .queueLeave => [30, 3]
  | .count p => byteKey [.str totalStakers, .int p]

/-- all keys of the x/bundles store (x/bundles/types/keys.go:19-52) -/
inductive BundlesKey where
  | params
  | proposal (pool : Nat)
  | finalized (pool id : Nat)
  | versionMap
  | roundRobin (pool : Nat)
  | byIndex (pool index : Nat)

/-- x/bundles/types/keys.go -/
def BundlesKey.encode : BundlesKey → Bytes
  | .params => [0]
  | .proposal p => [1] ++ byteKey [.int p]
  | .finalized p i => [2] ++ byteKey [.int p, .int i]
  | .versionMap => [3]
  | .roundRobin p => [4] ++ byteKey [.int p]
  | .byIndex p i => [11] ++ byteKey [.int p, .int i]

/-- all keys of the x/funders store (x/funders/types/keys.go:24-70) -/
inductive FundersKey where
  | params
  | funder (f : Bytes)
  | byFunder (f : Bytes) (pool : Nat)
  | byPool (f : Bytes) (pool : Nat)
  | state (pool : Nat)

/-- x/funders/types/keys.go -/
def FundersKey.encode : FundersKey → Bytes
  | .params => [0]
  | .funder f => [1] ++ byteKey [.str f]
  | .byFunder f p => [2, 0] ++ byteKey [.str f, .int p]
  | .byPool f p => [2, 1] ++ byteKey [.int p, .str f]
  | .state p => [3, 0] ++ byteKey [.int p]

/-- all keys of the x/pool store (x/pool/types/keys.go:21-34) -/
inductive PoolKey where
  | params
  | pool (id : Nat)
  | count

/-- x/pool/types/keys.go -/
def PoolKey.encode : PoolKey → Bytes
  | .params => [0]
  | .pool id => [1] ++ byteKey [.int id]
  | .count => [2]

/-- all keys of the x/team store (x/team/types/keys.go:42-51) -/
inductive TeamKey where
  | params
  | authority
  | account (id : Nat)
  | count

/-- x/team/types/keys.go -/
def TeamKey.encode : TeamKey → Bytes
  | .params => [0]
  | .authority => [1]
  | .account id => [2] ++ byteKey [.int id]
  | .count => [3]

/-- x/delegation/types/keys.go:90-92 and keeper/getters_index_stakers.go:82: the ranking key in the memory store,
`math.MaxUint64 - amount` -/
def rankKey (amount : Nat) (staker : Bytes) : Bytes := [1] ++ byteKey [.int (2 ^ 64 - 1 - amount), .str staker]

end Verif.Keys
