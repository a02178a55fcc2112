import Verif.Stakers.Model

/-!
# What the properties of x/stakers talk about
-/

namespace Verif.Stakers
open Verif

/-- is somebody a member of a pool? -/
def State.member (s : State) (p : Nat) (st : Addr) : Bool := s.vals.has (p, st)

/-- the pools somebody is a member of -/
def State.poolsOf (s : State) (st : Addr) : List Nat := (s.vals.keys.filter (fun k => k.2 == st)).map (·.1)

/-- commission of a staker, if it is one -/
def State.rate (s : State) (st : Addr) : Option Dec := (s.stakers.get? st).map (·.commission)

/-- unclaimed commission rewards of a staker -/
def State.unclaimed (s : State) (st : Addr) : Coins := ((s.stakers.get? st).map (·.rewards)).getD Coins.zero

/-- sum of the unclaimed commission rewards of all stakers, in a coin -/
def State.totalUnclaimed (s : State) (d : Denom) : Nat := s.stakers.sum (fun _ x => x.rewards.amt d)

/-- the commission change of a staker that waits in the queue: new commission and time of the order -/
def State.pending (s : State) (st : Addr) : Option (Dec × Nat) :=
  ((s.changeIdx.get? st).bind s.changes.get?).map (fun e => (e.commission, e.creation))

/-- the announcement of a staker to leave a pool that waits in the queue: its time -/
def State.announcement (s : State) (st : Addr) (p : Nat) : Option Nat :=
  ((s.leaveIdx.get? (st, p)).bind s.leaves.get?).map (·.creation)

/-! ## the history (newest event first) -/

/-- the commission change somebody ordered and that was neither applied nor replaced -/
def lastOrder : List Event → Addr → Option (Dec × Nat)
  | [], _ => none
  | .ordered st c t :: l, a => if st = a then some (c, t) else lastOrder l a
  | .applied st _ _ _ :: l, a => if st = a then none else lastOrder l a
  | .joined .. :: l, a => lastOrder l a
  | .announced .. :: l, a => lastOrder l a
  | .left .. :: l, a => lastOrder l a
  | .expired .. :: l, a => lastOrder l a
  | .kicked .. :: l, a => lastOrder l a

/-- the announcement to leave that the queue has not reached -/
def lastAnnounce : List Event → Addr → Nat → Option Nat
  | [], _, _ => none
  | .announced st q t :: l, a, p => if st = a ∧ q = p then some t else lastAnnounce l a p
  | .left st q _ _ :: l, a, p => if st = a ∧ q = p then none else lastAnnounce l a p
  | .expired st q _ :: l, a, p => if st = a ∧ q = p then none else lastAnnounce l a p
  | .ordered .. :: l, a, p => lastAnnounce l a p
  | .applied .. :: l, a, p => lastAnnounce l a p
  | .joined .. :: l, a, p => lastAnnounce l a p
  | .kicked .. :: l, a, p => lastAnnounce l a p

/-- membership according to the history -/
def isMember : List Event → Addr → Nat → Bool
  | [], _, _ => false
  | .joined st q _ :: l, a, p => if st = a ∧ q = p then true else isMember l a p
  | .left st q _ _ :: l, a, p => if st = a ∧ q = p then false else isMember l a p
  | .kicked st q _ :: l, a, p => if st = a ∧ q = p then false else isMember l a p
  | .announced .. :: l, a, p => isMember l a p
  | .expired .. :: l, a, p => isMember l a p
  | .ordered .. :: l, a, p => isMember l a p
  | .applied .. :: l, a, p => isMember l a p

/-- an event that is possible after a history -/
def Event.possible (l : List Event) : Event → Prop
  | .ordered .. => True
  | .applied st c t delay => ∃ t0, lastOrder l st = some (c, t0) ∧ due t0 delay t = true
  | .joined st p _ => isMember l st p = false
  | .announced st p _ => isMember l st p = true ∧ lastAnnounce l st p = none
  | .left st p t delay => isMember l st p = true ∧ ∃ t0, lastAnnounce l st p = some t0 ∧ due t0 delay t = true
  | .expired st p _ => isMember l st p = false
  | .kicked st p _ => isMember l st p = true

/-- every event of a history was possible when it happened -/
def Consistent : List Event → Prop
  | [] => True
  | e :: l => e.possible l ∧ Consistent l

/-! ## reachable states -/

/-- what x/delegation guarantees: a delegation amount is smaller than the largest `uint64` -/
def Op.ok : Op → Prop
  | .join _ amt _ => ∀ a, amt a < 2 ^ 64 - 1
  | _ => True

/-- states reached from the empty module by any history -/
def Reachable (gov : Addr) (y : Sys) : Prop :=
  ∃ p b now ops, (∀ o ∈ ops, o.ok) ∧ y = Sys.run gov (Sys.init p b now) ops

end Verif.Stakers
