import Verif.Chain.Erase
import Mathlib.Data.List.Perm.Basic
import Mathlib.Algebra.BigOperators.Group.List.Basic

/-!
# States that nobody can tell apart

Two chains are *alike* if they differ only in the memory stores, the history variables of this model and - depending on
the relation `E` - in the order of the vote lists.  Every operation gives the same answer on alike chains, and alike
chains again.
-/

set_option linter.dupNamespace false

namespace Verif.Chain
open Verif
open Verif.Bundles (Proposal FBundle VoteDist Status Reward)

namespace Chain

/-- without memory stores, history and current proposals -/
def er (c : Chain) : Chain :=
  { c with del := c.del.er, st := c.st.er, bun := { c.bun with index := ∅, proposals := ∅ } }

/-- a proposal without its vote lists -/
def noVotes (p : Proposal) : Proposal := { p with valid := [], invalid := [], abstain := [] }

/-- the same proposal but for the vote lists, which are related by `E` -/
structure PropSim (E : List Addr → List Addr → Prop) (p p' : Proposal) : Prop where
  rest : noVotes p = noVotes p'
  valid : E p.valid p'.valid
  invalid : E p.invalid p'.invalid
  abstain : E p.abstain p'.abstain

/-- both missing, or both there and related -/
def OptSim {α : Type} (R : α → α → Prop) : Option α → Option α → Prop
  | none, none => True
  | some a, some b => R a b
  | _, _ => False

/-- alike -/
structure Sim (E : List Addr → List Addr → Prop) (c c' : Chain) : Prop where
  core : c.er = c'.er
  props : ∀ id, OptSim (PropSim E) (c.bun.proposals.get? id) (c'.bun.proposals.get? id)

/-- what is asked of `E`; equality and permutation of lists have it -/
structure Lists (E : List Addr → List Addr → Prop) : Prop where
  perm : ∀ {l l'}, E l l' → l.Perm l'
  refl : ∀ l, E l l
  app : ∀ {l l'} (a : Addr), E l l' → E (l ++ [a]) (l' ++ [a])
  rem : ∀ {l l'} (a : Addr), E l l' → E (l.erase a) (l'.erase a)

theorem lists_eq : Lists Eq := ⟨fun h => h ▸ .refl _, fun _ => rfl, fun _ h => h ▸ rfl, fun _ h => h ▸ rfl⟩

theorem lists_perm : Lists List.Perm := ⟨id, .refl, fun a h => h.append_right [a], fun a h => h.erase a⟩

variable {E : List Addr → List Addr → Prop} (hE : Lists E)

theorem PropSim.refl (hE : Lists E) (p : Proposal) : PropSim E p p := ⟨rfl, hE.refl _, hE.refl _, hE.refl _⟩

theorem Sim.refl (hE : Lists E) (c : Chain) : Sim E c c := by
  refine ⟨rfl, fun id => ?_⟩
  cases c.bun.proposals.get? id with
  | none => trivial
  | some p => exact PropSim.refl hE p

namespace Sim
variable {c c' : Chain}

theorem b (h : Sim E c c') : c.b = c'.b := (congrArg Chain.b h.core :)
theorem now (h : Sim E c c') : c.now = c'.now := (congrArg Chain.now h.core :)
theorem pool (h : Sim E c c') : c.pool = c'.pool := (congrArg Chain.pool h.core :)
theorem fund (h : Sim E c c') : c.fund = c'.fund := (congrArg Chain.fund h.core :)
theorem halted (h : Sim E c c') : c.halted = c'.halted := (congrArg Chain.halted h.core :)
theorem crashed (h : Sim E c c') : c.crashed = c'.crashed := (congrArg Chain.crashed h.core :)
theorem st (h : Sim E c c') : c.st.er = c'.st.er := (congrArg Chain.st h.core :)
theorem del (h : Sim E c c') : c.del.er = c'.del.er := (congrArg Chain.del h.core :)
theorem vals (h : Sim E c c') : c.st.vals = c'.st.vals := (congrArg (fun x : Chain => x.st.vals) h.core :)
theorem stakers (h : Sim E c c') : c.st.stakers = c'.st.stakers := (congrArg (fun x : Chain => x.st.stakers) h.core :)
theorem valsOf (h : Sim E c c') (a : Addr) : c.st.valsOf a = c'.st.valsOf a :=
  (congrArg (fun x : Chain => x.st.valsOf a) h.core :)
theorem amount (h : Sim E c c') : c.del.amount = c'.del.amount := (congrArg (fun x : Chain => x.del.amount) h.core :)
theorem members (h : Sim E c c') (id : Nat) : c.members id = c'.members id :=
  (congrArg (fun x : Chain => x.members id) h.core :)
theorem member (h : Sim E c c') (id : Nat) : c.member id = c'.member id :=
  (congrArg (fun x : Chain => x.member id) h.core :)
theorem finalized (h : Sim E c c') : c.bun.finalized = c'.bun.finalized :=
  (congrArg (fun x : Chain => x.bun.finalized) h.core :)
theorem progress (h : Sim E c c') : c.bun.progress = c'.bun.progress :=
  (congrArg (fun x : Chain => x.bun.progress) h.core :)
theorem params (h : Sim E c c') : c.bun.params = c'.bun.params := (congrArg (fun x : Chain => x.bun.params) h.core :)
theorem runError (h : Sim E c c') (id : Nat) : c.runError id = c'.runError id :=
  (congrArg (fun x : Chain => x.runError id) h.core :)
theorem authorized (h : Sim E c c') (id : Nat) (s a : Addr) : c.st.authorized id s a = c'.st.authorized id s a :=
  (congrArg (fun x : Chain => x.st.authorized id s a) h.core :)
theorem dw (h : Sim E c c') : c.dw.er = c'.dw.er := (congrArg Chain.dw h.core :)
theorem sw (h : Sim E c c') : c.sw.er = c'.sw.er := (congrArg Chain.sw h.core :)
theorem choice (h : Sim E c c') (id : Nat) (ex : List Addr) : c.choice id ex = c'.choice id ex :=
  (congrArg (fun x : Chain => x.choice id ex) h.core :)

theorem prop (hE : Lists E) (h : Sim E c c') (id : Nat) : PropSim E (c.proposal id) (c'.proposal id) := by
  have := h.props id
  unfold Chain.proposal Bundles.State.proposal
  cases e1 : c.bun.proposals.get? id <;> cases e2 : c'.bun.proposals.get? id <;> rw [e1, e2] at this
  · exact PropSim.refl hE _
  · exact this.elim
  · exact this.elim
  · exact this

/-- changing everything but the proposals -/
theorem of_core {d d' : Chain} (h : Sim E c c') (e : d.er = d'.er) (p : d.bun.proposals = c.bun.proposals)
    (p' : d'.bun.proposals = c'.bun.proposals) : Sim E d d' := ⟨e, by rw [p, p']; exact h.props⟩

theorem setProposal (h : Sim E c c') (id : Nat) {p p' : Proposal} (hp : PropSim E p p') :
    Sim E (c.setProposal id p) (c'.setProposal id p') := by
  refine ⟨?_, fun j => ?_⟩
  · exact h.core
  · show OptSim _ ((c.bun.proposals.set id p).get? j) ((c'.bun.proposals.set id p').get? j)
    rw [Map.get?_set, Map.get?_set]
    by_cases e : j = id
    · rw [if_pos e, if_pos e]; exact hp
    · rw [if_neg e, if_neg e]; exact h.props j

theorem withDel (h : Sim E c c') {w w' : Delegation.World} (hw : w.er = w'.er) : Sim E (c.withDel w) (c'.withDel w') := by
  refine h.of_core ?_ rfl rfl
  show (c.er).withDel w.er = (c'.er).withDel w'.er
  rw [h.core, hw]

theorem withSt (h : Sim E c c') {w w' : Stakers.World} (hw : w.er = w'.er) : Sim E (c.withSt w) (c'.withSt w') := by
  refine h.of_core ?_ rfl rfl
  show (c.er).withSt w.er = (c'.er).withSt w'.er
  rw [h.core, hw]

theorem setSt (h : Sim E c c') {s s' : Stakers.State} (hs : s.er = s'.er) :
    Sim E { c with st := s } { c' with st := s' } := by
  refine h.of_core ?_ rfl rfl
  show ({ c.er with st := s.er } : Chain) = { c'.er with st := s'.er }
  rw [h.core, hs]

theorem withFund (h : Sim E c c') (w : Funders.World) : Sim E (c.withFund w) (c'.withFund w) := by
  refine h.of_core ?_ rfl rfl
  show (c.er).withFund w = (c'.er).withFund w
  rw [h.core]

theorem setBank (h : Sim E c c') (b : Bank) : Sim E { c with b := b } { c' with b := b } := by
  refine h.of_core ?_ rfl rfl
  show ({ c.er with b := b } : Chain) = { c'.er with b := b }
  rw [h.core]

theorem setPool (h : Sim E c c') (s : Pool.State) : Sim E { c with pool := s } { c' with pool := s } := by
  refine h.of_core ?_ rfl rfl
  show ({ c.er with pool := s } : Chain) = { c'.er with pool := s }
  rw [h.core]

theorem setFund (h : Sim E c c') (s : Funders.State) : Sim E { c with fund := s } { c' with fund := s } := by
  refine h.of_core ?_ rfl rfl
  show ({ c.er with fund := s } : Chain) = { c'.er with fund := s }
  rw [h.core]

theorem setFundBank (h : Sim E c c') (s : Funders.State) (b : Bank) :
    Sim E { c with fund := s, b := b } { c' with fund := s, b := b } := (h.setFund s).setBank b

theorem setProgress (h : Sim E c c') (id : Nat) (l : List (Addr × Int)) :
    Sim E (c.setProgress id l) (c'.setProgress id l) := by
  refine h.of_core ?_ rfl rfl
  show (c.er).setProgress id l = (c'.er).setProgress id l
  rw [h.core]

/-! ### slashes and points -/

theorem slash (h : Sim E c c') (a : Addr) (t : Delegation.SlashType) : Sim E (c.slash a t) (c'.slash a t) := by
  refine h.withDel ?_
  rw [← Delegation.er_slashDelegators, h.dw, Delegation.er_slashDelegators]

theorem kick (h : Sim E c c') (id : Nat) (a : Addr) : Sim E (c.kick id a) (c'.kick id a) := by
  refine h.setSt ?_
  rw [← Stakers.er_kick, h.st, Stakers.er_kick, h.now]

theorem slashAndRemove (h : Sim E c c') (id : Nat) (a : Addr) (t : Delegation.SlashType) :
    Sim E (c.slashAndRemove id a t) (c'.slashAndRemove id a t) := (h.slash a t).kick id a

theorem resetPoints (h : Sim E c c') (id : Nat) (a : Addr) : Sim E (c.resetPoints id a) (c'.resetPoints id a) := by
  refine h.setSt ?_
  rw [← Stakers.er_resetPoints, h.st, Stakers.er_resetPoints]

theorem incPoints (h : Sim E c c') (id : Nat) (a : Addr) : Sim E (c.incPoints id a) (c'.incPoints id a) := by
  refine h.setSt ?_
  have h1 := congrArg Prod.fst (Stakers.er_incrementPoints c.st id a)
  have h2 := congrArg Prod.fst (Stakers.er_incrementPoints c'.st id a)
  rw [h.st] at h1
  exact h1.symm.trans h2

theorem addPoint (h : Sim E c c') (id : Nat) (a : Addr) : Sim E (c.addPoint id a) (c'.addPoint id a) := by
  have h1 := congrArg Prod.snd (Stakers.er_incrementPoints c.st id a)
  have h2 := congrArg Prod.snd (Stakers.er_incrementPoints c'.st id a)
  rw [h.st] at h1
  have e : (c.st.incrementPoints id a).2 = (c'.st.incrementPoints id a).2 := h1.symm.trans h2
  unfold Chain.addPoint
  rw [e, h.params]
  split
  · exact (h.incPoints id a).slashAndRemove id a .timeout
  · exact h.incPoints id a

end Sim

theorem pointLoop_sim (id : Nat) {vs vs' : List Addr} (hv : ∀ a, a ∈ vs ↔ a ∈ vs') (l : List Addr) :
    ∀ {c c' : Chain}, Sim E c c' → Sim E (pointLoop id vs l c) (pointLoop id vs' l c') := by
  induction l with
  | nil => exact fun h => h
  | cons a l ih =>
    intro c c' h
    refine ih ?_
    by_cases e : a ∈ vs
    · rw [if_pos e, if_pos ((hv a).1 e)]; exact h
    · rw [if_neg e, if_neg (fun x => e ((hv a).2 x))]; exact h.addPoint id a

include hE in
theorem voters_iff {p p' : Proposal} (h : PropSim E p p') (a : Addr) : a ∈ voters p ↔ a ∈ voters p' := by
  unfold voters
  simp only [List.mem_append]
  rw [(hE.perm h.valid).mem_iff, (hE.perm h.invalid).mem_iff, (hE.perm h.abstain).mem_iff]

include hE in
theorem nonVoters_sim {c c' : Chain} (h : Sim E c c') (id : Nat) : Sim E (c.nonVoters id) (c'.nonVoters id) := by
  unfold nonVoters
  rw [h.members]
  exact pointLoop_sim id (voters_iff hE (h.prop hE id)) _ h

theorem power_perm (amt : Addr → Nat) {l l' : List Addr} (h : l.Perm l') : Bundles.power amt l = Bundles.power amt l' := by
  unfold Bundles.power
  rw [(h.map amt).sum_eq]

include hE in
theorem dist_sim {c c' : Chain} (h : Sim E c c') (id : Nat) : c.dist id = c'.dist id := by
  unfold dist
  have hp := h.props id
  rw [h.member, h.amount, h.members]
  cases e1 : c.bun.proposals.get? id <;> cases e2 : c'.bun.proposals.get? id <;> rw [e1, e2] at hp
  · exact hp.elim
  · exact hp.elim
  · rename_i p p'
    show Bundles.voteDist _ _ _ _ = Bundles.voteDist _ _ _ _
    unfold Bundles.voteDist
    rw [power_perm c'.del.amount ((hE.perm hp.valid).filter _), power_perm c'.del.amount ((hE.perm hp.invalid).filter _),
      power_perm c'.del.amount ((hE.perm hp.abstain).filter _)]

/-! ### slashing a list of stakers -/

/-- x/delegation called `PanicHalt`, or the node stopped -/
def Stopped (c : Chain) : Prop := c.del.halted = true ∨ c.crashed = true

/-- alike, or (if `z`) both stopped -/
def Rel (E : List Addr → List Addr → Prop) (z : Bool) (c c' : Chain) : Prop :=
  Sim E c c' ∨ (z = true ∧ Stopped c ∧ Stopped c')

theorem Sim.stopped {c c' : Chain} (h : Sim E c c') : Stopped c ↔ Stopped c' := by
  unfold Stopped
  rw [h.crashed, show c.del.halted = c'.del.halted from (congrArg (fun x : Chain => x.del.halted) h.core :)]

/-- `slashInvalid` and `slashValid` -/
def slashBy (id : Nat) (ty : Addr → Delegation.SlashType) : List Addr → Chain → Chain
  | [], c => c
  | a :: l, c => slashBy id ty l (c.slashAndRemove id a (ty a))

theorem slashInvalid_by (id : Nat) (l : List Addr) : ∀ c : Chain, slashInvalid id l c = slashBy id (fun _ => .vote) l c := by
  induction l with
  | nil => intro c; rfl
  | cons a l ih => intro c; exact ih _

theorem slashValid_by (id : Nat) (u : Option Addr) (l : List Addr) :
    ∀ c : Chain, slashValid id u l c = slashBy id (fun a => if u = some a then .upload else .vote) l c := by
  induction l with
  | nil => intro c; rfl
  | cons a l ih => intro c; exact ih _

theorem stopped_slash {c : Chain} (h : Stopped c) (a : Addr) (t : Delegation.SlashType) : Stopped (c.slash a t) := by
  rcases h with h | h
  · refine Or.inl ?_
    show (Delegation.slashDelegators c.dw a t).s.halted = true
    unfold Delegation.slashDelegators
    split
    · exact h
    · show (c.del.halted || _) = true
      rw [h]; rfl
  · exact Or.inr h

theorem stopped_slashAndRemove {c : Chain} (h : Stopped c) (id : Nat) (a : Addr) (t : Delegation.SlashType) :
    Stopped (c.slashAndRemove id a t) := stopped_slash h a t

theorem Rel.slashAndRemove {z : Bool} {c c' : Chain} (h : Rel E z c c') (id : Nat) (a : Addr) (t : Delegation.SlashType) :
    Rel E z (c.slashAndRemove id a t) (c'.slashAndRemove id a t) := by
  rcases h with h | ⟨hz, h1, h2⟩
  · exact Or.inl (h.slashAndRemove id a t)
  · exact Or.inr ⟨hz, stopped_slashAndRemove h1 id a t, stopped_slashAndRemove h2 id a t⟩

theorem PropSim.trans {p q r : Proposal} (h : PropSim List.Perm p q) (h' : PropSim List.Perm q r) : PropSim List.Perm p r :=
  ⟨h.rest.trans h'.rest, h.valid.trans h'.valid, h.invalid.trans h'.invalid, h.abstain.trans h'.abstain⟩

theorem Sim.trans {c d e : Chain} (h : Sim List.Perm c d) (h' : Sim List.Perm d e) : Sim List.Perm c e := by
  refine ⟨h.core.trans h'.core, fun id => ?_⟩
  have h1 := h.props id
  have h2 := h'.props id
  cases e1 : c.bun.proposals.get? id <;> cases e2 : d.bun.proposals.get? id <;> cases e3 : e.bun.proposals.get? id <;>
    rw [e1, e2] at h1 <;> rw [e2, e3] at h2
  · trivial
  · exact h2.elim
  · exact h1.elim
  · exact h1.elim
  · exact h1.elim
  · exact h1.elim
  · exact h2.elim
  · exact PropSim.trans h1 h2

theorem Rel.trans {c d e : Chain} (h : Rel List.Perm true c d) (h' : Rel List.Perm true d e) : Rel List.Perm true c e := by
  rcases h with h | ⟨-, h1, h2⟩
  · rcases h' with h' | ⟨-, h3, h4⟩
    · exact Or.inl (h.trans h')
    · exact Or.inr ⟨rfl, h.stopped.2 h3, h4⟩
  · rcases h' with h' | ⟨-, h3, h4⟩
    · exact Or.inr ⟨rfl, h1, h'.stopped.1 h2⟩
    · exact Or.inr ⟨rfl, h1, h4⟩

end Chain
end Verif.Chain

namespace Verif.Stakers
open Verif

theorem removeActive_get (m : Map Addr Nat) (a x : Addr) : (removeActive m a).get? x =
    if x = a then (if (m.get? a).getD 0 ≤ 1 then none else some ((m.get? a).getD 0 - 1)) else m.get? x := by
  unfold removeActive
  split
  · rw [Map.get?_del]
  · rw [Map.get?_set]

theorem removeActive_comm (m : Map Addr Nat) {a b : Addr} (h : a ≠ b) :
    removeActive (removeActive m a) b = removeActive (removeActive m b) a := by
  ext1 x
  rw [removeActive_get, removeActive_get, removeActive_get, removeActive_get, removeActive_get, removeActive_get,
    if_neg h, if_neg (Ne.symm h)]
  by_cases ha : x = a
  · subst ha; rw [if_neg h, if_pos rfl, if_pos rfl]
  · rw [if_neg ha, if_neg ha]

theorem del_comm {K V : Type} [DecidableEq K] [KeyOrd K] (m : Map K V) (a b : K) : (m.del a).del b = (m.del b).del a := by
  ext1 x
  rw [Map.get?_del, Map.get?_del, Map.get?_del, Map.get?_del]
  split <;> split <;> rfl

theorem has_kick (s : State) (now p : Nat) {a b : Addr} (h : a ≠ b) : (s.kick now p a).vals.has (p, b) = s.vals.has (p, b) := by
  unfold State.kick
  split
  · unfold State.removeVal
    split
    · rfl
    · show ((s.vals.del (p, a)).get? (p, b)).isSome = _
      rw [Map.get?_del_ne _ (by simpa using Ne.symm h)]; rfl
  · rfl

theorem kick_of_has {s : State} {now p : Nat} {a : Addr} (h : s.vals.has (p, a) = true) :
    (s.kick now p a) = { s with
      vals := s.vals.del (p, a)
      valIdx := s.valIdx.del (a, p)
      counts := s.counts.set p (u64sub (s.count p) 1)
      active := removeActive s.active a
      trace := .kicked a p now :: s.trace } := by
  unfold State.kick State.removeVal
  rw [if_pos h, if_neg (by rw [h]; simp)]

/-- a state up to the history variables -/
theorem er_of_fields {s t : State} (vals : s.vals = t.vals) (valIdx : s.valIdx = t.valIdx) (counts : s.counts = t.counts)
    (active : s.active = t.active) (stakers : s.stakers = t.stakers) (changes : s.changes = t.changes)
    (changeIdx : s.changeIdx = t.changeIdx) (cLow : s.cLow = t.cLow) (cHigh : s.cHigh = t.cHigh) (leaves : s.leaves = t.leaves)
    (leaveIdx : s.leaveIdx = t.leaveIdx) (lLow : s.lLow = t.lLow) (lHigh : s.lHigh = t.lHigh) (params : s.params = t.params)
    (gifts : s.gifts = t.gifts) : s.er = t.er := by
  unfold State.er
  cases s; cases t
  simp only at *
  subst vals valIdx counts active stakers changes changeIdx cLow cHigh leaves leaveIdx lLow lHigh params gifts
  rfl

theorem counts_comm (m : Map Nat Nat) (p : Nat) (f : Nat → Nat) (x : Nat) :
    (m.set p x).set p (f (((m.set p x).get? p).getD 0)) = m.set p (f x) := by
  rw [Map.get?_set_self, Map.set_set]; rfl

theorem kick_comm (s : State) (now p : Nat) {a b : Addr} (h : a ≠ b) :
    ((s.kick now p a).kick now p b).er = ((s.kick now p b).kick now p a).er := by
  by_cases ha : s.vals.has (p, a) = true
  · by_cases hb : s.vals.has (p, b) = true
    · rw [kick_of_has (s := s.kick now p a) (by rw [has_kick _ _ _ h]; exact hb),
        kick_of_has (s := s.kick now p b) (by rw [has_kick _ _ _ (Ne.symm h)]; exact ha), kick_of_has ha, kick_of_has hb]
      generalize u64sub (s.count p) 1 = n
      refine er_of_fields (del_comm s.vals _ _) (del_comm s.valIdx _ _) ?_ (removeActive_comm _ h) rfl rfl rfl rfl rfl rfl rfl
        rfl rfl rfl rfl
      exact (counts_comm s.counts p (fun x => u64sub x 1) n).trans (counts_comm s.counts p (fun x => u64sub x 1) n).symm
    · have hb' : ∀ t : State, t.vals.has (p, b) = s.vals.has (p, b) → t.kick now p b = t := by
        intro t ht; unfold State.kick; rw [ht, if_neg hb]
      rw [hb' _ (has_kick s now p h), hb' s rfl]
  · have ha' : ∀ t : State, t.vals.has (p, a) = s.vals.has (p, a) → t.kick now p a = t := by
      intro t ht; unfold State.kick; rw [ht, if_neg ha]
    rw [ha' s rfl, ha' _ (has_kick s now p (Ne.symm h))]

end Verif.Stakers

namespace Verif
open Verif

/-- two payments from one account to another: in whichever order they both succeed with the same balances, or in either
order one of them fails -/
theorem send_two (b : Bank) {s t : Acct} (hst : s ≠ t) (x y : Coins) :
    (Bank.failed (b.send s t x) = false ∧ Bank.failed ((b.orKeep (b.send s t x)).send s t y) = false ∧
      Bank.failed (b.send s t y) = false ∧ Bank.failed ((b.orKeep (b.send s t y)).send s t x) = false ∧
      (b.orKeep (b.send s t x)).orKeep ((b.orKeep (b.send s t x)).send s t y)
        = (b.orKeep (b.send s t y)).orKeep ((b.orKeep (b.send s t y)).send s t x)) ∨
    ((Bank.failed (b.send s t x) = true ∨ Bank.failed ((b.orKeep (b.send s t x)).send s t y) = true) ∧
      (Bank.failed (b.send s t y) = true ∨ Bank.failed ((b.orKeep (b.send s t y)).send s t x) = true)) := by
  have key : ∀ x y : Coins, (Bank.failed (b.send s t x) = false ∧
      Bank.failed ((b.orKeep (b.send s t x)).send s t y) = false) ↔ ∀ d, x.amt d + y.amt d ≤ (b s).amt d := by
    intro x y
    cases h : b.send s t x with
    | error e =>
      obtain ⟨d, hd⟩ := Bank.send_err h
      refine ⟨fun h => absurd h.1 (by simp [Bank.failed]), fun h => ?_⟩
      have := h d; omega
    | ok b1 =>
      obtain ⟨h1, h2⟩ := Bank.send_ok h
      have hs : ∀ d, (b1 s).amt d = (b s).amt d - x.amt d := by
        intro d; rw [h2, if_pos rfl, if_neg hst]; omega
      constructor
      · intro ⟨_, hy⟩ d
        cases h' : b1.send s t y with
        | error e => rw [show b.orKeep (.ok b1) = b1 from rfl, h'] at hy; simp [Bank.failed] at hy
        | ok b2 =>
          have := (Bank.send_ok h').1 d
          have := h1 d
          rw [hs] at *; omega
      · intro ha
        obtain ⟨b2, hb2⟩ := Bank.send_succeeds (b := b1) (s := s) (t := t) (c := y) (by intro d; have := ha d; rw [hs]; omega)
        refine ⟨rfl, ?_⟩
        rw [show b.orKeep (.ok b1) = b1 from rfl, hb2]; rfl
  by_cases ha : ∀ d, x.amt d + y.amt d ≤ (b s).amt d
  · left
    have k1 := (key x y).2 ha
    have k2 := (key y x).2 (fun d => by have := ha d; omega)
    refine ⟨k1.1, k1.2, k2.1, k2.2, ?_⟩
    have final : ∀ x y : Coins, Bank.failed (b.send s t x) = false →
        Bank.failed ((b.orKeep (b.send s t x)).send s t y) = false →
        ∀ a d, (((b.orKeep (b.send s t x)).orKeep ((b.orKeep (b.send s t x)).send s t y)) a).amt d =
        (b a).amt d - (if a = s then x.amt d + y.amt d else 0) + (if a = t then x.amt d + y.amt d else 0) := by
      intro x y f1 f2 a d
      cases h : b.send s t x with
      | error e => rw [h] at f1; simp [Bank.failed] at f1
      | ok b1 =>
        rw [h] at f2
        rw [show b.orKeep (.ok b1) = b1 from rfl] at f2 ⊢
        cases h' : b1.send s t y with
        | error e => rw [h'] at f2; simp [Bank.failed] at f2
        | ok b2 =>
          rw [show b1.orKeep (.ok b2) = b2 from rfl, (Bank.send_ok h').2, (Bank.send_ok h).2]
          by_cases e1 : a = s
          · have e2 : a ≠ t := fun e => hst (e1 ▸ e)
            simp only [if_pos e1, if_neg e2]; omega
          · simp only [if_neg e1]
            split <;> omega
    funext a
    ext d
    rw [final x y k1.1 k1.2, final y x k2.1 k2.2]
    simp only [Nat.add_comm (x.amt d)]
  · right
    have n1 := mt (key x y).1 ha
    have n2 := mt (key y x).1 (fun h => ha (fun d => by have := h d; omega))
    simp only [not_and_or, Bool.not_eq_false] at n1 n2
    exact ⟨n1, n2⟩

end Verif

namespace Verif.Delegation
open Verif

theorem slash_none {w : World} {st : Addr} (t : SlashType) (h : (w.s.at st).data.isNone = true) :
    slashDelegators w st t = w := by unfold slashDelegators; rw [if_pos h]

theorem slash_at (w : World) {a b : Addr} (h : a ≠ b) (t : SlashType) :
    (slashDelegators w a t).s.at b = w.s.at b := by
  unfold slashDelegators
  split
  · rfl
  · show ((w.s.f1.set a _).get? b).getD _ = _
    rw [Map.get?_set_ne _ _ (Ne.symm h)]; rfl

theorem slash_params (w : World) (a : Addr) (t : SlashType) : (slashDelegators w a t).s.params = w.s.params := by
  unfold slashDelegators
  split <;> rfl

/-- two slashes of different stakers: the same in either order, or `PanicHalt` in either order -/
theorem slash_comm (w : World) {a b : Addr} (h : a ≠ b) (ta tb : SlashType) :
    (slashDelegators (slashDelegators w a ta) b tb).er = (slashDelegators (slashDelegators w b tb) a ta).er ∨
    ((slashDelegators (slashDelegators w a ta) b tb).s.halted = true ∧
      (slashDelegators (slashDelegators w b tb) a ta).s.halted = true) := by
  by_cases ha : (w.s.at a).data.isNone = true
  · left
    rw [slash_none ta ha, slash_none (w := slashDelegators w b tb) ta (by rw [slash_at _ (Ne.symm h)]; exact ha)]
  · by_cases hb : (w.s.at b).data.isNone = true
    · left
      rw [slash_none tb hb, slash_none (w := slashDelegators w a ta) tb (by rw [slash_at _ h]; exact hb)]
    · have e1 : ∀ (v : World) (x : Addr) (t : SlashType), ¬ (v.s.at x).data.isNone = true →
          (slashDelegators v x t).s.f1 = v.s.f1.set x (f1Step (v.s.at x) (.slash (v.s.params.slashFraction t))) := by
        intro v x t hx; unfold slashDelegators; rw [if_neg hx]; rfl
      have e2 : ∀ (v : World) (x : Addr) (t : SlashType), ¬ (v.s.at x).data.isNone = true →
          (slashDelegators v x t).s.halted = (v.s.halted || Bank.failed (slashTransfer v x (v.s.params.slashFraction t))) := by
        intro v x t hx; unfold slashDelegators; rw [if_neg hx]
      have e3 : ∀ (v : World) (x : Addr) (t : SlashType), ¬ (v.s.at x).data.isNone = true →
          (slashDelegators v x t).b = v.b.orKeep (slashTransfer v x (v.s.params.slashFraction t)) := by
        intro v x t hx; unfold slashDelegators; rw [if_neg hx]
      have hb' : ¬ ((slashDelegators w a ta).s.at b).data.isNone = true := by rw [slash_at _ h]; exact hb
      have ha' : ¬ ((slashDelegators w b tb).s.at a).data.isNone = true := by rw [slash_at _ (Ne.symm h)]; exact ha
      have st : ∀ (v : World) (x : Addr) (q : Dec), v.s.at x = w.s.at x →
          slashTransfer v x q = v.b.send (.mod .delegation) (.mod .treasury) (Coins.single kyve (slash (w.s.at x) q).2) := by
        intro v x q hx; unfold slashTransfer; rw [hx]
      have key := send_two w.b (s := .mod .delegation) (t := .mod .treasury) (by decide)
        (Coins.single kyve (slash (w.s.at a) (w.s.params.slashFraction ta)).2)
        (Coins.single kyve (slash (w.s.at b) (w.s.params.slashFraction tb)).2)
      have hA : (slashDelegators (slashDelegators w a ta) b tb).s.halted = ((w.s.halted ||
          Bank.failed (w.b.send (.mod .delegation) (.mod .treasury)
            (Coins.single kyve (slash (w.s.at a) (w.s.params.slashFraction ta)).2))) ||
          Bank.failed ((w.b.orKeep (w.b.send (.mod .delegation) (.mod .treasury)
            (Coins.single kyve (slash (w.s.at a) (w.s.params.slashFraction ta)).2))).send (.mod .delegation) (.mod .treasury)
            (Coins.single kyve (slash (w.s.at b) (w.s.params.slashFraction tb)).2))) := by
        rw [e2 _ _ _ hb', e2 _ _ _ ha, slash_params, st _ _ _ (slash_at w h ta), e3 _ _ _ ha, st w a _ rfl]
      have hB : (slashDelegators (slashDelegators w b tb) a ta).s.halted = ((w.s.halted ||
          Bank.failed (w.b.send (.mod .delegation) (.mod .treasury)
            (Coins.single kyve (slash (w.s.at b) (w.s.params.slashFraction tb)).2))) ||
          Bank.failed ((w.b.orKeep (w.b.send (.mod .delegation) (.mod .treasury)
            (Coins.single kyve (slash (w.s.at b) (w.s.params.slashFraction tb)).2))).send (.mod .delegation) (.mod .treasury)
            (Coins.single kyve (slash (w.s.at a) (w.s.params.slashFraction ta)).2))) := by
        rw [e2 _ _ _ ha', e2 _ _ _ hb, slash_params, st _ _ _ (slash_at w (Ne.symm h) tb), e3 _ _ _ hb, st w b _ rfl]
      rcases key with ⟨k1, k2, k3, k4, k5⟩ | ⟨k1, k2⟩
      · left
        have eb : (slashDelegators (slashDelegators w a ta) b tb).b = (slashDelegators (slashDelegators w b tb) a ta).b := by
          rw [e3 _ _ _ hb', e3 _ _ _ ha', slash_params, slash_params, st _ _ _ (slash_at w h ta),
            st _ _ _ (slash_at w (Ne.symm h) tb), e3 _ _ _ ha, e3 _ _ _ hb, st w a _ rfl, st w b _ rfl]
          exact k5
        have eh : (slashDelegators (slashDelegators w a ta) b tb).s.halted
            = (slashDelegators (slashDelegators w b tb) a ta).s.halted := by
          rw [hA, hB, k1, k2, k3, k4]
        have ef : (slashDelegators (slashDelegators w a ta) b tb).s.f1 = (slashDelegators (slashDelegators w b tb) a ta).s.f1 := by
          rw [e1 _ _ _ hb', e1 _ _ _ ha', e1 _ _ _ ha, e1 _ _ _ hb, slash_params, slash_params, slash_at w h,
            slash_at w (Ne.symm h)]
          exact Map.set_comm _ _ _ h
        have rest : ∀ (v : World) (x : Addr) (t : SlashType), (slashDelegators v x t).er =
            ⟨{ v.s.er with f1 := (slashDelegators v x t).s.f1, halted := (slashDelegators v x t).s.halted },
              (slashDelegators v x t).b⟩ := by
          intro v x t; unfold slashDelegators
          split <;> rfl
        have rest2 : ∀ (v : World) (x : Addr) (t : SlashType) (f : Map Addr F1) (g : Bool),
            ({ (slashDelegators v x t).s.er with f1 := f, halted := g } : State) = { v.s.er with f1 := f, halted := g } := by
          intro v x t f g; unfold slashDelegators
          split <;> rfl
        rw [rest, rest (slashDelegators w b tb), rest2, rest2, ef, eh, eb]
      · right
        rw [hA, hB]
        constructor
        · rcases k1 with k | k <;> rw [k] <;> simp
        · rcases k2 with k | k <;> rw [k] <;> simp

end Verif.Delegation
