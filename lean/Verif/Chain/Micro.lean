import Verif.Lib.Supply
import Verif.Chain.Frames
import Verif.Chain.Access

/-!
# Small steps

Every operation of the chain is a sequence of small steps, each of which is one step of one module (or a write to the
store of x/bundles).  This file defines the small steps; `Verif/Chain/Steps.lean` shows that every operation is such a
sequence.  The proofs of invariants look at small steps only.
-/

set_option linter.dupNamespace false
namespace Verif.Chain
open Verif
open Verif.Bundles (Proposal VoteDist)

/-- a small step -/
inductive Micro where
  | del (act : Delegation.Act)
  | st (op : Stakers.Op)
  | join (m : Stakers.JoinMsg)
  | fund (op : Funders.Op)
  | pool (op : Pool.Op)
  | createPool (m : Pool.CreateMsg)
  | pay (b : Bank) (halted : Bool)
  | blank (id : Nat) (next : Option Addr)
  | next (id : Nat) (next : Option Addr) (updatedAt : Nat)
  | cast (id : Nat) (a : Addr) (v : Chain.Vote)
  | register (m : Chain.SubmitMsg) (next : Option Addr)
  | progress (id : Nat) (l : List (Addr × Int))
  | finalize (id : Nat) (v : VoteDist)
  | bundlesParams (authority : Addr) (y : Bundles.ParamsPayload)
  | block (dt : Nat) (restarted : Bool)
  | external (b : Bank) (gd gs gf : Coins)
  | crash

namespace Micro
open Chain

/-- the vote lists after a vote -/
def castOr (p : Proposal) (a : Addr) (v : Vote) : Proposal :=
  match castVote p a v with
  | .ok q => q
  | .error _ => p

/-- the effect -/
def run (gov : Addr) (c : Chain) : Micro → Chain
  | .del act => c.withDel ((⟨c.dw, c.now⟩ : Delegation.Sys).step gov act).w
  | .st op => c.withSt (Stakers.Sys.step gov ⟨c.sw, c.now⟩ op).w
  | .join m => c.orElse (c.join m)
  | .fund op => c.withFund (Funders.step gov c.fw op)
  | .pool op => { c with pool := Pool.step gov c.pool c.now op }
  | .createPool m => c.orElse (Chain.createPool gov c m)
  | .pay b h => { c with b := b, halted := h }
  | .blank id n => c.setProposal id (Proposal.blank n c.now)
  | .next id n t => c.setProposal id { c.proposal id with nextUploader := n, updatedAt := t }
  | .cast id a v => c.setProposal id (castOr (c.proposal id) a v)
  | .register m n => c.register m n
  | .progress id l => c.setProgress id l
  | .finalize id v => c.finalize id v
  | .bundlesParams a y => c.orElse ((Bundles.updateParams gov c.bun a y).map (fun s => { c with bun := s }))
  | .block dt r => (c.newBlock dt r).queues r
  | .external b gd gs gf => c.external b gd gs gf
  | .crash => { c with crashed := true }

/-- is a staker, if there is one -/
def Named (c : Chain) (o : Option Addr) : Prop := ∀ a, o = some a → c.st.stakers.has a = true

/-- the answers of x/stakers are the true ones; not a block hook -/
def DelOk (c : Chain) : Delegation.Act → Prop
  | .delegate ex _ x _ => ex = c.st.stakers.has x
  | .redelegate ex ac m => ex = c.st.stakers.has m.dst ∧ ac = !(c.st.valsOf m.dst).isEmpty
  | .beginBlock _ _ => False
  | .external _ _ => False
  | _ => True

/-- not a join, not a block hook -/
def StOk : Stakers.Op → Prop
  | .join _ _ _ => False
  | .beginBlock _ => False
  | .external _ _ => False
  | _ => True

/-- `poolExists` is the true answer -/
def FundOk (c : Chain) : Funders.Op → Prop
  | .fund ok m => ok = c.pool.pools.has m.pool
  | .poolCreated _ => False
  | .external _ _ => False
  | _ => True

/-- neither of the operations that concern other modules; a pool is disabled when it has no members any more -/
def PoolOk (c : Chain) : Pool.Op → Prop
  | .create _ => False
  | .bundleFinalized _ _ _ _ => False
  | .disable _ id => c.members id = []
  | _ => True

/-- the accounts that pay for inflation and bundles -/
def Payer (a : Acct) : Prop := a = .mod .pool ∨ a = .mod .feeCollector ∨ ∃ id, a = .pool id

/-- the accounts of x/delegation, x/stakers and x/funders and all private accounts are the same -/
structure Kept (b b' : Bank) : Prop where
  user : ∀ a, b' (.user a) = b (.user a)
  del : b' (.mod .delegation) = b (.mod .delegation)
  st : b' (.mod .stakers) = b (.mod .stakers)
  fund : b' (.mod .funders) = b (.mod .funders)
  /-- no coin is created or destroyed -/
  sum : Conserved b b'
  /-- only x/pool, the pools and the fee collector pay -/
  low : OnlySpends Payer b b'

/-- when the chain makes such a step -/
def Ok (gov : Addr) (c : Chain) : Micro → Prop
  | .del act => DelOk c act
  | .st op => StOk op
  | .join m => (∀ a, c.del.amount a < 2 ^ 64 - 1) ∧ ∃ c', c.join m = .ok c'
  | .fund op => FundOk c op
  | .pool op => PoolOk c op
  | .createPool m => ∃ c', Chain.createPool gov c m = .ok c'
  | .pay b _ => Kept c.b b
  | .blank id n => c.pool.pools.has id = true ∧ Named c n
  | .next id n t => c.pool.pools.has id = true ∧ Named c n ∧ ((c.proposal id).updatedAt = t ∨ t = c.now)
  | .cast id a _ => c.pool.pools.has id = true ∧ c.st.stakers.has a = true ∧ (c.proposal id).storageId ≠ 0 ∧
      a ∉ (c.proposal id).valid ∧ a ∉ (c.proposal id).invalid
  | .register m n => c.pool.pools.has m.pool = true ∧ c.st.stakers.has m.staker = true ∧ Named c n ∧
      m.storageId ≠ 0 ∧ 0 < m.bundleSize
  | .progress id l => ∃ ex, l = (c.choice id ex).2
  | .finalize id v => c.pool.pools.has id = true ∧ (c.proposal id).storageId ≠ 0 ∧ v.total < 2 * v.valid
  | .bundlesParams _ _ => True
  | .block _ _ => True
  | .external _ _ _ _ => True
  | .crash => True

end Micro

/-- a sequence of small steps -/
inductive Steps (gov : Addr) : Chain → Chain → Prop
  | refl (c : Chain) : Steps gov c c
  | tail {c c' : Chain} (μ : Micro) : Steps gov c c' → μ.Ok gov c' → Steps gov c (μ.run gov c')

namespace Steps
variable {gov : Addr} {c c' c'' : Chain}

theorem one (μ : Micro) (h : μ.Ok gov c) : Steps gov c (μ.run gov c) := .tail μ (.refl c) h

theorem trans (h : Steps gov c c') (h' : Steps gov c' c'') : Steps gov c c'' := by
  induction h' with
  | refl => exact h
  | tail μ _ ho ih => exact .tail μ ih ho

theorem snoc (h : Steps gov c c') (μ : Micro) (ho : μ.Ok gov c') (he : μ.run gov c' = c'') : Steps gov c c'' :=
  he ▸ .tail μ h ho

end Steps

/-! ## the small steps of the protocol: no message of a single module, no begin block -/

/-- the small steps that make up votes, submissions, skips, claims and end blocks -/
def Micro.judging : Micro → Bool
  | .del (.slash _ _) | .del (.payout _ _) => true
  | .st (.kick _ _) | .st (.incrementPoints _ _) | .st (.resetPoints _ _) | .st (.increaseRewards _ _) => true
  | .fund (.charge _) => true
  | .pool .endBlock => true
  | .pay _ _ | .blank _ _ | .next _ _ _ | .cast _ _ _ | .register _ _ | .progress _ _ | .finalize _ _ | .crash => true
  | _ => false

/-- the fee collector does not pay -/
def Micro.Feeless (c : Chain) : Micro → Prop
  | .pay b _ => b (.mod .feeCollector) = c.b (.mod .feeCollector)
  | _ => True

/-- a sequence of them -/
inductive JSteps (gov : Addr) : Chain → Chain → Prop
  | refl (c : Chain) : JSteps gov c c
  | cons {c c' : Chain} (μ : Micro) : JSteps gov c c' → μ.Ok gov c' → μ.judging = true → μ.Feeless c' →
      JSteps gov c (μ.run gov c')

namespace JSteps
variable {gov : Addr} {c c' c'' : Chain}

theorem tail (h : JSteps gov c c') (μ : Micro) (ho : μ.Ok gov c') (hj : μ.judging = true := by rfl)
    (hf : μ.Feeless c' := by trivial) : JSteps gov c (μ.run gov c') := .cons μ h ho hj hf

theorem one (μ : Micro) (h : μ.Ok gov c) (hj : μ.judging = true := by rfl) (hf : μ.Feeless c := by trivial) :
    JSteps gov c (μ.run gov c) := .cons μ (.refl c) h hj hf

theorem trans (h : JSteps gov c c') (h' : JSteps gov c' c'') : JSteps gov c c'' := by
  induction h' with
  | refl => exact h
  | cons μ _ ho hj hf ih => exact .cons μ ih ho hj hf

theorem snoc (h : JSteps gov c c') (μ : Micro) (ho : μ.Ok gov c') (he : μ.run gov c' = c'')
    (hj : μ.judging = true := by rfl) (hf : μ.Feeless c' := by trivial) : JSteps gov c c'' := he ▸ .cons μ h ho hj hf

theorem steps (h : JSteps gov c c') : Steps gov c c' := by
  induction h with
  | refl => exact .refl _
  | cons μ _ ho _ _ ih => exact .tail μ ih ho

end JSteps

/-! ## quiet steps: points, slashes, payments -/

/-- a small step of a tally: it does not touch the proposals, the pools or the time -/
inductive Quiet where
  | slash (a : Addr) (t : Delegation.SlashType)
  | payout (a : Addr) (x : Coins)
  | kick (id : Nat) (a : Addr)
  | inc (id : Nat) (a : Addr)
  | reset (id : Nat) (a : Addr)
  | reward (a : Addr) (x : Coins)
  | charge (id : Nat)
  | pay (b : Bank) (halted : Bool)

/-- the small step -/
def Quiet.micro : Quiet → Micro
  | .slash a t => .del (.slash a t)
  | .payout a x => .del (.payout a x)
  | .kick id a => .st (.kick id a)
  | .inc id a => .st (.incrementPoints id a)
  | .reset id a => .st (.resetPoints id a)
  | .reward a x => .st (.increaseRewards a x)
  | .charge id => .fund (.charge id)
  | .pay b h => .pay b h

/-- sequences of quiet steps -/
inductive QSteps (gov : Addr) : Chain → Chain → Prop
  | refl (c : Chain) : QSteps gov c c
  | tail {c c' : Chain} (q : Quiet) : QSteps gov c c' → q.micro.Ok gov c' → q.micro.Feeless c' →
      QSteps gov c (q.micro.run gov c')

/-- what quiet steps keep -/
structure Still (c c' : Chain) : Prop where
  now : c'.now = c.now
  pool : c'.pool = c.pool
  bun : c'.bun = c.bun
  crashed : c'.crashed = c.crashed
  stakers : ∀ a, c'.st.stakers.has a = c.st.stakers.has a
  /-- nobody joins a pool -/
  member : ∀ id a, c'.member id a = true → c.member id a = true

theorem Still.refl (c : Chain) : Still c c := ⟨rfl, rfl, rfl, rfl, fun _ => rfl, fun _ _ h => h⟩
theorem Still.trans {c c' c'' : Chain} (h : Still c c') (h' : Still c' c'') : Still c c'' :=
  ⟨h'.now.trans h.now, h'.pool.trans h.pool, h'.bun.trans h.bun, h'.crashed.trans h.crashed,
   fun a => (h'.stakers a).trans (h.stakers a), fun id a x => h.member id a (h'.member id a x)⟩

theorem has_kick (s : Stakers.State) (now id : Nat) (a b : Addr) :
    (s.kick now id a).stakers.has b = s.stakers.has b := by rw [(Stakers.kick_same s now id a).stakers]

theorem vals_setVal (s : Stakers.State) (id : Nat) (a : Addr) (v : Stakers.Val) :
    (s.setVal id a v).vals = s.vals.set (id, a) v := rfl

theorem Quiet.still (gov : Addr) (c : Chain) (q : Quiet) : Still c (q.micro.run gov c) := by
  cases q with
  | slash a t => exact ⟨rfl, rfl, rfl, rfl, fun _ => rfl, fun _ _ h => h⟩
  | payout a x => exact ⟨rfl, rfl, rfl, rfl, fun _ => rfl, fun _ _ h => h⟩
  | kick id a =>
    refine ⟨rfl, rfl, rfl, rfl, fun b => has_kick _ _ _ _ _, fun i b h => ?_⟩
    have h' : (c.st.kick c.now id a).vals.has (i, b) = true := h
    rw [Stakers.kick_vals, Stakers.has_del] at h'
    show c.st.vals.has (i, b) = true
    simp_all
  | inc id a =>
    refine ⟨rfl, rfl, rfl, rfl, fun b => ?_, fun i b h => ?_⟩
    · show (c.st.incrementPoints id a).1.stakers.has b = _
      unfold Stakers.State.incrementPoints; split <;> rfl
    · have h' : (c.st.incrementPoints id a).1.vals.has (i, b) = true := h
      show c.st.vals.has (i, b) = true
      unfold Stakers.State.incrementPoints at h'
      split at h'
      · exact h'
      · rename_i v hv
        have : (c.st.setVal id a { v with points := v.points + 1 }).vals.has (i, b) = true := h'
        rw [vals_setVal, Stakers.has_set] at this
        by_cases e : (i, b) = (id, a)
        · rw [e, Stakers.has_iff]; exact ⟨v, hv⟩
        · simpa [e] using this
  | reset id a =>
    refine ⟨rfl, rfl, rfl, rfl, fun b => ?_, fun i b h => ?_⟩
    · show (c.st.resetPoints id a).stakers.has b = _
      unfold Stakers.State.resetPoints; split <;> rfl
    · have h' : (c.st.resetPoints id a).vals.has (i, b) = true := h
      show c.st.vals.has (i, b) = true
      unfold Stakers.State.resetPoints at h'
      split at h'
      · exact h'
      · rename_i v hv
        rw [vals_setVal, Stakers.has_set] at h'
        by_cases e : (i, b) = (id, a)
        · rw [e, Stakers.has_iff]; exact ⟨v, hv⟩
        · simpa [e] using h'
  | reward a x =>
    refine ⟨rfl, rfl, rfl, rfl, fun b => ?_, fun i b h => ?_⟩
    · show (Stakers.orElse c.sw (Stakers.increaseRewards c.sw .pool a x)).s.stakers.has b = c.st.stakers.has b
      cases h : Stakers.increaseRewards c.sw .pool a x with
      | error e => rfl
      | ok w =>
        show w.s.stakers.has b = _
        rcases Stakers.increase_ok h with ⟨-, rfl⟩ | ⟨y, hy, -, hs⟩
        · rfl
        · rw [hs]
          show (c.st.stakers.set a _).has b = _
          rw [Stakers.has_set]
          by_cases e : b = a
          · subst e
            have : c.st.stakers.has b = true := (Stakers.has_iff _ _).2 ⟨y, hy⟩
            simp [this]
          · simp [e]
    · have h' : (Stakers.orElse c.sw (Stakers.increaseRewards c.sw .pool a x)).s.vals.has (i, b) = true := h
      show c.st.vals.has (i, b) = true
      cases hr : Stakers.increaseRewards c.sw .pool a x with
      | error e => rw [hr] at h'; exact h'
      | ok w =>
        rw [hr] at h'
        have h2 : w.s.vals.has (i, b) = true := h'
        rcases Stakers.increase_ok hr with ⟨-, rfl⟩ | ⟨y, hy, -, hs⟩
        · exact h2
        · rw [hs] at h2; exact h2
  | charge id => exact ⟨rfl, rfl, rfl, rfl, fun _ => rfl, fun _ _ h => h⟩
  | pay b h => exact ⟨rfl, rfl, rfl, rfl, fun _ => rfl, fun _ _ h => h⟩

namespace QSteps
variable {gov : Addr} {c c' c'' : Chain}

theorem one (q : Quiet) (h : q.micro.Ok gov c) (hf : q.micro.Feeless c := by trivial) :
    QSteps gov c (q.micro.run gov c) := .tail q (.refl c) h hf

theorem trans (h : QSteps gov c c') (h' : QSteps gov c' c'') : QSteps gov c c'' := by
  induction h' with
  | refl => exact h
  | tail q _ ho hf ih => exact .tail q ih ho hf

theorem steps (h : QSteps gov c c') : Steps gov c c' := by
  induction h with
  | refl => exact .refl _
  | tail q _ ho _ ih => exact .tail q.micro ih ho

theorem jsteps (h : QSteps gov c c') : JSteps gov c c' := by
  induction h with
  | refl => exact .refl _
  | tail q _ ho hf ih => exact .cons q.micro ih ho (by cases q <;> rfl) hf

theorem still (h : QSteps gov c c') : Still c c' := by
  induction h with
  | refl => exact Still.refl _
  | tail q _ _ _ ih => exact ih.trans (q.still gov _)

end QSteps

end Verif.Chain
