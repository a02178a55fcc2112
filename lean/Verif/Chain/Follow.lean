import Verif.Chain.Log
import Verif.Chain.Delegating
import Verif.Chain.Voting

/-!
# C113, C114, C115: following the events

Somebody who knows the state once and from then on reads only the events of x/bundles, x/stakers and x/delegation knows the
members of every pool and their points, the stake behind every staker, and the proposed bundle, its votes and the archive of
every pool.
-/

set_option linter.dupNamespace false
namespace Verif.Chain
open Verif
open Chain
open Verif.Bundles (Proposal VoteDist Reward FBundle Status)

/-! ## specification -/

/-- C113, the reader: the points of staker `a` in pool `id` (`none`: not a member) after an event -/
def Log.place (id : Nat) (a : Addr) (x : Option Nat) : Log → Option Nat
  | .joined i b => if i = id ∧ b = a then some 0 else x
  | .left i b => if i = id ∧ b = a then none else x
  | .point i b n => if i = id ∧ b = a then x.map (fun _ => n) else x
  | .reset i b => if i = id ∧ b = a then x.map (fun _ => 0) else x
  | _ => x

/-- C114, the reader: how the stake behind staker `a` changes with an event -/
def Log.change (a : Addr) : Log → Int
  | .delegated _ s n => if s = a then n else 0
  | .undelegated _ s n => if s = a then -(n : Int) else 0
  | .redelegated _ s t n => (if t = a then (n : Int) else 0) - (if s = a then (n : Int) else 0)
  | .slashed _ s n _ => if s = a then -(n : Int) else 0
  | _ => 0

/-- what a reader knows about a pool: the proposed bundle with the votes, and the archive -/
structure Book where
  pending : Option (Offer × (Addr → Option Vote))
  archive : Nat → Option FBundle

/-- the archived bundle that a reader puts together from the proposal and the result -/
def Offer.bundle (o : Offer) (v : VoteDist) (time : Nat) : FBundle :=
  { storageId := o.storageId, uploader := o.uploader
    fromIndex := o.fromIndex, toIndex := u64add o.fromIndex o.bundleSize
    finalizedAt := time
    fromKey := o.fromKey, toKey := o.toKey, summary := o.summary, dataHash := o.dataHash
    storageProviderId := o.storageProviderId, compressionId := o.compressionId
    validPower := v.valid, totalPower := v.total }

/-- C115, the reader: the book of pool `id` after an event -/
def Log.book (id : Nat) (x : Book) : Log → Book
  | .proposed i _ o => if i = id then ⟨some (o, fun _ => none), x.archive⟩ else x
  | .voted i a _ v => if i = id then
      ⟨x.pending.map (fun p => (p.1, fun b => if b = a then some v else p.2 b)), x.archive⟩ else x
  | .finalized i n v _ t _ => if i = id then
      ⟨none, if v.status = .valid then fun k => if k = n then x.pending.map (fun p => p.1.bundle v t) else x.archive k
        else x.archive⟩ else x
  | _ => x

/-- the points of a staker in a pool, `none` if it is not a member -/
def seat (c : Chain) (id : Nat) (a : Addr) : Option Nat := (c.st.vals.get? (id, a)).map (·.points)

/-- the proposed bundle of a pool as a reader of the store sees it -/
def offerOf (pl : Pool.Pool) (p : Proposal) : Offer :=
  { storageId := p.storageId, uploader := p.uploader, dataSize := p.dataSize, fromIndex := pl.currentIndex
    bundleSize := p.bundleSize, fromKey := p.fromKey, toKey := p.toKey, summary := p.summary, dataHash := p.dataHash
    storageProviderId := p.storageProviderId, compressionId := p.compressionId }

/-- the book of a pool in the store -/
def bookOf (c : Chain) (id : Nat) : Book :=
  { pending := if (c.proposal id).storageId = 0 then none
      else (c.pool.pools.get? id).map (fun pl => (offerOf pl (c.proposal id), voteOf c id))
    archive := fun i => c.bun.finalized.get? (id, i) }

/-- the slashing parameters are fractions -/
def Lawful (c : Chain) : Prop := ∀ t, c.del.params.slashFraction t ≤ Dec.one

/-- the events `l` tell a reader what has changed from `c` to `c'` -/
structure Tells (l : List Log) (c c' : Chain) : Prop where
  place : ∀ id a, seat c' id a = l.foldl (Log.place id a) (seat c id a)
  law : Lawful c → Lawful c'
  change : Lawful c → ∀ a, (c'.del.amount a : Int) = c.del.amount a + (l.map (Log.change a)).sum
  book : ∀ id, bookOf c' id = l.foldl (Log.book id) (bookOf c id)

namespace Chain

theorem _root_.Verif.Chain.Tells.refl (c : Chain) : Tells [] c c := ⟨fun _ _ => rfl, fun h => h, fun _ _ => by simp, fun _ => rfl⟩

theorem _root_.Verif.Chain.Tells.trans {l l' : List Log} {c d e : Chain} (h : Tells l c d) (h' : Tells l' d e) : Tells (l ++ l') c e :=
  ⟨fun id a => by rw [List.foldl_append, ← h.place, h'.place], fun x => h'.law (h.law x),
    fun x a => by rw [h'.change (h.law x), h.change x, List.map_append, List.sum_append]; omega,
    fun id => by rw [List.foldl_append, ← h.book, h'.book]⟩

theorem bookOf_still {c c' : Chain} (hp : c'.pool = c.pool) (hb : c'.bun = c.bun) (id : Nat) : bookOf c' id = bookOf c id := by
  unfold bookOf voteOf proposal
  rw [hp, hb]

/-- nothing a reader is told about has changed -/
theorem _root_.Verif.Chain.Tells.none {c c' : Chain} (hv : c'.st.vals = c.st.vals) (ha : ∀ a, c'.del.amount a = c.del.amount a)
    (hq : c'.del.params = c.del.params) (hb : ∀ id, bookOf c' id = bookOf c id) : Tells [] c c' :=
  ⟨fun id a => by unfold seat; rw [hv]; rfl, fun h => by unfold Lawful; rw [hq]; exact h,
    fun _ a => by rw [ha]; simp, hb⟩

theorem tells_noSlash {c c' : Chain} (h : NoSlash c c') : Tells [] c c' :=
  Tells.none h.vals h.amount h.fixed.params (bookOf_still h.fixed.still.pool h.fixed.still.bun)

/-! ## slashes and points -/

theorem amount_slash (c : Chain) (id : Nat) (a b : Addr) (t : Delegation.SlashType) (hl : Lawful c) :
    ((c.slash a t).del.amount b : Int) = c.del.amount b + ((c.logSlash id a t).map (Log.change b)).sum := by
  unfold logSlash
  show ((Delegation.slashDelegators c.dw a t).s.amount b : Int) = _
  unfold Delegation.slashDelegators
  by_cases hd : (c.del.at a).data.isNone = true
  · have e : (c.dw.s.at a).data.isNone = true := hd
    rw [if_pos e, if_pos hd]
    show (c.del.amount b : Int) = _
    simp
  · have e : ¬ (c.dw.s.at a).data.isNone = true := hd
    rw [if_neg e, if_neg hd]
    show ((c.del.applyIndexed a (.slash (c.del.params.slashFraction t))).amount b : Int) = _
    by_cases hab : b = a
    · subst hab
      have e1 : (c.del.applyIndexed b (.slash (c.del.params.slashFraction t))).amount b =
          c.del.amount b - c.del.amount b * c.del.params.slashFraction t / Dec.one := by
        unfold Delegation.State.amount
        rw [Delegation.at_applyIndexed, if_pos rfl]
        exact Delegation.total_slash _ _
      have e2 : (Delegation.slash (c.del.at b) (c.del.params.slashFraction t)).2 =
          c.del.amount b * c.del.params.slashFraction t / Dec.one := by
        unfold Delegation.slash Delegation.State.amount
        cases hx : (c.del.at b).data with
        | none => rw [hx] at hd; exact absurd rfl hd
        | some d => exact Delegation.slashedAmount_eq _ _
      have h3 : c.del.amount b * c.del.params.slashFraction t / Dec.one ≤ c.del.amount b := by
        refine Nat.div_le_of_le_mul ?_
        rw [Nat.mul_comm Dec.one]
        exact Nat.mul_le_mul_left _ (hl t)
      rw [e1, e2]
      simp only [List.map_cons, List.map_nil, List.sum_cons, List.sum_nil, Log.change, if_true]
      omega
    · have e1 : (c.del.applyIndexed a (.slash (c.del.params.slashFraction t))).amount b = c.del.amount b := by
        unfold Delegation.State.amount
        rw [Delegation.at_applyIndexed, if_neg hab]
      rw [e1]
      simp only [List.map_cons, List.map_nil, List.sum_cons, List.sum_nil, Log.change]
      rw [if_neg (fun x => hab x.symm)]
      simp

theorem tells_slash (c : Chain) (id : Nat) (a : Addr) (t : Delegation.SlashType) :
    Tells (c.logSlash id a t) c (c.slash a t) := by
  have hf := slash_fixed c a t
  refine ⟨fun i b => ?_, fun h => by unfold Lawful; rw [hf.params]; exact h, fun h b => amount_slash c id a b t h, fun i => ?_⟩
  · show seat c i b = _
    unfold logSlash
    split <;> rfl
  · rw [bookOf_still hf.still.pool hf.still.bun]
    unfold logSlash
    split <;> rfl

theorem tells_kick (c : Chain) (id : Nat) (a : Addr) : Tells [.left id a] c (c.kick id a) := by
  have hf := kick_fixed c id a
  refine ⟨fun i b => ?_, fun h => h, fun _ b => ?_, fun i => bookOf_still hf.still.pool hf.still.bun i⟩
  · unfold seat
    rw [kick_get]
    show _ = if id = i ∧ a = b then none else _
    by_cases e : (i, b) = (id, a)
    · have e' := Prod.mk.injEq _ _ _ _ ▸ e
      rw [if_pos e, if_pos ⟨e'.1.symm, e'.2.symm⟩]; rfl
    · rw [if_neg e, if_neg (fun x => e (by rw [x.1, x.2]))]
  · show (c.del.amount b : Int) = _
    simp [Log.change]

theorem tells_remove (c : Chain) (id : Nat) (a : Addr) (t : Delegation.SlashType) :
    Tells (c.logRemove id a t) c (c.slashAndRemove id a t) := (tells_slash c id a t).trans (tells_kick _ id a)

theorem tells_reset (c : Chain) (id : Nat) (a : Addr) : Tells (c.logReset id a) c (c.resetPoints id a) := by
  have hf := resetPoints_fixed c id a
  have hb : ∀ i, bookOf (c.resetPoints id a) i = bookOf c i := fun i => bookOf_still hf.still.pool hf.still.bun i
  unfold logReset
  cases hv : c.st.vals.get? (id, a) with
  | none =>
    refine Tells.none ?_ (fun _ => rfl) rfl hb
    show (c.st.resetPoints id a).vals = _
    unfold Stakers.State.resetPoints; rw [hv]
  | some v =>
    have hs : ∀ i b, seat (c.resetPoints id a) i b = if (i, b) = (id, a) then some 0 else seat c i b := by
      intro i b
      unfold seat
      rw [resetPoints_get]
      split
      · rename_i e; rw [e, hv]; rfl
      · rfl
    show Tells (if v.points > 0 then [.reset id a] else []) c _
    have hx : seat c id a = some v.points := by unfold seat; rw [hv]; rfl
    split
    · refine ⟨fun i b => ?_, fun h => h, fun _ b => ?_, hb⟩
      · rw [hs]
        show _ = if id = i ∧ a = b then (seat c i b).map (fun _ => 0) else _
        by_cases e : (i, b) = (id, a)
        · have e' := Prod.mk.injEq _ _ _ _ ▸ e
          rw [if_pos e, if_pos ⟨e'.1.symm, e'.2.symm⟩, e'.1, e'.2, hx]; rfl
        · rw [if_neg e, if_neg (fun x => e (by rw [x.1, x.2]))]
      · show (c.del.amount b : Int) = _
        simp [Log.change]
    · rename_i h0
      refine ⟨fun i b => ?_, fun h => h, fun _ b => ?_, hb⟩
      · rw [hs]
        split
        · rename_i e
          have e' := Prod.mk.injEq _ _ _ _ ▸ e
          rw [e'.1, e'.2, hx]
          have : v.points = 0 := by omega
          rw [this]; rfl
        · rfl
      · show (c.del.amount b : Int) = _
        simp

theorem tells_inc (c : Chain) (id : Nat) (a : Addr) : Tells [.point id a (c.st.incrementPoints id a).2] c (c.incPoints id a) := by
  have hf := incPoints_fixed c id a
  refine ⟨fun i b => ?_, fun h => h, fun _ b => ?_, fun i => bookOf_still hf.still.pool hf.still.bun i⟩
  · show ((c.st.incrementPoints id a).1.vals.get? (i, b)).map _ = if id = i ∧ a = b then (seat c i b).map (fun _ => (c.st.incrementPoints id a).2)
      else seat c i b
    unfold seat Stakers.State.incrementPoints
    cases hv : c.st.vals.get? (id, a) with
    | none =>
      show (c.st.vals.get? (i, b)).map _ = _
      split
      · rename_i e; rw [← e.1, ← e.2, hv]; rfl
      · rfl
    | some v =>
      show ((c.st.vals.set (id, a) _).get? (i, b)).map _ = _
      rw [Map.get?_set]
      by_cases e : (i, b) = (id, a)
      · have e' := Prod.mk.injEq _ _ _ _ ▸ e
        rw [if_pos e, if_pos ⟨e'.1.symm, e'.2.symm⟩, e'.1, e'.2, hv]; rfl
      · rw [if_neg e, if_neg (fun x => e (by rw [x.1, x.2]))]
  · show (c.del.amount b : Int) = _
    simp [Log.change]

theorem tells_point (c : Chain) (id : Nat) (a : Addr) : Tells (c.logPoint id a) c (c.addPoint id a) := by
  unfold logPoint addPoint
  split
  · exact (tells_inc c id a).trans (tells_remove _ id a .timeout)
  · exact tells_inc c id a

theorem tells_points (id : Nat) (vs l : List Addr) (c : Chain) : Tells (logPoints id vs l c) c (pointLoop id vs l c) := by
  induction l generalizing c with
  | nil => exact Tells.refl c
  | cons a l ih =>
    unfold logPoints pointLoop
    refine Tells.trans ?_ (ih _)
    split
    · exact Tells.refl c
    · exact tells_point c id a

theorem tells_nonVoters (c : Chain) (id : Nat) : Tells (c.logNonVoters id) c (c.nonVoters id) := tells_points id _ _ c

/-! ## tally -/

theorem tells_invalid (id : Nat) (l : List Addr) (c : Chain) : Tells (logInvalid id l c) c (slashInvalid id l c) := by
  induction l generalizing c with
  | nil => exact Tells.refl c
  | cons a l ih => exact (tells_remove c id a .vote).trans (ih _)

theorem tells_valid (id : Nat) (u : Option Addr) (l : List Addr) (c : Chain) :
    Tells (logValid id u l c) c (slashValid id u l c) := by
  induction l generalizing c with
  | nil => exact Tells.refl c
  | cons a l ih => exact (tells_remove c id a _).trans (ih _)

/-- what a successful tally of a valid bundle pays -/
theorem tallyValid_bill {c y : Chain} {id : Nat} {p : Proposal} {v w : VoteDist} (h : c.tallyValid id p v = .done y w) :
    ∃ x d e, c.bill id = some (x, d) ∧ NoSlash c d ∧ d.payReward p.uploader x.reward = .ok e ∧ y = slashInvalid id p.invalid e ∧
      w = v := by
  unfold tallyValid at h
  unfold bill
  split at h
  · cases h
  · rename_i r hr
    rw [hr]
    show ∃ x d e, (c.withFund ⟨r.2.1, r.2.2⟩).billInflation id r.1 = some (x, d) ∧ _
    have h0 := noSlash_fund c ⟨r.2.1, r.2.2⟩
    generalize c.withFund ⟨r.2.1, r.2.2⟩ = d at h h0 ⊢
    unfold tallyInflation at h
    unfold billInflation
    split at h
    · cases h
    · rename_i q hq
      rw [hq]
      show ∃ x d' e, billPay { d with b := q.2.1, halted := d.halted || q.2.2 } id r.1 q.1 = some (x, d') ∧ _
      have h1 := h0.trans (noSlash_pay d q.2.1 (d.halted || q.2.2))
      generalize ({ d with b := q.2.1, halted := d.halted || q.2.2 } : Chain) = e at h h1 ⊢
      unfold tallyPay at h
      unfold billPay
      split at h
      · cases h
      · rename_i z hz
        rw [hz]
        split at h
        · cases h
        · rename_i f hf
          injection h with k1 k2
          exact ⟨_, _, f, rfl, h1, hf, k1.symm, k2.symm⟩

theorem tells_tally {c y : Chain} {id : Nat} {p : Proposal} {v : VoteDist} (h : c.tally id p = .done y v) :
    Tells (c.logTally id p) c y ∧ v = (c.nonVoters id).dist id := by
  unfold tally tallyOutcome at h
  unfold logTally logOutcome
  generalize hw : (c.nonVoters id).dist id = w at h
  split at h
  · rename_i hs
    obtain ⟨x, d, e, hb, hn, hp, hy, hv⟩ := tallyValid_bill h
    rw [hs]
    refine ⟨(tells_nonVoters c id).trans ?_, hv⟩
    show Tells (logPaid id p ((c.nonVoters id).bill id)) _ _
    rw [hb]
    unfold logPaid
    simp only [hp]
    rw [hy]
    have h1 := (tells_noSlash hn).trans (tells_noSlash ((noSlash_payReward d p.uploader x.reward).ok hp))
    exact h1.trans (tells_invalid id p.invalid e)
  · rename_i hs
    injection h with h1 h2
    subst h1
    rw [hs]
    exact ⟨(tells_nonVoters c id).trans (tells_valid id _ _ _), h2.symm⟩
  · rename_i h3 h4
    injection h with h1 h2
    subst h1
    refine ⟨?_, h2.symm⟩
    refine (tells_nonVoters c id).trans ?_
    split
    · rename_i x; exact absurd x h3
    · rename_i x; exact absurd x h4
    · exact Tells.refl _

/-! ## finalize, drop, register -/

theorem tells_progress (c : Chain) (id : Nat) (l : List (Addr × Int)) : Tells [] c (c.setProgress id l) :=
  Tells.none rfl (fun _ => rfl) rfl (fun _ => rfl)

theorem book_other (c : Chain) {id j : Nat} (p : Proposal) (h : j ≠ id) : bookOf (c.setProposal id p) j = bookOf c j := by
  have e : (c.setProposal id p).proposal j = c.proposal j := by rw [proposal_set, if_neg h]
  unfold bookOf voteOf
  rw [e]
  rfl

theorem book_empty (c : Chain) {id : Nat} {p : Proposal} (h : p.storageId = 0) :
    bookOf (c.setProposal id p) id = ⟨none, (bookOf c id).archive⟩ := by
  have e : (c.setProposal id p).proposal id = p := by rw [proposal_set, if_pos rfl]
  unfold bookOf
  rw [e, if_pos h]
  rfl

/-- only the next uploader and the time change -/
theorem tells_next (c : Chain) (id : Nat) (n : Option Addr) (t : Nat) :
    Tells [] c (c.setProposal id { c.proposal id with nextUploader := n, updatedAt := t }) := by
  refine Tells.none rfl (fun _ => rfl) rfl (fun j => ?_)
  by_cases h : j = id
  · subst h
    have e : (c.setProposal j { c.proposal j with nextUploader := n, updatedAt := t }).proposal j =
        { c.proposal j with nextUploader := n, updatedAt := t } := by rw [proposal_set, if_pos rfl]
    unfold bookOf voteOf
    rw [e]
    rfl
  · exact book_other c _ h

theorem tells_drop {c : Chain} {id : Nat} {pl : Pool.Pool} (hpl : c.pool.pools.get? id = some pl) {v : VoteDist}
    (hv : v.status ≠ .valid) (n : Option Addr) : Tells (c.logDrop id v) c (c.drop id n) := by
  unfold logDrop logFinalize
  rw [hpl]
  refine ⟨fun _ _ => rfl, fun h => h, fun _ b => ?_, fun j => ?_⟩
  · show (c.del.amount b : Int) = _
    simp [Log.change]
  · show _ = if id = j then (⟨none, if v.status = .valid then _ else (bookOf c j).archive⟩ : Book) else bookOf c j
    rw [if_neg hv]
    by_cases h : j = id
    · subst h
      rw [if_pos rfl]
      exact book_empty c rfl
    · rw [if_neg (fun x => h x.symm)]
      exact book_other c _ h

theorem finalize_same (c : Chain) (id : Nat) (v : VoteDist) :
    (c.finalize id v).st = c.st ∧ (c.finalize id v).del = c.del ∧ (c.finalize id v).now = c.now := by
  unfold finalize; split <;> exact ⟨rfl, rfl, rfl⟩

theorem book_finalize {c : Chain} (hk : Keyed c) {id j : Nat} (h : j ≠ id) (v : VoteDist) :
    bookOf (c.finalize id v) j = bookOf c j := by
  cases hpl : c.pool.pools.get? id with
  | none =>
    have e : c.finalize id v = c := by unfold finalize; rw [hpl]
    rw [e]
  | some pl =>
    have e1 : ∀ i, (c.finalize id v).bun.finalized.get? (j, i) = c.bun.finalized.get? (j, i) := by
      intro i
      unfold finalize
      rw [hpl]
      show (c.bun.finalized.set (id, pl.totalBundles) _).get? (j, i) = _
      rw [Map.get?_set, if_neg (by simp [h])]
    have e2 : (c.finalize id v).pool.pools.get? j = c.pool.pools.get? j := by
      unfold finalize
      rw [hpl]
      show (Pool.incrementBundleInformation c.pool id _ _ _).pools.get? j = _
      unfold Pool.incrementBundleInformation
      rw [hpl]
      show (c.pool.pools.set pl.id _).get? j = _
      rw [hk id pl hpl, Map.get?_set, if_neg h]
    unfold bookOf voteOf
    rw [e2, finalize_proposal]
    congr 1
    funext i
    exact e1 i

theorem tells_finalize {c : Chain} (hk : Keyed c) {id : Nat} {pl : Pool.Pool} (hpl : c.pool.pools.get? id = some pl)
    (h0 : (c.proposal id).storageId ≠ 0) {v : VoteDist} (hv : v.status = .valid) (x : Bill) (n : Option Addr) (t : Nat) :
    Tells (c.logFinalize id v x) c ((c.finalize id v).setProposal id (Proposal.blank n t)) := by
  obtain ⟨f1, f2, f3⟩ := finalize_same c id v
  unfold logFinalize
  rw [hpl]
  refine ⟨fun i b => ?_, fun h => ?_, fun _ b => ?_, fun j => ?_⟩
  · show seat (c.finalize id v) i b = seat c i b
    unfold seat; rw [f1]
  · show Lawful (c.finalize id v)
    unfold Lawful; rw [f2]; exact h
  · show ((c.finalize id v).del.amount b : Int) = _
    rw [f2]
    simp [Log.change]
  · show _ = if id = j then (⟨none, if v.status = .valid then
      fun k => if k = pl.totalBundles then (bookOf c j).pending.map (fun p => p.1.bundle v c.now) else (bookOf c j).archive k
      else (bookOf c j).archive⟩ : Book) else bookOf c j
    rw [if_pos hv]
    by_cases h : j = id
    · subst h
      rw [if_pos rfl, book_empty _ rfl]
      congr 1
      funext i
      show (c.finalize j v).bun.finalized.get? (j, i) = _
      unfold finalize
      rw [hpl]
      show (c.bun.finalized.set (j, pl.totalBundles) (c.bundleOf pl (c.proposal j) v)).get? (j, i) = _
      rw [Map.get?_set]
      by_cases e : i = pl.totalBundles
      · subst e
        rw [if_pos rfl, if_pos rfl]
        unfold bookOf
        rw [if_neg h0, hpl]
        rfl
      · rw [if_neg (by simpa using e), if_neg e]
        rfl
    · rw [if_neg (fun x => h x.symm), book_other _ _ h]
      exact book_finalize hk h v

theorem tells_register {c : Chain} {m : SubmitMsg} {pl : Pool.Pool} (hpl : c.pool.pools.get? m.pool = some pl)
    (h0 : m.storageId ≠ 0) (n : Option Addr) : Tells (c.logRegister m) c (c.register m n) := by
  rw [register_get hpl]
  unfold logRegister
  rw [hpl]
  refine ⟨fun _ _ => rfl, fun h => h, fun _ b => ?_, fun j => ?_⟩
  · show (c.del.amount b : Int) = _
    simp [Log.change]
  · by_cases h : j = m.pool
    · subst h
      show _ = Log.book m.pool (Log.book m.pool _ (.proposed m.pool pl.totalBundles (m.offer pl)))
        (.voted m.pool m.staker m.storageId .valid)
      have e : ∀ q, (c.setProposal m.pool q).proposal m.pool = q := fun q => by rw [proposal_set, if_pos rfl]
      simp only [Log.book, if_true, Option.map_some]
      unfold bookOf voteOf
      simp only [e]
      rw [if_neg (show ¬ (m.proposal c.now pl.storageProviderId pl.compressionId n).storageId = 0 from h0)]
      have hp : (c.setProposal m.pool (m.proposal c.now pl.storageProviderId pl.compressionId n)).pool.pools.get? m.pool =
        some pl := hpl
      rw [hp]
      have hb : (fun a => if a ∈ (m.proposal c.now pl.storageProviderId pl.compressionId n).valid then some Vote.valid
          else if a ∈ (m.proposal c.now pl.storageProviderId pl.compressionId n).invalid then some .invalid
          else if a ∈ (m.proposal c.now pl.storageProviderId pl.compressionId n).abstain then some .abstain
          else none) = fun b => if b = m.staker then some Vote.valid else none := by
        funext b
        simp [SubmitMsg.proposal]
      have hb' : (fun a => if a ∈ (m.proposal c.now pl.storageProviderId pl.compressionId n).valid then some Vote.valid
          else if a ∈ (m.proposal c.now pl.storageProviderId pl.compressionId n).invalid then some .invalid
          else if a ∈ (m.proposal c.now pl.storageProviderId pl.compressionId n).abstain then some .abstain
          else none) = fun b => if b = m.staker then some Vote.valid else none := hb
      show (⟨some (offerOf pl _, _), _⟩ : Book) = _
      rw [hb]
      rfl
    · rw [book_other _ _ h]
      show _ = Log.book j (Log.book j _ (.proposed m.pool pl.totalBundles (m.offer pl)))
        (.voted m.pool m.staker m.storageId .valid)
      simp only [Log.book]
      rw [if_neg (fun x => h x.symm), if_neg (fun x => h x.symm)]

theorem tells_finalize_register {c : Chain} (hk : Keyed c) {m : SubmitMsg} {pl : Pool.Pool}
    (hpl : c.pool.pools.get? m.pool = some pl) (h0 : (c.proposal m.pool).storageId ≠ 0) (hm : m.storageId ≠ 0)
    {v : VoteDist} (hv : v.status = .valid) (x : Bill) (n : Option Addr) :
    Tells (c.logFinalize m.pool v x ++ (c.finalize m.pool v).logRegister m) c ((c.finalize m.pool v).register m n) := by
  obtain ⟨pl', hpl', -, -⟩ := finalize_pool_get hk hpl v
  have h1 := tells_finalize hk hpl h0 hv x n c.now
  have h2 := tells_register (c := (c.finalize m.pool v).setProposal m.pool (Proposal.blank n c.now)) (m := m) hpl' hm n
  have h3 := h1.trans h2
  rw [register_get (c := (c.finalize m.pool v).setProposal m.pool (Proposal.blank n c.now)) hpl'] at h3
  rw [register_get hpl']
  refine ⟨h3.place, h3.law, h3.change, fun j => ?_⟩
  refine Eq.trans ?_ (h3.book j)
  by_cases h : j = m.pool
  · subst h
    have e : ∀ (d : Chain) q, (d.setProposal m.pool q).proposal m.pool = q := fun d q => by rw [proposal_set, if_pos rfl]
    unfold bookOf voteOf
    rw [e, e]
    rfl
  · rw [book_other _ _ h, book_other _ _ h, book_other _ _ h]

/-! ## messages of x/bundles -/

theorem tells_submit {c c' : Chain} (hk : Keyed c) {m : SubmitMsg} (h : c.submit m = .ok c') : Tells (c.logSubmit m) c c' := by
  obtain ⟨-, ha, -⟩ := submit_ok h
  obtain ⟨pl, hpl, hm⟩ : ∃ pl, c.pool.pools.get? m.pool = some pl ∧ m.storageId ≠ 0 := by
    unfold submitArgs at ha
    split at ha
    · cases ha
    · rename_i pl hpl
      split at ha
      · cases ha
      · rename_i h0; exact ⟨pl, hpl, h0⟩
  have hr := tells_reset c m.pool m.staker
  have hf := resetPoints_fixed c m.pool m.staker
  unfold logSubmit
  refine hr.trans ?_
  rcases submit_cases h with ⟨h0, rfl⟩ | ⟨h0, y, v, ht, hc⟩
  · rw [if_pos h0]
    unfold submitFirst
    exact (tells_progress (c.resetPoints m.pool m.staker) m.pool _).trans
      (tells_register (c := (c.resetPoints m.pool m.staker).setProgress m.pool _) (m := m) hpl hm _)
  · rw [if_neg h0]
    obtain ⟨t1, hv⟩ := tells_tally ht
    refine t1.trans ?_
    rw [ht]
    have hst := Still.trans hf.still (tally_spec ht).1.still
    have hpy : y.pool.pools.get? m.pool = some pl := by rw [hst.pool]; exact hpl
    have hky : Keyed y := fun i p hp => hk i p (by rw [← hst.pool]; exact hp)
    have h0y : (y.proposal m.pool).storageId ≠ 0 := by
      rw [show y.proposal m.pool = c.proposal m.pool from hst.proposal m.pool]; exact h0
    unfold logSubmitTallied
    dsimp only
    rcases hc with ⟨hs, rfl⟩ | ⟨hs, rfl⟩
    · rw [hs]
      exact (tells_progress y _ _).trans
        (tells_finalize_register (c := y.setProgress m.pool (y.choiceFrom m.pool (c.proposal m.pool).valid).2) hky hpy h0y hm
          (hv ▸ hs) _ _)
    · rw [hs]
      exact tells_drop hpy (by rw [hs]; simp) _

theorem tells_skip {c c' : Chain} (hk : Keyed c) (hb : BunInv c) {m : SkipMsg} (h : c.skip m = .ok c') :
    Tells (c.logSkip m) c c' := by
  obtain ⟨ha, -⟩ := skip_ok h
  obtain ⟨pl, hpl⟩ : ∃ pl, c.pool.pools.get? m.pool = some pl := by
    cases hp : c.pool.pools.get? m.pool with
    | some pl => exact ⟨pl, rfl⟩
    | none =>
      unfold canPropose at ha
      split at ha
      · cases ha
      · split at ha
        · cases ha
        · rw [hp] at ha; cases ha
  have hr := tells_reset c m.pool m.staker
  have hf := resetPoints_fixed c m.pool m.staker
  obtain ⟨y, v, ht, rfl⟩ := skip_cases h
  obtain ⟨t1, hv⟩ := tells_tally ht
  unfold logSkip
  refine (hr.trans t1).trans ?_
  rw [ht]
  have hst := Still.trans hf.still (tally_spec ht).1.still
  have hpy : y.pool.pools.get? m.pool = some pl := by rw [hst.pool]; exact hpl
  have hky : Keyed y := fun i p hp => hk i p (by rw [← hst.pool]; exact hp)
  have hpr : y.proposal m.pool = c.proposal m.pool := hst.proposal m.pool
  have ex := tells_progress y m.pool (y.choice m.pool [m.staker]).2
  have other : Tells [] y ((y.setProgress m.pool (y.choice m.pool [m.staker]).2).setProposal m.pool
      { c.proposal m.pool with
        nextUploader := (y.choice m.pool [m.staker]).1
        updatedAt := (y.setProgress m.pool (y.choice m.pool [m.staker]).2).now }) := by
    have e := tells_next (y.setProgress m.pool (y.choice m.pool [m.staker]).2) m.pool (y.choice m.pool [m.staker]).1
      (y.setProgress m.pool (y.choice m.pool [m.staker]).2).now
    have hpr' : (y.setProgress m.pool (y.choice m.pool [m.staker]).2).proposal m.pool = c.proposal m.pool := hpr
    rw [hpr'] at e
    exact ex.trans e
  unfold logSkipTallied skipOutcome
  dsimp only
  cases hs : v.status with
  | valid =>
    have h0y : (y.proposal m.pool).storageId ≠ 0 := by
      rw [hpr]
      intro e
      have hd := (dist_valid (hv ▸ hs)).2
      apply hd
      have e2 : ((c.resetPoints m.pool m.staker).nonVoters m.pool).proposal m.pool = c.proposal m.pool :=
        (nonVoters_q 0 (c.resetPoints m.pool m.staker) m.pool).still.proposal m.pool
      rw [e2, (hb.prop m.pool).empty e]
      rfl
    exact ex.trans (tells_finalize (c := y.setProgress m.pool _) hky hpy h0y hs _ _ _)
  | invalid => exact ex.trans (tells_drop (c := y.setProgress m.pool _) hpy (by rw [hs]; simp) _)
  | unspecified => exact other
  | noQuorum => exact other

theorem tells_vote {c c' : Chain} {m : VoteMsg} (h : c.vote m = .ok c') : Tells (c.logVote m) c c' := by
  obtain ⟨ha, p, hp, rfl⟩ := vote_ok h
  obtain ⟨-, -, h0, -, h1, h2⟩ := canVote_none ha
  have hr := tells_reset c m.pool m.staker
  have e : (c.setProposal m.pool p).resetPoints m.pool m.staker = (c.resetPoints m.pool m.staker).setProposal m.pool p := rfl
  rw [e]
  refine hr.trans ?_
  have hq : (c.resetPoints m.pool m.staker).proposal m.pool = c.proposal m.pool := rfl
  generalize c.resetPoints m.pool m.staker = d at hq
  rw [← hq] at hp h0 h1 h2
  have hpp : (d.setProposal m.pool p).proposal m.pool = p := by rw [proposal_set, if_pos rfl]
  refine ⟨fun _ _ => rfl, fun h => h, fun _ b => ?_, fun j => ?_⟩
  · show (d.del.amount b : Int) = _
    simp [Log.change]
  · show _ = if m.pool = j then (⟨(bookOf d j).pending.map _, (bookOf d j).archive⟩ : Book) else bookOf d j
    by_cases hj : j = m.pool
    · subst hj
      rw [if_pos rfl]
      have hvt := fun b => castVote_voteOf (c := d) (c' := d.setProposal m.pool p) (id := m.pool) (a := m.staker) (v := m.vote)
        h1 h2 (by rw [hpp]; exact hp) b
      have hvf : voteOf (d.setProposal m.pool p) m.pool = fun b => if b = m.staker then some m.vote else voteOf d m.pool b := by
        funext b
        by_cases hb : b = m.staker
        · rw [if_pos hb]; exact ((hvt b).2 hb).1
        · rw [if_neg hb]; exact (hvt b).1 hb
      have hs : p.storageId = (d.proposal m.pool).storageId ∧ ∀ pl, offerOf pl p = offerOf pl (d.proposal m.pool) := by
        unfold castVote at hp
        split at hp
        · cases hp
        · injection hp with hp; subst hp; exact ⟨rfl, fun _ => rfl⟩
        · injection hp with hp; subst hp; exact ⟨rfl, fun _ => rfl⟩
        · split at hp
          · cases hp
          · injection hp with hp; subst hp; exact ⟨rfl, fun _ => rfl⟩
      unfold bookOf
      rw [hpp, hvf, hs.1, if_neg h0]
      have hpo : (d.setProposal m.pool p).pool.pools.get? m.pool = d.pool.pools.get? m.pool := rfl
      rw [hpo]
      rw [if_neg h0]
      cases d.pool.pools.get? m.pool with
      | none => rfl
      | some pl =>
        show (⟨some (offerOf pl p, _), _⟩ : Book) = _
        rw [hs.2]
        rfl
    · rw [if_neg (fun x => hj x.symm), book_other _ _ hj]

theorem tells_claim {c c' : Chain} {a b : Addr} {id : Nat} (h : c.claim a b id = .ok c') : Tells [] c c' := by
  unfold claim at h
  split at h
  · cases h
  · split at h
    · cases h
    · split at h
      · cases h
      · injection h with h; subst h
        exact tells_next c id _ _

/-! ## end block -/

theorem tells_late (c : Chain) (id : Nat) (late : Option Addr) : Tells (c.logLate id late) c (c.pointLate id late) := by
  cases late with
  | none => exact Tells.refl c
  | some a =>
    unfold logLate pointLate
    dsimp only
    split
    · exact tells_point c id _
    · exact Tells.refl c

theorem tells_visit {gov : Addr} {c c' : Chain} (hL : Light gov c) {id interval : Nat} (hp : c.pool.pools.has id = true)
    (h : c.visit id interval = some c') : Tells (c.logVisit id interval) c c' := by
  obtain ⟨pl, hpl⟩ := (Stakers.has_iff _ _).1 hp
  have hk := keyed_of hL.pool rfl
  unfold visit at h
  unfold logVisit
  cases he : c.runError id with
  | some e =>
    rw [he] at h
    injection h with h
    subst h
    unfold logStopped visitStopped
    dsimp only
    split
    · exact tells_drop hpl (by simp) none
    · split
      · exact tells_next c id none (c.proposal id).updatedAt
      · exact Tells.refl c
  | none =>
    rw [he] at h
    dsimp only at h ⊢
    unfold visitRunning at h
    unfold logRunning
    split at h
    · rename_i h1
      injection h with h
      subst h
      rw [if_pos h1]
      exact Tells.refl c
    · rename_i h1
      rw [if_neg h1]
      split at h
      · rename_i h2
        injection h with h
        subst h
        rw [if_pos h2]
        unfold visitNoQuorum logNoQuorum
        refine (tells_nonVoters c id).trans ?_
        refine (tells_progress (c.nonVoters id) id ((c.nonVoters id).choice id []).2).trans
          (tells_drop (pl := pl) ?_ (by rw [h2.2]; simp) _)
        show (c.nonVoters id).pool.pools.get? id = _
        rw [(nonVoters_q gov c id).still.pool]
        exact hpl
      · rename_i h2
        rw [if_neg h2]
        unfold visitTimeout at h
        unfold logTimeout
        split at h
        · rename_i h3
          injection h with h
          subst h
          rw [if_pos h3]
          exact Tells.refl c
        · rename_i h3
          rw [if_neg h3]
          split at h
          · rename_i h4
            rw [if_pos h4]
            cases ht : c.tally id (c.proposal id) with
            | panicked => rw [ht] at h; cases h
            | failed y => exact absurd ht (tally_not_failed (Light.fit hL) hpl (hL.bun.prop id) y)
            | done y v =>
              rw [ht] at h
              injection h with h
              subst h
              obtain ⟨t1, hv⟩ := tells_tally ht
              refine t1.trans ?_
              have hst := (tally_spec ht).1.still
              have hpy : y.pool.pools.get? id = some pl := by rw [hst.pool]; exact hpl
              have hky : Keyed y := fun i p hp => hk i p (by rw [← hst.pool]; exact hp)
              have hpr : y.proposal id = c.proposal id := hst.proposal id
              unfold logVisitTallied
              dsimp only
              refine Tells.trans ?_ (tells_late _ id _)
              split
              · rename_i hs
                unfold visitValid
                exact (tells_progress y id _).trans (tells_finalize (c := y.setProgress id _) hky hpy
                  (by show (y.proposal id).storageId ≠ 0; rw [hpr]; exact h4) hs _ _ _)
              · rename_i hs
                unfold visitOther
                exact (tells_progress y id _).trans (tells_drop (c := y.setProgress id _) hpy hs _)
          · rename_i h4
            injection h with h
            subst h
            rw [if_neg h4]
            unfold logEmpty visitEmpty
            exact ((tells_progress c id (c.choice id []).2).trans (tells_next (c.setProgress id _) id _ _)).trans
              (tells_late _ id _)

theorem tells_visits {gov : Addr} (l : List (Nat × Pool.Pool)) {c c' : Chain} (hL : Light gov c)
    (hp : ∀ e ∈ l, c.pool.pools.has e.1 = true) (h : visits l c = some c') : Tells (logVisits l c) c c' := by
  induction l generalizing c with
  | nil => injection h with h; subst h; exact Tells.refl c
  | cons e l ih =>
    unfold visits at h
    unfold logVisits
    cases hv : c.visit e.1 e.2.uploadInterval with
    | none => rw [hv] at h; cases h
    | some d =>
      rw [hv] at h
      have hpe := hp e (by simp)
      obtain ⟨h1, t1⟩ := visit_steps (gov := gov) (Light.mem hL) hpe hv
      exact (tells_visit hL hpe hv).trans
        (ih (Light.steps hL h1.steps) (fun e' he' => t1.pool _ (hp e' (by simp [he']))) h)

end Chain
end Verif.Chain
