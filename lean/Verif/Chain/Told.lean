import Verif.Chain.Follow

/-!
# C113, C114, C115: following the events, the other operations and whole histories
-/

set_option linter.dupNamespace false
namespace Verif.Chain
open Verif
open Chain
open Verif.Bundles (Proposal VoteDist Reward FBundle Status)

/-! ## specification -/

/-- one history continues another, and `l` are the events in between -/
inductive Heard (gov : Addr) (c : Chain) : List Log → Chain → Prop
  | start : Heard gov c [] c
  | step {l : List Log} {c' : Chain} (op : Op) : Heard gov c l c' → Sane (c'.step gov op) →
      Heard gov c (l ++ logs gov c' op) (c'.step gov op)

namespace Chain

/-! ## the proposals -/

/-- an operation that is not one of x/bundles leaves the proposals and the archive alone -/
theorem books_plain {gov : Addr} {c c' : Chain} (hP : PoolR gov c) {op : Op} (h : exec gov c op = .ok c')
    (h1 : ∀ m, op ≠ .submit m) (h2 : ∀ m, op ≠ .vote m) (h3 : ∀ m, op ≠ .skip m) (h4 : ∀ a b i, op ≠ .claim a b i)
    (h5 : op ≠ .endBlock) (id : Nat) :
    c'.bun.proposals = c.bun.proposals ∧ c'.bun.finalized = c.bun.finalized ∧ Info id c c' := by
  have hpool : ∀ {s : Pool.State} {q : Pool.Op}, (∀ i a b e, q ≠ .bundleFinalized i a b e) →
      Pool.step gov c.pool c.now q = s → ∀ x : Chain, x.pool = s → Info id c x := by
    intro s q hq hs x hx
    exact Info.of_step hP hq (by rw [hx, hs]) id
  cases op with
  | submit m => exact absurd rfl (h1 m)
  | vote m => exact absurd rfl (h2 m)
  | skip m => exact absurd rfl (h3 m)
  | claim a b i => exact absurd rfl (h4 a b i)
  | createStaker a k n =>
    have h' : c.createStaker a k n = .ok c' := h
    unfold createStaker at h'
    split at h'
    · cases h'
    · split at h'
      · cases h'
      · cases h'; exact ⟨rfl, rfl, Info.of_eq rfl⟩
  | join m => obtain ⟨w, -, rfl⟩ := join_eq h; exact ⟨rfl, rfl, Info.of_eq rfl⟩
  | leave a i => obtain ⟨s, hr, rfl⟩ := map_ok h; exact ⟨rfl, rfl, Info.of_eq rfl⟩
  | updateCommission a k => obtain ⟨s, hr, rfl⟩ := map_ok h; exact ⟨rfl, rfl, Info.of_eq rfl⟩
  | updateMetadata a i v => obtain ⟨s, hr, rfl⟩ := map_ok h; exact ⟨rfl, rfl, Info.of_eq rfl⟩
  | claimRewards a x => obtain ⟨s, hr, rfl⟩ := map_ok h; exact ⟨rfl, rfl, Info.of_eq rfl⟩
  | delegate a st n => obtain ⟨s, hr, rfl⟩ := map_ok h; exact ⟨rfl, rfl, Info.of_eq rfl⟩
  | redelegate m => obtain ⟨s, hr, rfl⟩ := map_ok h; exact ⟨rfl, rfl, Info.of_eq rfl⟩
  | undelegate a st n => obtain ⟨s, hr, rfl⟩ := map_ok h; exact ⟨rfl, rfl, Info.of_eq rfl⟩
  | withdraw a st => obtain ⟨s, hr, rfl⟩ := map_ok h; exact ⟨rfl, rfl, Info.of_eq rfl⟩
  | createFunder a => obtain ⟨s, hr, rfl⟩ := map_ok h; exact ⟨rfl, rfl, Info.of_eq rfl⟩
  | fund m => obtain ⟨s, hr, rfl⟩ := map_ok h; exact ⟨rfl, rfl, Info.of_eq rfl⟩
  | defund m => obtain ⟨s, hr, rfl⟩ := map_ok h; exact ⟨rfl, rfl, Info.of_eq rfl⟩
  | createPool m =>
    obtain ⟨s, hs, rfl⟩ := createPool_eq h
    refine ⟨rfl, rfl, hpool (q := .create m) (by rintro _ _ _ _ ⟨⟩) ?_ _ rfl⟩
    show Pool.orElse c.pool (Pool.create gov c.pool c.now m) = s
    rw [hs]; rfl
  | updatePool a i u =>
    obtain ⟨s, hr, rfl⟩ := map_ok h
    refine ⟨rfl, rfl, hpool (q := .update a i u) (by rintro _ _ _ _ ⟨⟩) ?_ _ rfl⟩
    show Pool.orElse _ (Pool.update gov c.pool a i u) = _
    rw [hr]; rfl
  | enablePool a i =>
    obtain ⟨s, hr, rfl⟩ := map_ok h
    refine ⟨rfl, rfl, hpool (q := .enable a i) (by rintro _ _ _ _ ⟨⟩) ?_ _ rfl⟩
    show Pool.orElse _ (Pool.enable gov c.pool a i) = _
    rw [hr]; rfl
  | disablePool a i =>
    have h' : disablePool gov c a i = .ok c' := h
    unfold disablePool at h'
    split at h'
    · cases h'
    · rename_i s hs
      have q := (kickAll_q gov i (c.members i) { c with pool := s }).still
      have hx : c'.bun = c.bun ∧ c'.pool = s := by
        generalize hy : kickAll i (c.members i) { c with pool := s } = y at *
        unfold drain at h'
        split at h'
        · cases h'; exact ⟨q.bun, q.pool⟩
        · split at h'
          · cases h'
          · split at h'
            · cases h'
            · cases h'; exact ⟨q.bun, q.pool⟩
      refine ⟨by rw [hx.1], by rw [hx.1], hpool (q := .disable a i) (by rintro _ _ _ _ ⟨⟩) ?_ _ hx.2⟩
      show Pool.orElse _ (Pool.disable gov c.pool a i) = _
      rw [hs]; rfl
  | scheduleUpgrade m =>
    obtain ⟨s, hr, rfl⟩ := map_ok h
    refine ⟨rfl, rfl, hpool (q := .schedule m) (by rintro _ _ _ _ ⟨⟩) ?_ _ rfl⟩
    show Pool.orElse _ (Pool.schedule gov c.pool c.now m) = _
    rw [hr]; rfl
  | cancelUpgrade a r =>
    obtain ⟨s, hr, rfl⟩ := map_ok h
    refine ⟨rfl, rfl, hpool (q := .cancel a r) (by rintro _ _ _ _ ⟨⟩) ?_ _ rfl⟩
    show Pool.orElse _ (Pool.cancel gov c.pool a r) = _
    rw [hr]; rfl
  | bundlesParams a y =>
    obtain ⟨s, hr, rfl⟩ := map_ok h
    unfold Bundles.updateParams at hr
    split at hr
    · cases hr
    · split at hr
      · cases hr
      · cases hr; exact ⟨rfl, rfl, Info.of_eq rfl⟩
  | delegationParams a y => obtain ⟨s, hr, rfl⟩ := map_ok h; exact ⟨rfl, rfl, Info.of_eq rfl⟩
  | stakersParams a y => obtain ⟨s, hr, rfl⟩ := map_ok h; exact ⟨rfl, rfl, Info.of_eq rfl⟩
  | poolParams a y =>
    obtain ⟨s, hr, rfl⟩ := map_ok h
    refine ⟨rfl, rfl, hpool (q := .updateParams a y) (by rintro _ _ _ _ ⟨⟩) ?_ _ rfl⟩
    show Pool.orElse _ (Pool.updateParams gov c.pool a y) = _
    rw [hr]; rfl
  | fundersParams a p => obtain ⟨s, hr, rfl⟩ := map_ok h; exact ⟨rfl, rfl, Info.of_eq rfl⟩
  | beginBlock dt pr te r =>
    injection h with h
    subst h
    show (c.afterSplit r ((c.newBlock dt r).splitInflation pr te)).bun.proposals = c.bun.proposals ∧
      (c.afterSplit r ((c.newBlock dt r).splitInflation pr te)).bun.finalized = c.bun.finalized ∧
      Info id c (c.afterSplit r ((c.newBlock dt r).splitInflation pr te))
    cases hs : (c.newBlock dt r).splitInflation pr te with
    | none => exact ⟨rfl, rfl, Info.of_eq rfl⟩
    | some x =>
      obtain ⟨b, hl, rfl, -⟩ := splitInflation_eq hs
      refine ⟨?_, ?_, Info.of_eq rfl⟩
      · show (if r then c.bun.initMemStore else c.bun).proposals = _
        cases r <;> rfl
      · show (if r then c.bun.initMemStore else c.bun).finalized = _
        cases r <;> rfl
  | endBlock => exact absurd rfl h5
  | external b gd gs gf => injection h with h; subst h; exact ⟨rfl, rfl, Info.of_eq rfl⟩

theorem book_plain {c c' : Chain} (hb : BunInv c) {id : Nat}
    (h : c'.bun.proposals = c.bun.proposals ∧ c'.bun.finalized = c.bun.finalized ∧ Info id c c') : bookOf c' id = bookOf c id := by
  have e1 : c'.proposal id = c.proposal id := by unfold proposal Bundles.State.proposal; rw [h.1]
  have e2 : voteOf c' id = voteOf c id := by unfold voteOf; rw [e1]
  unfold bookOf
  rw [e1, e2, h.2.1]
  by_cases h0 : (c.proposal id).storageId = 0
  · rw [if_pos h0, if_pos h0]
  · rw [if_neg h0, if_neg h0]
    have hp : c.bun.proposals.has id = true := by
      by_contra hx
      apply h0
      unfold proposal Bundles.State.proposal
      rw [(Stakers.has_false_iff _ _).1 (by simpa using hx)]
      rfl
    obtain ⟨pl, hpl⟩ := (Stakers.has_iff _ _).1 (hb.key id hp)
    obtain ⟨pl', hpl', -, e3, -⟩ := h.2.2 pl hpl
    rw [hpl, hpl']
    simp [offerOf, e3]

/-! ## end block -/

theorem tells_endBlock {gov : Addr} {c : Chain} (h : Reachable gov c) : Tells c.logEndBlock c c.endBlock := by
  have hg := Reachable.good h
  have hL : Light gov c := ⟨hg.mods.st, hg.mods.pool, hg.mods.fund, hg.bun⟩
  have hL' : Light gov c.upgradePools := Light.steps hL (Steps.one (c := c) (.pool .endBlock) trivial)
  have hhas : ∀ e ∈ c.upgradePools.pool.pools.toList, c.upgradePools.pool.pools.has e.1 = true :=
    fun e he => (Stakers.has_iff _ _).2 ⟨e.2, (Map.mem_iff _ _ _).1 he⟩
  unfold logEndBlock endBlock
  cases hv : visits (c.upgradePools.pool.pools.toList) c.upgradePools with
  | none => exact Tells.none rfl (fun _ => rfl) rfl (fun _ => bookOf_still rfl rfl _)
  | some c' =>
    have h1 : Tells [] c c.upgradePools := Tells.none rfl (fun _ => rfl) rfl (fun id =>
      book_plain hg.bun ⟨rfl, rfl, Info.of_step hg.mods.pool (op := .endBlock) (by rintro _ _ _ _ ⟨⟩) rfl id⟩)
    exact h1.trans (tells_visits _ hL' hhas hv)

/-! ## stake -/

/-- how the stake changes while the queue of undelegations is processed -/
theorem amount_queue {now fuel : Nat} {w : Delegation.World} (h : Delegation.WInv w) (a : Addr) :
    ((Delegation.queueLoop now fuel w).s.amount a : Int) = w.s.amount a + ((logUnbond now fuel w).map (Log.change a)).sum := by
  induction fuel generalizing w with
  | zero => simp [Delegation.queueLoop, logUnbond]
  | succ n ih =>
    unfold Delegation.queueLoop logUnbond
    cases hr : Delegation.queueRound w now with
    | none => simp
    | some w' =>
      dsimp only
      rw [ih (h.queueRound hr), List.map_append, List.sum_append]
      unfold Delegation.queueRound at hr
      cases he : w.s.queue.get? (w.s.low + 1) with
      | none =>
        rw [he] at hr
        dsimp only at hr
        split at hr
        · injection hr with hr; subst hr; simp [Delegation.State.amount, Delegation.State.at]
        · cases hr
      | some e =>
        rw [he] at hr
        dsimp only at hr ⊢
        split at hr
        · injection hr with hr; subst hr
          have hx := (Delegation.unbond_spec h now (w.s.low + 1) e).2.1 a
          have hy : Delegation.entryPays w.s e = min e.amount (Delegation.curDel (w.s.at e.staker) e.delegator) :=
            Delegation.undelegated_eq (h.tied.f1inv e.staker) _ _
          simp only [List.map_cons, List.map_nil, List.sum_cons, List.sum_nil, Log.change]
          rw [hy]
          by_cases e1 : a = e.staker
          · rw [if_pos e1] at hx
            rw [if_pos e1.symm]
            omega
          · rw [if_neg e1] at hx
            rw [if_neg (fun z => e1 z.symm)]
            omega
        · cases hr

theorem amount_initMem (s : Delegation.State) (a : Addr) : (Delegation.initMemStore s).amount a = s.amount a := by
  have e := (Delegation.f1_foldl_setIndex (s.f1.keys.filter (fun st => (s.at st).data.isSome)) { s with index := ∅ }).1
  have e' : (Delegation.initMemStore s).f1 = s.f1 := e
  unfold Delegation.State.amount Delegation.State.at
  rw [e']

theorem amount_block {w : Delegation.World} (h : Delegation.WInv w) (now : Nat) (r : Bool) (a : Addr) :
    ((Delegation.beginBlock w now r).s.amount a : Int) = w.s.amount a + ((logQueue w now r).map (Log.change a)).sum := by
  unfold Delegation.beginBlock logQueue Delegation.processQueue
  cases r with
  | false => exact amount_queue h a
  | true =>
    have e := amount_queue (now := now) (fuel := (Delegation.initMemStore w.s).high - (Delegation.initMemStore w.s).low +
      (Delegation.initMemStore w.s).queue.size) h.initMem a
    have e2 : (⟨Delegation.initMemStore w.s, w.b⟩ : Delegation.World).s.amount a = w.s.amount a := amount_initMem w.s a
    rw [e2] at e
    exact e

/-! ## seats -/

theorem vals_changes (now fuel : Nat) (s : Stakers.State) : (Stakers.changeLoop now fuel s).vals = s.vals := by
  have h1 : ∀ s : Stakers.State, (Stakers.changeRound s now).1.vals = s.vals := by
    intro s
    unfold Stakers.changeRound
    split
    · split <;> rfl
    · split
      · split <;> rfl
      · rfl
  induction fuel generalizing s with
  | zero => rfl
  | succ n ih =>
    unfold Stakers.changeLoop
    split
    · rw [ih, h1]
    · exact h1 s

/-- the points of a staker in the store of x/stakers -/
def seatIn (s : Stakers.State) (id : Nat) (a : Addr) : Option Nat := (s.vals.get? (id, a)).map (·.points)

theorem seat_leave (s : Stakers.State) (now id : Nat) (a : Addr) :
    seatIn (Stakers.leaveRound s now).1 id a = (logLeave s now).foldl (Log.place id a) (seatIn s id a) := by
  have hd : ∀ (p : Nat) (b : Addr), ((s.vals.del (p, b)).get? (id, a)).map (fun v : Stakers.Val => v.points) =
      if p = id ∧ b = a then none else seatIn s id a := by
    intro p b
    rw [Map.get?_del]
    by_cases e : (id, a) = (p, b)
    · have e' := Prod.mk.injEq _ _ _ _ ▸ e
      rw [if_pos e, if_pos ⟨e'.1.symm, e'.2.symm⟩]; rfl
    · rw [if_neg e, if_neg (fun x => e (by rw [x.1, x.2]))]; rfl
  unfold Stakers.leaveRound logLeave
  cases he : s.leaves.get? (s.lLow + 1) with
  | none =>
    dsimp only
    split <;> rfl
  | some e =>
    dsimp only
    by_cases hx : Stakers.due e.creation s.params.leavePoolTime now = true
    · rw [if_pos hx, if_pos hx]
      have hv : ∀ i, (s.applyLeave now i e).vals = s.vals.del (e.pool, e.staker) := fun i => Stakers.removeVal_vals s e.pool e.staker
      show _ = if e.pool = id ∧ e.staker = a then none else seatIn s id a
      rw [← hd]
      split
      · show ((s.applyLeave now (s.lLow + 1) e).vals.get? (id, a)).map _ = _
        rw [hv]
      · show ((s.applyLeave now (s.lLow + 1) e).vals.get? (id, a)).map _ = _
        rw [hv]
    · rw [if_neg hx, if_neg hx]
      rfl

theorem seat_leaves (now fuel : Nat) (s : Stakers.State) (id : Nat) (a : Addr) :
    seatIn (Stakers.leaveLoop now fuel s) id a = (logLeaves now fuel s).foldl (Log.place id a) (seatIn s id a) := by
  induction fuel generalizing s with
  | zero => rfl
  | succ n ih =>
    unfold Stakers.leaveLoop logLeaves
    rw [List.foldl_append, ← seat_leave]
    split
    · exact ih _
    · rfl

theorem seat_block (s : Stakers.State) (now id : Nat) (a : Addr) :
    seatIn (Stakers.beginBlock s now) id a = (logStakers s now).foldl (Log.place id a) (seatIn s id a) := by
  unfold Stakers.beginBlock Stakers.processLeaves logStakers
  rw [seat_leaves]
  congr 1
  unfold seatIn Stakers.processChanges
  rw [vals_changes]

/-! ## begin block -/

theorem lawful_of {c : Chain} (h : c.del.params.validate = true) : Lawful c := fun t => Delegation.slashFraction_le h t

theorem unbond_quiet (now fuel : Nat) (w : Delegation.World) (id : Nat) (a : Addr) (x : Option Nat) (y : Book) :
    (logUnbond now fuel w).foldl (Log.place id a) x = x ∧ (logUnbond now fuel w).foldl (Log.book id) y = y := by
  induction fuel generalizing w with
  | zero => exact ⟨rfl, rfl⟩
  | succ n ih =>
    unfold logUnbond
    cases hr : Delegation.queueRound w now with
    | none => exact ⟨rfl, rfl⟩
    | some w' =>
      dsimp only
      rw [List.foldl_append, List.foldl_append]
      cases he : w.s.queue.get? (w.s.low + 1) with
      | none => exact ih w'
      | some e => exact ih w'

theorem leaves_quiet (now fuel : Nat) (s : Stakers.State) (id : Nat) (a : Addr) (y : Book) :
    ((logLeaves now fuel s).map (Log.change a)).sum = 0 ∧ (logLeaves now fuel s).foldl (Log.book id) y = y := by
  have h1 : ∀ s : Stakers.State, ((logLeave s now).map (Log.change a)).sum = 0 ∧ (logLeave s now).foldl (Log.book id) y = y := by
    intro s
    unfold logLeave
    split
    · exact ⟨rfl, rfl⟩
    · split <;> exact ⟨rfl, rfl⟩
  induction fuel generalizing s with
  | zero => exact ⟨rfl, rfl⟩
  | succ n ih =>
    unfold logLeaves
    rw [List.map_append, List.sum_append, List.foldl_append, (h1 s).1, (h1 s).2]
    split
    · simpa using ih _
    · exact ⟨rfl, rfl⟩

theorem tells_queues {c : Chain} (h : Delegation.WInv c.dw) (r : Bool) :
    Tells (logQueue c.dw c.now r ++ logStakers c.st c.now) c (c.queues r) := by
  have hw : Delegation.WInv (Delegation.beginBlock c.dw c.now r) := by
    unfold Delegation.beginBlock Delegation.processQueue
    cases r with
    | false => exact h.queueLoop _ _
    | true => exact h.initMem.queueLoop _ _
  have h1 : Tells (logQueue c.dw c.now r) c (c.withDel (Delegation.beginBlock c.dw c.now r)) :=
    ⟨fun id a => by
      show seat c id a = _
      exact ((unbond_quiet _ _ _ id a (seat c id a) (bookOf c id)).1).symm,
    fun _ => lawful_of hw.par, fun _ a => amount_block h c.now r a, fun id => by
      show bookOf c id = _
      exact ((unbond_quiet _ _ _ id 0 none (bookOf c id)).2).symm⟩
  refine h1.trans ?_
  generalize hd : c.withDel (Delegation.beginBlock c.dw c.now r) = d
  have e1 : c.queues r = { d with st := Stakers.beginBlock d.st d.now } := by rw [← hd]; rfl
  have e2 : c.st = d.st := by rw [← hd]; rfl
  have e3 : c.now = d.now := by rw [← hd]; rfl
  rw [e1, e2, e3]
  refine ⟨fun id a => seat_block d.st d.now id a, fun h => h, fun _ a => ?_, fun id => ?_⟩
  · show (d.del.amount a : Int) = _
    unfold logStakers
    rw [(leaves_quiet _ _ _ 0 a ⟨none, fun _ => none⟩).1]
    simp
  · show bookOf d id = _
    exact ((leaves_quiet _ _ _ id 0 (bookOf d id)).2).symm

theorem tells_beginBlock {gov : Addr} {c : Chain} (h : Reachable gov c) (dt pr te : Nat) (r : Bool) :
    Tells (logBlock r ((c.newBlock dt r).splitInflation pr te)) c (c.beginBlock dt pr te r) := by
  have hg := Reachable.good h
  have hbook := fun id => book_plain hg.bun (c' := c.beginBlock dt pr te r) (id := id)
    (books_plain (gov := gov) hg.mods.pool (op := .beginBlock dt pr te r) rfl (by rintro _ ⟨⟩) (by rintro _ ⟨⟩) (by rintro _ ⟨⟩)
      (by rintro _ _ _ ⟨⟩) (by rintro ⟨⟩) id)
  unfold beginBlock at hbook ⊢
  cases hs : (c.newBlock dt r).splitInflation pr te with
  | none => exact Tells.none rfl (fun _ => rfl) rfl (fun _ => bookOf_still rfl rfl _)
  | some x =>
    rw [hs] at hbook
    obtain ⟨b, hl, hx, hk⟩ := splitInflation_eq hs
    have ex : x.del = c.del ∧ x.st = c.st := by rw [hx]; exact ⟨rfl, rfl⟩
    have hw : Delegation.WInv x.dw := by
      refine hg.mods.del.winv.of_eq ?_ (fun st => ?_) ?_ ?_ ?_ ?_ ?_ <;> rw [hx] <;> try rfl
      exact hk.del
    have t := tells_queues hw r
    refine ⟨fun id a => ?_, fun _ => ?_, fun _ a => ?_, fun id => ?_⟩
    · refine (t.place id a).trans ?_
      have e : seat x id a = seat c id a := by unfold seat; rw [ex.2]
      rw [e]
      rfl
    · exact t.law (lawful_of hw.par)
    · refine (t.change (lawful_of hw.par) a).trans ?_
      rw [ex.1]
      rfl
    · refine (hbook id).trans ?_
      have e := t.book id
      have e' : bookOf (x.queues r) id = bookOf x id := bookOf_still rfl rfl id
      have e'' : bookOf (x.queues r) id = bookOf c id := hbook id
      rw [e'] at e e''
      rw [e''] at e
      exact e

/-! ## the other messages -/

/-- the events of an operation outside of x/bundles -/
theorem tells_plain {gov : Addr} {c c' : Chain} (hr : Reachable gov c) {op : Op} (he : exec gov c op = .ok c')
    (hl : Lawful c') (h1 : ∀ m, op ≠ .submit m) (h2 : ∀ m, op ≠ .vote m) (h3 : ∀ m, op ≠ .skip m)
    (h4 : ∀ a b i, op ≠ .claim a b i) (h5 : op ≠ .endBlock) {l : List Log}
    (hb : ∀ id y, l.foldl (Log.book id) y = y)
    (hp : ∀ id a, seat c' id a = l.foldl (Log.place id a) (seat c id a))
    (ha : ∀ a, (c'.del.amount a : Int) = c.del.amount a + (l.map (Log.change a)).sum) : Tells l c c' :=
  ⟨hp, fun _ => hl, fun _ => ha, fun id => by
    rw [hb]
    exact book_plain hr.good.bun (books_plain hr.good.mods.pool he h1 h2 h3 h4 h5 id)⟩

theorem seat_of_vals {c c' : Chain} (h : c'.st.vals = c.st.vals) (id : Nat) (a : Addr) : seat c' id a = seat c id a := by
  unfold seat; rw [h]

theorem vals_join {gov : Addr} {c c' : Chain} (hr : Reachable gov c) {m : Stakers.JoinMsg} (h : c.join m = .ok c') (id : Nat)
    (a : Addr) : seat c' id a =
      (logEvict c.st c.del.amount m.pool m.creator ++ [Log.joined m.pool m.creator]).foldl (Log.place id a) (seat c id a) := by
  obtain ⟨w, hw, rfl⟩ := join_eq h
  have e2 : ((c.withSt (Stakers.noteGift m c.sw w)).noteGifts m).st.vals = w.s.vals := by
    show (Stakers.noteGift m c.sw w).s.vals = w.s.vals
    unfold Stakers.noteGift; split <;> rfl
  obtain ⟨s1, h1, hv⟩ := Stakers.join_vals hr.good.mods.st.inv.mem hr.good.sound.amt hw
  have hs : seatIn s1 id a = (logEvict c.st c.del.amount m.pool m.creator).foldl (Log.place id a) (seat c id a) := by
    have h1' : c.st.ensureFreeSlot c.del.amount c.now m.pool m.creator = .ok s1 := h1
    unfold Stakers.State.ensureFreeSlot at h1'
    unfold logEvict
    by_cases hc : c.st.count m.pool < Stakers.MaxStakers
    · rw [if_pos hc] at h1' ⊢
      injection h1' with h1'; subst h1'; rfl
    · rw [if_neg hc] at h1' ⊢
      cases hlow : c.st.lowest c.del.amount m.pool with
      | none =>
        rw [hlow] at h1'
        dsimp only at h1' ⊢
        split at h1'
        · injection h1' with h1'; subst h1'; rfl
        · cases h1'
      | some low =>
        rw [hlow] at h1'
        dsimp only at h1' ⊢
        split at h1'
        · rename_i hgt
          rw [if_pos hgt]
          injection h1' with h1'; subst h1'
          exact (tells_kick c m.pool low).place id a
        · cases h1'
  rw [List.foldl_append, ← hs]
  show seat _ id a = if m.pool = id ∧ m.creator = a then some 0 else seatIn s1 id a
  unfold seat seatIn
  rw [e2, hv, Map.get?_set]
  by_cases e : (id, a) = (m.pool, m.creator)
  · have e' := Prod.mk.injEq _ _ _ _ ▸ e
    rw [if_pos e, if_pos ⟨e'.1.symm, e'.2.symm⟩]; rfl
  · rw [if_neg e, if_neg (fun x => e (by rw [x.1, x.2]))]

theorem evict_quiet (s : Stakers.State) (amt : Addr → Nat) (id : Nat) (a : Addr) (i : Nat) (b : Addr) (y : Book) :
    (logEvict s amt id a ++ [Log.joined id a]).foldl (Log.book i) y = y ∧
      ((logEvict s amt id a ++ [Log.joined id a]).map (Log.change b)).sum = 0 := by
  unfold logEvict
  split
  · exact ⟨rfl, rfl⟩
  · split
    · exact ⟨rfl, rfl⟩
    · split <;> exact ⟨rfl, rfl⟩

theorem tells_kickAll (id : Nat) (l : List Addr) (c : Chain) : Tells (l.map (Log.left id)) c (kickAll id l c) := by
  induction l generalizing c with
  | nil => exact Tells.refl c
  | cons a l ih => exact (tells_kick c id a).trans (ih _)

theorem kicks_quiet (id : Nat) (l : List Addr) (i : Nat) (b : Addr) (y : Book) :
    (l.map (Log.left id)).foldl (Log.book i) y = y ∧ ((l.map (Log.left id)).map (Log.change b)).sum = 0 := by
  induction l with
  | nil => exact ⟨rfl, rfl⟩
  | cons a l ih => exact ⟨ih.1, by simpa [Log.change] using ih.2⟩

theorem tells_exec {gov : Addr} {c c' : Chain} (hr : Reachable gov c) {op : Op} (he : exec gov c op = .ok c')
    (hl : Lawful c') : Tells (c.logged op) c c' := by
  have hk : Keyed c := keyed_of hr.good.mods.pool rfl
  have hD := hr.good.mods.del
  have quiet : ∀ (h1 : ∀ m, op ≠ .submit m) (h2 : ∀ m, op ≠ .vote m) (h3 : ∀ m, op ≠ .skip m)
      (h4 : ∀ a b i, op ≠ .claim a b i) (h5 : op ≠ .endBlock), c'.st.vals = c.st.vals →
      (∀ a, c'.del.amount a = c.del.amount a) → Tells [] c c' := fun h1 h2 h3 h4 h5 hv ha =>
    tells_plain hr he hl h1 h2 h3 h4 h5 (fun _ _ => rfl) (fun id a => seat_of_vals hv id a) (fun a => by rw [ha]; simp)
  cases op with
  | submit m => exact tells_submit hk he
  | vote m => exact tells_vote he
  | skip m => exact tells_skip hk hr.good.bun he
  | claim a b i => exact tells_claim he
  | createStaker a k n =>
    have h' : c.createStaker a k n = .ok c' := he
    unfold createStaker at h'
    split at h'
    · cases h'
    · rename_i s hs
      split at h'
      · cases h'
      · rename_i w hw
        injection h' with h'; subst h'
        have hx := (Delegation.C07_delegate hD (ex := true) hw).2.2.1
        refine tells_plain hr he hl (by rintro _ ⟨⟩) (by rintro _ ⟨⟩) (by rintro _ ⟨⟩) (by rintro _ _ _ ⟨⟩) (by rintro ⟨⟩)
          (fun _ _ => rfl) (fun id b => ?_) (fun b => ?_)
        · refine (seat_of_vals (c := c) ?_ id b)
          show s.vals = c.st.vals
          unfold Stakers.createStaker at hs
          split at hs
          · cases hs
          · split at hs
            · cases hs
            · split at hs
              · cases hs
              · injection hs with hs; subst hs; rfl
        · have e := hx b
          show (w.s.amount b : Int) = c.del.amount b + (([Log.delegated a a n] : List Log).map (Log.change b)).sum
          rw [e]
          simp only [List.map_cons, List.map_nil, List.sum_cons, List.sum_nil, Log.change]
          by_cases hb : b = a
          · rw [if_pos hb, if_pos hb.symm]; push_cast; simp [dw]
          · rw [if_neg hb, if_neg (fun z => hb z.symm)]; simp [dw]
  | join m =>
    refine tells_plain hr he hl (by rintro _ ⟨⟩) (by rintro _ ⟨⟩) (by rintro _ ⟨⟩) (by rintro _ _ _ ⟨⟩) (by rintro ⟨⟩)
      (fun i y => (evict_quiet _ _ _ _ i 0 y).1) (fun id b => vals_join hr he id b) (fun b => ?_)
    have e : ((c.logged (.join m)).map (Log.change b)).sum = 0 := (evict_quiet _ _ _ _ 0 b ⟨none, fun _ => none⟩).2
    rw [e]
    obtain ⟨w, -, rfl⟩ := join_eq he
    show (c.del.amount b : Int) = _
    simp
  | leave a i =>
    obtain ⟨s, hs, rfl⟩ := map_ok he
    refine tells_plain hr he hl (by rintro _ ⟨⟩) (by rintro _ ⟨⟩) (by rintro _ ⟨⟩) (by rintro _ _ _ ⟨⟩) (by rintro ⟨⟩)
      (l := []) (fun _ _ => rfl) (fun id b => ?_) (fun b => by show (c.del.amount b : Int) = _; simp)
    unfold Stakers.leavePool at hs
    split at hs
    · cases hs
    · rename_i v hv
      unfold Stakers.State.orderLeave at hs
      split at hs
      · cases hs
      · injection hs with hs; subst hs
        show ((c.st.vals.set (i, a) { v with leaving := true }).get? (id, b)).map _ = (c.st.vals.get? (id, b)).map _
        rw [Map.get?_set]
        split
        · rename_i e; rw [e, hv]; rfl
        · rfl
  | updateCommission a k =>
    obtain ⟨s, hs, rfl⟩ := map_ok he
    refine quiet (by rintro _ ⟨⟩) (by rintro _ ⟨⟩) (by rintro _ ⟨⟩) (by rintro _ _ _ ⟨⟩) (by rintro ⟨⟩) ?_ (fun _ => rfl)
    show s.vals = _
    unfold Stakers.updateCommission at hs
    split at hs
    · cases hs
    · split at hs
      · cases hs
      · injection hs with hs; subst hs; rfl
  | updateMetadata a i v =>
    obtain ⟨s, hs, rfl⟩ := map_ok he
    refine quiet (by rintro _ ⟨⟩) (by rintro _ ⟨⟩) (by rintro _ ⟨⟩) (by rintro _ _ _ ⟨⟩) (by rintro ⟨⟩) ?_ (fun _ => rfl)
    show s.vals = _
    unfold Stakers.updateMetadata at hs
    split at hs
    · cases hs
    · split at hs
      · cases hs
      · injection hs with hs; subst hs; rfl
  | claimRewards a x =>
    obtain ⟨w, hs, rfl⟩ := map_ok he
    refine tells_plain hr he hl (by rintro _ ⟨⟩) (by rintro _ ⟨⟩) (by rintro _ ⟨⟩) (by rintro _ _ _ ⟨⟩) (by rintro ⟨⟩)
      (l := [Log.claimed a x]) (fun _ _ => rfl) (fun id b => ?_)
      (fun b => by show (c.del.amount b : Int) = _; simp [Log.change])
    refine seat_of_vals (c := c) ?_ id b
    show w.s.vals = _
    unfold Stakers.claimRewards at hs
    split at hs
    · cases hs
    · split at hs
      · cases hs
      · split at hs
        · cases hs
        · split at hs
          · cases hs
          · injection hs with hs; subst hs; rfl
  | delegate a st n =>
    obtain ⟨w, hw, rfl⟩ := map_ok he
    have hx := (Delegation.C07_delegate hD hw).2.2.1
    refine tells_plain hr he hl (by rintro _ ⟨⟩) (by rintro _ ⟨⟩) (by rintro _ ⟨⟩) (by rintro _ _ _ ⟨⟩) (by rintro ⟨⟩)
      (l := [Log.delegated a st n]) (fun _ _ => rfl) (fun id b => rfl) (fun b => ?_)
    show (w.s.amount b : Int) = _
    rw [hx b]
    simp only [List.map_cons, List.map_nil, List.sum_cons, List.sum_nil, Log.change]
    by_cases hb : b = st
    · rw [if_pos hb, if_pos hb.symm]; push_cast; simp [dw]
    · rw [if_neg hb, if_neg (fun z => hb z.symm)]; simp [dw]
  | redelegate m =>
    obtain ⟨w, hw, rfl⟩ := map_ok he
    obtain ⟨h0, -, -, -, hx, -⟩ := Delegation.C07_redelegate hD hw
    have hle := (Delegation.C02_module hD m.src).2.1 m.creator
    have hle' : m.amount ≤ c.del.amount m.src := le_trans h0 hle
    refine tells_plain hr he hl (by rintro _ ⟨⟩) (by rintro _ ⟨⟩) (by rintro _ ⟨⟩) (by rintro _ _ _ ⟨⟩) (by rintro ⟨⟩)
      (l := [Log.redelegated m.creator m.src m.dst m.amount]) (fun _ _ => rfl) (fun id b => rfl) (fun b => ?_)
    have e : w.s.amount b = c.del.amount b - (if b = m.src then m.amount else 0) + (if b = m.dst then m.amount else 0) := hx b
    show (w.s.amount b : Int) = _
    rw [e]
    simp only [List.map_cons, List.map_nil, List.sum_cons, List.sum_nil, Log.change]
    by_cases hb : b = m.src
    · subst hb
      rw [if_pos rfl, if_pos rfl]
      by_cases hb' : m.src = m.dst
      · rw [if_pos hb', if_pos hb'.symm]; omega
      · rw [if_neg hb', if_neg (fun z => hb' z.symm)]; omega
    · rw [if_neg hb, if_neg (c := m.src = b) (fun z => hb z.symm)]
      by_cases hb' : b = m.dst
      · rw [if_pos hb', if_pos hb'.symm]; omega
      · rw [if_neg hb', if_neg (fun z => hb' z.symm)]; omega
  | undelegate a st n =>
    obtain ⟨w, hw, rfl⟩ := map_ok he
    obtain ⟨-, hx, -⟩ := Delegation.C07_request hw
    refine quiet (by rintro _ ⟨⟩) (by rintro _ ⟨⟩) (by rintro _ ⟨⟩) (by rintro _ _ _ ⟨⟩) (by rintro ⟨⟩) rfl (fun b => ?_)
    show w.s.amount b = c.del.amount b
    unfold Delegation.State.amount
    rw [hx]
    rfl
  | withdraw a st =>
    obtain ⟨w, hw, rfl⟩ := map_ok he
    refine quiet (by rintro _ ⟨⟩) (by rintro _ ⟨⟩) (by rintro _ ⟨⟩) (by rintro _ _ _ ⟨⟩) (by rintro ⟨⟩) rfl (fun b => ?_)
    show w.s.amount b = c.del.amount b
    unfold Delegation.withdrawMsg at hw
    split at hw
    · cases hw
    · split at hw
      · cases hw
      · injection hw with hw; subst hw
        show (c.del.apply st (.withdraw a)).amount b = _
        unfold Delegation.State.amount
        rw [Delegation.at_apply]
        split
        · rename_i e; subst e
          exact Delegation.total_withdraw (hD.winv.tied.f1inv b) a
        · rfl
  | createFunder a =>
    obtain ⟨s, hs, rfl⟩ := map_ok he
    exact quiet (by rintro _ ⟨⟩) (by rintro _ ⟨⟩) (by rintro _ ⟨⟩) (by rintro _ _ _ ⟨⟩) (by rintro ⟨⟩) rfl (fun _ => rfl)
  | fund m =>
    obtain ⟨s, hs, rfl⟩ := map_ok he
    exact quiet (by rintro _ ⟨⟩) (by rintro _ ⟨⟩) (by rintro _ ⟨⟩) (by rintro _ _ _ ⟨⟩) (by rintro ⟨⟩) rfl (fun _ => rfl)
  | defund m =>
    obtain ⟨s, hs, rfl⟩ := map_ok he
    exact quiet (by rintro _ ⟨⟩) (by rintro _ ⟨⟩) (by rintro _ ⟨⟩) (by rintro _ _ _ ⟨⟩) (by rintro ⟨⟩) rfl (fun _ => rfl)
  | createPool m =>
    obtain ⟨s, hs, rfl⟩ := createPool_eq he
    exact quiet (by rintro _ ⟨⟩) (by rintro _ ⟨⟩) (by rintro _ ⟨⟩) (by rintro _ _ _ ⟨⟩) (by rintro ⟨⟩) rfl (fun _ => rfl)
  | updatePool a i u =>
    obtain ⟨s, hs, rfl⟩ := map_ok he
    exact quiet (by rintro _ ⟨⟩) (by rintro _ ⟨⟩) (by rintro _ ⟨⟩) (by rintro _ _ _ ⟨⟩) (by rintro ⟨⟩) rfl (fun _ => rfl)
  | enablePool a i =>
    obtain ⟨s, hs, rfl⟩ := map_ok he
    exact quiet (by rintro _ ⟨⟩) (by rintro _ ⟨⟩) (by rintro _ ⟨⟩) (by rintro _ _ _ ⟨⟩) (by rintro ⟨⟩) rfl (fun _ => rfl)
  | disablePool a i =>
    have h' : disablePool gov c a i = .ok c' := he
    unfold disablePool at h'
    split at h'
    · cases h'
    · rename_i s hs
      have t := tells_kickAll i (c.members i) { c with pool := s }
      generalize kickAll i (c.members i) { c with pool := s } = y at t h'
      have hx : c'.st = y.st ∧ c'.del = y.del := by
        unfold drain at h'
        split at h'
        · cases h'; exact ⟨rfl, rfl⟩
        · split at h'
          · cases h'
          · split at h'
            · cases h'
            · cases h'; exact ⟨rfl, rfl⟩
      have hL : Lawful c := lawful_of hD.winv.par
      refine tells_plain hr he hl (by rintro _ ⟨⟩) (by rintro _ ⟨⟩) (by rintro _ ⟨⟩) (by rintro _ _ _ ⟨⟩) (by rintro ⟨⟩)
        (fun j z => (kicks_quiet i _ j 0 z).1) (fun id b => ?_) (fun b => ?_)
      · rw [seat_of_vals (c := y) (by rw [hx.1])]
        exact t.place id b
      · rw [hx.2]
        exact t.change hL b
  | scheduleUpgrade m =>
    obtain ⟨s, hs, rfl⟩ := map_ok he
    exact quiet (by rintro _ ⟨⟩) (by rintro _ ⟨⟩) (by rintro _ ⟨⟩) (by rintro _ _ _ ⟨⟩) (by rintro ⟨⟩) rfl (fun _ => rfl)
  | cancelUpgrade a r =>
    obtain ⟨s, hs, rfl⟩ := map_ok he
    exact quiet (by rintro _ ⟨⟩) (by rintro _ ⟨⟩) (by rintro _ ⟨⟩) (by rintro _ _ _ ⟨⟩) (by rintro ⟨⟩) rfl (fun _ => rfl)
  | bundlesParams a y =>
    obtain ⟨s, hs, rfl⟩ := map_ok he
    exact quiet (by rintro _ ⟨⟩) (by rintro _ ⟨⟩) (by rintro _ ⟨⟩) (by rintro _ _ _ ⟨⟩) (by rintro ⟨⟩) rfl (fun _ => rfl)
  | delegationParams a y =>
    obtain ⟨w, hs, rfl⟩ := map_ok he
    refine quiet (by rintro _ ⟨⟩) (by rintro _ ⟨⟩) (by rintro _ ⟨⟩) (by rintro _ _ _ ⟨⟩) (by rintro ⟨⟩) rfl (fun b => ?_)
    show w.s.amount b = c.del.amount b
    unfold Delegation.updateParams at hs
    split at hs
    · cases hs
    · split at hs
      · cases hs
      · injection hs with hs; subst hs; rfl
  | stakersParams a y =>
    obtain ⟨s, hs, rfl⟩ := map_ok he
    refine quiet (by rintro _ ⟨⟩) (by rintro _ ⟨⟩) (by rintro _ ⟨⟩) (by rintro _ _ _ ⟨⟩) (by rintro ⟨⟩) ?_ (fun _ => rfl)
    show s.vals = _
    unfold Stakers.updateParams at hs
    split at hs
    · cases hs
    · split at hs
      · cases hs
      · injection hs with hs; subst hs; rfl
  | poolParams a y =>
    obtain ⟨s, hs, rfl⟩ := map_ok he
    exact quiet (by rintro _ ⟨⟩) (by rintro _ ⟨⟩) (by rintro _ ⟨⟩) (by rintro _ _ _ ⟨⟩) (by rintro ⟨⟩) rfl (fun _ => rfl)
  | fundersParams a p =>
    obtain ⟨s, hs, rfl⟩ := map_ok he
    exact quiet (by rintro _ ⟨⟩) (by rintro _ ⟨⟩) (by rintro _ ⟨⟩) (by rintro _ _ _ ⟨⟩) (by rintro ⟨⟩) rfl (fun _ => rfl)
  | beginBlock dt pr te r =>
    injection he with he
    subst he
    exact tells_beginBlock hr dt pr te r
  | endBlock =>
    injection he with he
    subst he
    exact tells_endBlock hr
  | external b gd gs gf =>
    injection he with he
    subst he
    exact Tells.none rfl (fun _ => rfl) rfl (fun _ => bookOf_still rfl rfl _)

/-- the events of an operation tell a reader what it has changed -/
theorem tells_step {gov : Addr} {c : Chain} (hr : Reachable gov c) (op : Op) (hr' : Reachable gov (c.step gov op)) :
    Tells (logs gov c op) c (c.step gov op) := by
  have hl := lawful_of hr'.good.mods.del.winv.par
  unfold step at hl ⊢
  unfold logs
  cases hc : c.crashed with
  | true => exact Tells.refl c
  | false =>
    rw [hc] at hl
    cases he : exec gov c op with
    | error e => exact Tells.refl c
    | ok c' =>
      rw [he] at hl
      exact tells_exec hr he hl

/-! ## histories -/

theorem heard_later {gov : Addr} {c c' : Chain} {l : List Log} (h : Heard gov c l c') : Later gov c c' := by
  induction h with
  | start => exact .refl
  | step op _ hs ih => exact .step op ih hs

/-- every continuation has its events -/
theorem later_heard {gov : Addr} {c c' : Chain} (h : Later gov c c') : ∃ l, Heard gov c l c' := by
  induction h with
  | refl => exact ⟨[], .start⟩
  | step op _ hs ih =>
    obtain ⟨l, hl⟩ := ih
    exact ⟨_, .step op hl hs⟩

theorem tells_heard {gov : Addr} {c c' : Chain} (hr : Reachable gov c) {l : List Log} (h : Heard gov c l c') : Tells l c c' := by
  induction h with
  | start => exact Tells.refl c
  | step op h hs ih =>
    have h1 := (heard_later h).reachable hr
    exact ih.trans (tells_step h1 op (.step op h1 hs))

/-- **C113.** Somebody who knows the points of a staker in a pool (or that it is not a member) and from then on only reads the
events knows them at any later time: `EventJoinPool`, `EventLeavePool`, `EventPointIncreased` and `EventPointsReset` leave out
nothing. -/
theorem C113_members (gov : Addr) (c c' : Chain) (h : Reachable gov c) (l : List Log) (hl : Heard gov c l c') (id : Nat)
    (a : Addr) : seat c' id a = l.foldl (Log.place id a) (seat c id a) := (tells_heard h hl).place id a

/-- **C114.** The stake behind a staker changes by exactly what the events say: delegations, undelegations when they are paid,
redelegations and slashes. -/
theorem C114_stake (gov : Addr) (c c' : Chain) (h : Reachable gov c) (l : List Log) (hl : Heard gov c l c') (a : Addr) :
    (c'.del.amount a : Int) = c.del.amount a + (l.map (Log.change a)).sum :=
  (tells_heard h hl).change (lawful_of h.good.mods.del.winv.par) a

/-- **C115.** Somebody who reads the events knows which bundle is proposed in a pool, who has voted what on it, and the whole
archive: every archived bundle is the proposed bundle of the events, with the voting powers and the time of
`EventBundleFinalized`, under the id of that event. -/
theorem C115_bundles (gov : Addr) (c c' : Chain) (h : Reachable gov c) (l : List Log) (hl : Heard gov c l c') (id : Nat) :
    bookOf c' id = l.foldl (Log.book id) (bookOf c id) := (tells_heard h hl).book id

/-- the three for a single operation, also for one that fails -/
theorem C113_step (gov : Addr) (c : Chain) (h : Reachable gov c) (op : Op) (hs : Sane (c.step gov op)) :
    (∀ id a, seat (c.step gov op) id a = (logs gov c op).foldl (Log.place id a) (seat c id a)) ∧
    (∀ a, ((c.step gov op).del.amount a : Int) = c.del.amount a + ((logs gov c op).map (Log.change a)).sum) ∧
    (∀ id, bookOf (c.step gov op) id = (logs gov c op).foldl (Log.book id) (bookOf c id)) :=
  ⟨fun id a => C113_members gov c _ h _ (by simpa using Heard.step op (.start (c := c)) hs) id a,
    fun a => C114_stake gov c _ h _ (by simpa using Heard.step op (.start (c := c)) hs) a,
    fun id => C115_bundles gov c _ h _ (by simpa using Heard.step op (.start (c := c)) hs) id⟩

end Chain

/-! ## a concrete case -/

namespace Sample

/-- the events of a run -/
def told (c : Chain) : List Op → List Log
  | [] => []
  | op :: l => logs gov c op ++ told (c.step gov op) l

theorem told_heard {c0 c : Chain} {x : List Log} (h : Heard gov c0 x c) (l : List Op) (ho : okRun c l = true) :
    Heard gov c0 (x ++ told c l) (run c l) := by
  induction l generalizing c x with
  | nil => simpa [told, run] using h
  | cons op l ih =>
    simp only [okRun, Bool.and_eq_true, decide_eq_true_eq] at ho
    have := ih (.step op h ⟨Delegation.calm_of_dustOk ho.1.1, ho.1.2⟩) ho.2
    rw [List.append_assoc] at this
    exact this

/-- a delegation, a bundle with a valid and an invalid vote, the next bundle, an undelegation that is paid after its time, a staker that
leaves -/
def story : List Op :=
  [.delegate 50 1 100] ++ first ++ [votes 2 7 .valid, votes 3 7 .invalid, .beginBlock 60 0 0 false, .submit (bundle 1 8 10), votes 2 8 .abstain,
    .undelegate 2 2 30, .redelegate ⟨1, 1, 2, 20⟩, .leave 4 0, .beginBlock 2000000 0 0 false]

/-- its events -/
def news : List Log := told ready story

/-- where it ends -/
def ending : Chain := run ready story

theorem news_heard : Heard gov ready news ending := by
  have h := told_heard (c0 := ready) .start story (by decide +kernel)
  rw [List.nil_append] at h
  exact h

end Sample

/-- the events of the sample history: staker 3 is slashed and removed, staker 4 has a point and leaves later, the
undelegation of staker 2 is paid, bundle 0 is archived, bundle 8 is
proposed with two votes -/
example : Sample.news.length = 15 ∧ Sample.news.foldl (Log.place 0 3) (some 0) = none ∧
    (Sample.news.take 10).foldl (Log.place 0 4) (some 0) = some 1 ∧ Sample.news.foldl (Log.place 0 4) (some 0) = none ∧
    (Sample.news.map (Log.change 3)).sum = -10 ∧ (Sample.news.map (Log.change 2)).sum = -10 ∧
    ((Sample.news.foldl (Log.book 0) ⟨none, fun _ => none⟩).archive 0).map (fun f => (f.storageId, f.validPower, f.totalPower)) =
      some (7, 300, 500) ∧
    ((Sample.news.foldl (Log.book 0) ⟨none, fun _ => none⟩).pending.map (fun p => (p.1.storageId, p.2 1, p.2 2, p.2 3))) =
      some (8, some .valid, some .abstain, none) := by
  decide +kernel

/-- the theorems applied to it -/
example : seat Sample.ending 0 4 = Sample.news.foldl (Log.place 0 4) (seat Sample.ready 0 4) :=
  C113_members Sample.gov _ _ Sample.reach_ready _ Sample.news_heard 0 4
example : (Sample.ending.del.amount 3 : Int) = Sample.ready.del.amount 3 + (Sample.news.map (Log.change 3)).sum :=
  C114_stake Sample.gov _ _ Sample.reach_ready _ Sample.news_heard 3
example : bookOf Sample.ending 0 = Sample.news.foldl (Log.book 0) (bookOf Sample.ready 0) :=
  C115_bundles Sample.gov _ _ Sample.reach_ready _ Sample.news_heard 0

end Verif.Chain
