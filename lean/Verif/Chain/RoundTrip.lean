import Verif.Chain.Queues
import Verif.Chain.Holdings
import Verif.Chain.Events
import Verif.Chain.SampleReach

/-!
# C110: delegated coins come back

A delegator asks to undelegate and does nothing more.  Whatever everybody else does, the request stays in the queue until a
block in which the unbonding time has passed; this block brings the delegator the coins it asked for (less what slashes of the
staker took in the meantime) and its rewards, and nobody can take them from its account.
-/

set_option linter.dupNamespace false
namespace Verif.Chain
open Verif
open Chain
open Verif.Delegation (QEntry asked)

/-! ## specification -/

/-- the waiting requests of `a` to undelegate from `st` -/
def Chain.requests (c : Chain) (st a : Addr) : List QEntry :=
  (c.del.queue.toList.map (·.2)).filter (fun e => e.staker = st ∧ e.delegator = a)

/-- A history in which `a` signs nothing.  No block of it stops the chain, and the clock stays inside 64 bits.  What happens
outside of the modelled modules (`outside`) takes nothing from the account of `a`. -/
inductive Without (gov a : Addr) (c : Chain) : Chain → Prop
  | refl : Without gov a c c
  | step {x : Chain} (op : Op) : Without gov a c x → op.inner = true → op.signer ≠ some a →
      Sane (x.step gov op) → (x.step gov op).crashed = false →
      (∀ dt pr te r, op = .beginBlock dt pr te r → (x.step gov op).del.halted = false) →
      (∀ dt pr te r, op = .beginBlock dt pr te r → x.now + dt + x.del.params.unbonding < 2 ^ 64) →
      Without gov a c (x.step gov op)
  | outside {x : Chain} (b : Bank) (gd gs gf : Coins) : Without gov a c x → x.crashed = false →
      (∀ d, (x.b (.user a)).amt d ≤ (b (.user a)).amt d) → Without gov a c (x.external b gd gs gf)

/-- The request for `n` coins, made at time `t`, still waits in `x`; since `c` the delegation has only been slashed, rewards and account have not become
less. -/
structure Waits (c : Chain) (st a : Addr) (t n : Nat) (x : Chain) : Prop where
  request : x.requests st a = [⟨st, a, t, n⟩]
  slashed : ∃ l, x.slashes = c.slashes ++ l ∧ x.owns st a = (fractions st l).foldl shrink (c.owns st a)
  earned : ∀ d, c.earned st a d ≤ x.earned st a d
  coins : ∀ d, (c.b (.user a)).amt d ≤ (x.b (.user a)).amt d

/-- The request that waited in `c` has been paid in `x`: on top of what it had, the user has the rewards it had in `c` and
the `n` coins, or the whole delegation if slashes left less than `n` of it. -/
structure Returned (c : Chain) (st a : Addr) (n : Nat) (x : Chain) : Prop where
  request : x.requests st a = []
  coins : ∃ l l', x.slashes = c.slashes ++ l ++ l' ∧ ∀ d,
    (c.b (.user a)).amt d + c.earned st a d +
      (if d = kyve then min n ((fractions st l).foldl shrink (c.owns st a) / 10 ^ 18) else 0) ≤ (x.b (.user a)).amt d

namespace Chain

/-! ## proofs -/

theorem queue_micro {gov : Addr} {c : Chain} (μ : Micro) (hj : μ.judging = true) :
    (μ.run gov c).del.queue = c.del.queue := by
  cases μ with
  | del act =>
    cases act <;> first | (cases hj; done) | skip
    · rename_i x y
      show (Delegation.orElse c.dw (Delegation.payoutRewards c.dw .pool x y)).s.queue = _
      cases h : Delegation.payoutRewards c.dw .pool x y with
      | error e => rfl
      | ok w' =>
        show w'.s.queue = _
        rcases Delegation.payoutRewards_s h with rfl | h
        · rfl
        · rw [h]; rfl
    · rename_i x t
      show (Delegation.slashDelegators c.dw x t).s.queue = _
      unfold Delegation.slashDelegators
      split <;> rfl
  | st op => cases op <;> first | (cases hj; done) | rfl
  | fund op => rfl
  | pool op => rfl
  | finalize id v =>
    show (c.finalize id v).del.queue = _
    unfold finalize; split <;> rfl
  | register m n =>
    show (c.register m n).del.queue = _
    unfold register; split <;> rfl
  | pay | blank | next | cast | progress | crash => rfl
  | _ => cases hj

theorem queue_steps {gov : Addr} {c c' : Chain} (h : JSteps gov c c') : c'.del.queue = c.del.queue := by
  induction h with
  | refl => rfl
  | @cons x μ _ _ hj _ ih => rw [queue_micro (gov := gov) (c := x) μ hj, ih]

theorem requests_of_eq {c c' : Chain} (st a : Addr) (h : c'.del.queue = c.del.queue) :
    c'.requests st a = c.requests st a := by unfold requests; rw [h]

theorem requests_start {gov : Addr} {c c' : Chain} (h : Reachable gov c) {x y st a : Addr} {n : Nat}
    (he : exec gov c (.undelegate x y n) = .ok c') :
    c'.requests st a = c.requests st a ++ if y = st ∧ x = a then [⟨y, x, c.now, n⟩] else [] := by
  obtain ⟨w, hr, rfl⟩ := map_ok he
  have e : w.s = Delegation.startUnbonding c.del c.now y x n := congrArg (·.s) (Delegation.undelegateMsg_ok hr).1
  unfold requests
  show (w.s.queue.toList.map _).filter _ = _
  rw [e]
  show ((c.del.queue.set (c.del.high + 1) ⟨y, x, c.now, n⟩).toList.map _).filter _ = _
  rw [Delegation.toList_set_last]
  · rw [List.map_append, List.filter_append]
    congr 1
    by_cases hc : y = st ∧ x = a
    · simp [hc]
    · simp [hc]
  · intro j w hj
    have hd := (Reachable.good h).mods.del.qinv.inv.dense j
    have hd : (c.del.queue.get? j).isSome = true ↔ c.del.low < j ∧ j ≤ c.del.high := hd
    have := hd.1 (by rw [hj]; rfl)
    omega

theorem requests_step {gov : Addr} {c : Chain} (h : Reachable gov c) (op : Op) (ho : op.inner = true) (st a : Addr)
    (hs : op.signer ≠ some a) (hb : ∀ dt pr te r, op ≠ .beginBlock dt pr te r) :
    (c.step gov op).requests st a = c.requests st a := by
  unfold step
  split
  · rfl
  · cases he : exec gov c op with
    | error e => rfl
    | ok c' =>
      show c'.requests st a = _
      have hg := (Reachable.good h).sound
      cases op with
      | submit m => exact requests_of_eq _ _ (queue_steps (submit_steps (gov := gov) hg.mem he))
      | skip m => exact requests_of_eq _ _ (queue_steps (skip_steps (gov := gov) hg he))
      | endBlock =>
        injection he with he
        rw [← he]
        exact requests_of_eq _ _ (queue_steps (endBlock_steps (gov := gov) hg.mem))
      | vote m =>
        obtain ⟨-, p, -, rfl⟩ := vote_ok he
        rfl
      | claim x y id =>
        obtain ⟨-, -, -, rfl⟩ := claim_ok he
        rfl
      | createStaker x k n =>
        have he' : c.createStaker x k n = .ok c' := he
        unfold createStaker at he'
        split at he'
        · cases he'
        · split at he'
          · cases he'
          · rename_i w hw
            cases he'
            refine requests_of_eq _ _ ?_
            show w.s.queue = _
            rw [Delegation.delegateMsg_s hw]; rfl
      | join m =>
        obtain ⟨w, hw, rfl⟩ := join_eq he
        exact requests_of_eq _ _ rfl
      | leave | updateCommission | updateMetadata | createFunder | updatePool | enablePool | scheduleUpgrade | cancelUpgrade
        | bundlesParams | stakersParams | poolParams | fundersParams | claimRewards | fund | defund =>
        obtain ⟨s, hr, rfl⟩ := map_ok he
        exact requests_of_eq _ _ rfl
      | delegate x y n =>
        obtain ⟨w, hr, rfl⟩ := map_ok he
        refine requests_of_eq _ _ ?_
        show w.s.queue = _
        rw [Delegation.delegateMsg_s hr]; rfl
      | redelegate m =>
        obtain ⟨w, hr, rfl⟩ := map_ok he
        obtain ⟨s, -, hs', -, -, -, -, -, hw, -⟩ := Delegation.redelegateMsg_ok hr
        refine requests_of_eq _ _ ?_
        show w.s.queue = _
        have e : s.queue = c.del.queue := by rw [hs']; rfl
        rw [hw, ← e]; rfl
      | undelegate x y n =>
        rw [requests_start h he, if_neg, List.append_nil]
        rintro ⟨-, rfl⟩
        exact hs rfl
      | withdraw x y =>
        obtain ⟨w, hr, rfl⟩ := map_ok he
        refine requests_of_eq _ _ ?_
        show w.s.queue = _
        rw [Delegation.withdrawMsg_s hr]; rfl
      | createPool m =>
        obtain ⟨s, -, rfl⟩ := createPool_eq he
        exact requests_of_eq _ _ rfl
      | disablePool x id => exact requests_of_eq _ _ (by rw [disable_del he])
      | delegationParams x y =>
        obtain ⟨w, hr, rfl⟩ := map_ok he
        refine requests_of_eq _ _ ?_
        show w.s.queue = _
        rw [(Delegation.updateParams_s hr).1]; rfl
      | beginBlock dt pr te r => exact absurd rfl (hb dt pr te r)
      | external b gd gs gf => cases ho

theorem mem_requests {c : Chain} {st a : Addr} {i : Nat} {e : QEntry} (h : c.del.queue.get? i = some e)
    (h1 : e.staker = st) (h2 : e.delegator = a) : e ∈ c.requests st a := by
  unfold requests
  rw [List.mem_filter]
  exact ⟨List.mem_map.2 ⟨(i, e), (Map.mem_iff _ _ _).2 h, rfl⟩, by simp [h1, h2]⟩

/-- the requests after a block are the ones before whose time has not come -/
theorem requests_block {gov : Addr} {c : Chain} (h : Reachable gov c) {dt pr te : Nat} {r : Bool}
    (hok : (c.step gov (.beginBlock dt pr te r)).crashed = false)
    (hh : (c.step gov (.beginBlock dt pr te r)).del.halted = false)
    (ho : c.now + dt + c.del.params.unbonding < 2 ^ 64) (st a : Addr) :
    (c.step gov (.beginBlock dt pr te r)).requests st a =
      (c.requests st a).filter (fun e => decide (c.now + dt < e.creation + c.del.params.unbonding)) := by
  have := (C08_block gov c h dt pr te r _ rfl hok hh ho).1
  unfold requests
  rw [this, List.filter_filter, List.filter_filter]
  congr 1
  funext e
  rw [Bool.and_comm]

theorem no_matures {gov : Addr} {c : Chain} {op : Op} {st a : Addr}
    (ho : ∀ dt pr te r, op = .beginBlock dt pr te r → c.now + dt + c.del.params.unbonding < 2 ^ 64)
    (h : Reachable gov c)
    (hr : ∀ e ∈ c.requests st a, ∀ dt pr te r, op = .beginBlock dt pr te r → c.now + dt < e.creation + c.del.params.unbonding) :
    ¬ Matures c op st a := by
  rintro ⟨dt, pr, te, r, i, e, hop, hq, h1, h2, hd⟩
  have h3 := hr e (mem_requests hq h1 h2) dt pr te r hop
  have h4 := ho dt pr te r hop
  have h5 : e.creation ≤ c.now := (Reachable.good h).mods.del.qinv.inv.past i e hq
  have h6 : u64add e.creation c.del.params.unbonding ≤ c.now + dt := of_decide_eq_true hd
  have h7 : u64add e.creation c.del.params.unbonding = e.creation + c.del.params.unbonding := by
    unfold u64add
    exact Nat.mod_eq_of_lt (lt_of_le_of_lt (by omega) h4)
  omega

theorem le_sum_map {α : Type} (l : List α) (f : α → Nat) (x : α) (h : x ∈ l) : f x ≤ (l.map f).sum := by
  induction l with
  | nil => cases h
  | cons y l ih =>
    rw [List.map_cons, List.sum_cons]
    rcases List.mem_cons.1 h with rfl | h
    · omega
    · have := ih h; omega

/-- the block in which the only request becomes due -/
theorem block_pays {gov : Addr} {c : Chain} (h : Reachable gov c) {dt pr te : Nat} {r : Bool}
    (hok : (c.step gov (.beginBlock dt pr te r)).crashed = false)
    (hh : (c.step gov (.beginBlock dt pr te r)).del.halted = false)
    (ho : c.now + dt + c.del.params.unbonding < 2 ^ 64) {st a : Addr} {t n : Nat}
    (hr : c.requests st a = [⟨st, a, t, n⟩]) (ht : t + c.del.params.unbonding ≤ c.now + dt) (d : Denom) :
    (c.b (.user a)).amt d + c.earned st a d + (if d = kyve then min n (c.whole st a) else 0) ≤
      ((c.step gov (.beginBlock dt pr te r)).b (.user a)).amt d := by
  obtain ⟨-, h2, h3, -, h5⟩ := C08_block gov c h dt pr te r _ rfl hok hh ho
  have hm : (c.matured (c.now + dt)).filter (fun e => e.staker = st ∧ e.delegator = a) = [⟨st, a, t, n⟩] := by
    have : (c.matured (c.now + dt)).filter (fun e => e.staker = st ∧ e.delegator = a) =
        (c.requests st a).filter (fun e => decide (e.creation + c.del.params.unbonding ≤ c.now + dt)) := by
      unfold matured requests
      rw [List.filter_filter, List.filter_filter]
      congr 1
      funext e
      rw [Bool.and_comm]
    rw [this, hr]
    simp [ht]
  have ha : asked (c.matured (c.now + dt)) st a = n := by
    unfold asked
    rw [hm]
    simp
  have hmem : (⟨st, a, t, n⟩ : QEntry) ∈ c.matured (c.now + dt) := by
    have : (⟨st, a, t, n⟩ : QEntry) ∈
        (c.matured (c.now + dt)).filter (fun e => e.staker = st ∧ e.delegator = a) := by rw [hm]; simp
    exact (List.mem_filter.1 this).1
  have h2 := h2 st a
  rw [ha] at h2
  have h3 := h3 st a d ⟨_, hmem, rfl, rfl⟩
  have h5 := h5 a d (((c.matured (c.now + dt)).map (·.staker)).dedup) (List.nodup_dedup _)
    (fun e he _ => List.mem_dedup.2 (List.mem_map.2 ⟨e, he, rfl⟩))
  rw [h5]
  have h6 := le_sum_map (((c.matured (c.now + dt)).map (·.staker)).dedup)
    (fun st => (if d = kyve then c.whole st a - (c.step gov (.beginBlock dt pr te r)).whole st a else 0) +
      (c.earned st a d - (c.step gov (.beginBlock dt pr te r)).earned st a d)) st
    (List.mem_dedup.2 (List.mem_map.2 ⟨_, hmem, rfl⟩))
  have h6 : (if d = kyve then c.whole st a - (c.step gov (.beginBlock dt pr te r)).whole st a else 0) +
      (c.earned st a d - (c.step gov (.beginBlock dt pr te r)).earned st a d) ≤ _ := h6
  rw [h2, h3] at h6
  refine le_trans ?_ (Nat.add_le_add_left h6 _)
  split <;> omega

theorem reachable_external {gov : Addr} {c : Chain} (h : Reachable gov c) (hc : c.crashed = false) (b : Bank)
    (gd gs gf : Coins) : Reachable gov (c.external b gd gs gf) := by
  have e : c.step gov (.external b gd gs gf) = c.external b gd gs gf := by
    unfold step
    rw [if_neg (by rw [hc]; decide)]
    rfl
  have hs : Sane (c.step gov (.external b gd gs gf)) := by
    have := h.good.sane
    rw [e]
    exact ⟨this.calm, this.small⟩
  have := Reachable.step (.external b gd gs gf) h hs
  rw [e] at this
  exact this

theorem Without.reachable {gov a : Addr} {c x : Chain} (h : Reachable gov c) (hw : Without gov a c x) :
    Reachable gov x := by
  induction hw with
  | refl => exact h
  | step op _ _ _ hs _ _ _ ih => exact .step op ih hs
  | outside b gd gs gf _ hc _ ih => exact reachable_external ih hc b gd gs gf

/-- the waiting request after a block or a message of somebody else -/
theorem waits_step {gov : Addr} {c x : Chain} {st a : Addr} {t n : Nat} (hx : Reachable gov x) (h : Waits c st a t n x)
    (op : Op) (ho : op.inner = true) (hs : op.signer ≠ some a) (hok : (x.step gov op).crashed = false)
    (hh : ∀ dt pr te r, op = .beginBlock dt pr te r → (x.step gov op).del.halted = false)
    (hb : ∀ dt pr te r, op = .beginBlock dt pr te r → x.now + dt + x.del.params.unbonding < 2 ^ 64) :
    (Waits c st a t n (x.step gov op) ∧
      ∀ dt pr te r, op = .beginBlock dt pr te r → x.now + dt < t + x.del.params.unbonding) ∨
    Returned c st a n (x.step gov op) := by
  obtain ⟨l, h1, h2⟩ := h.slashed
  by_cases hm : ∀ dt pr te r, op = .beginBlock dt pr te r → x.now + dt < t + x.del.params.unbonding
  · have hnm : ¬ Matures x op st a := no_matures hb hx (fun e he dt pr te r hop => by
      rw [h.request] at he
      rw [List.mem_singleton.1 he]
      exact hm dt pr te r hop)
    refine Or.inl ⟨⟨?_, ?_, fun d => le_trans (h.earned d) (C83_rewards gov x hx op ho st a hs hnm d).1, fun d => ?_⟩, hm⟩
    · by_cases hbb : ∃ dt pr te r, op = .beginBlock dt pr te r
      · obtain ⟨dt, pr, te, r, rfl⟩ := hbb
        rw [requests_block hx hok (hh dt pr te r rfl) (hb dt pr te r rfl), h.request]
        have := hm dt pr te r rfl
        simp [this]
      · rw [requests_step hx op ho st a hs (fun dt pr te r e => hbb ⟨dt, pr, te, r, e⟩), h.request]
    · obtain ⟨l', h3, h4⟩ := C82_delegation gov x hx op ho st a hs hnm
      exact ⟨l ++ l', by rw [h3, h1, List.append_assoc], by
        rw [h4, h2, fractions_append, List.foldl_append]⟩
    · have := C81_coins gov x hx op ho a d
      rw [if_neg hs] at this
      exact le_trans (h.coins d) this
  · right
    have : ∃ dt pr te r, op = .beginBlock dt pr te r ∧ t + x.del.params.unbonding ≤ x.now + dt := by
      by_contra hcon
      refine hm fun dt pr te r hop => ?_
      by_contra hlt
      exact hcon ⟨dt, pr, te, r, hop, by omega⟩
    obtain ⟨dt, pr, te, r, rfl, ht⟩ := this
    refine ⟨?_, l, [], ?_, fun d => ?_⟩
    · rw [requests_block hx hok (hh dt pr te r rfl) (hb dt pr te r rfl), h.request]
      simp [ht]
    · rw [List.append_nil, ← h1]
      exact (plain_step hx rfl).slashes
    · have h3 := block_pays hx hok (hh dt pr te r rfl) (hb dt pr te r rfl) h.request ht d
      have h4 := h.earned d
      have h5 := h.coins d
      have h6 : x.whole st a = (fractions st l).foldl shrink (c.owns st a) / 10 ^ 18 := by
        unfold whole; rw [h2]
      rw [h6] at h3
      omega

/-- what was paid stays on the account -/
theorem returned_step {gov : Addr} {c x : Chain} {st a : Addr} {n : Nat} (hx : Reachable gov x) (h : Returned c st a n x)
    (op : Op) (ho : op.inner = true) (hs : op.signer ≠ some a) (hok : (x.step gov op).crashed = false)
    (hh : ∀ dt pr te r, op = .beginBlock dt pr te r → (x.step gov op).del.halted = false)
    (hb : ∀ dt pr te r, op = .beginBlock dt pr te r → x.now + dt + x.del.params.unbonding < 2 ^ 64) :
    Returned c st a n (x.step gov op) := by
  have hnm : ¬ Matures x op st a := no_matures hb hx (fun e he => by rw [h.request] at he; cases he)
  obtain ⟨l, l', h1, h2⟩ := h.coins
  obtain ⟨l'', h3, -⟩ := C82_delegation gov x hx op ho st a hs hnm
  refine ⟨?_, l, l' ++ l'', by rw [h3, h1]; simp, fun d => ?_⟩
  · by_cases hbb : ∃ dt pr te r, op = .beginBlock dt pr te r
    · obtain ⟨dt, pr, te, r, rfl⟩ := hbb
      rw [requests_block hx hok (hh dt pr te r rfl) (hb dt pr te r rfl), h.request]
      rfl
    · rw [requests_step hx op ho st a hs (fun dt pr te r e => hbb ⟨dt, pr, te, r, e⟩), h.request]
  · have := C81_coins gov x hx op ho a d
    rw [if_neg hs] at this
    exact le_trans (h2 d) this

theorem _root_.Verif.Chain.Waits.external {c x : Chain} {st a : Addr} {t n : Nat} (h : Waits c st a t n x) {b : Bank} (gd gs gf : Coins)
    (hb : ∀ d, (x.b (.user a)).amt d ≤ (b (.user a)).amt d) : Waits c st a t n (x.external b gd gs gf) :=
  ⟨h.request, h.slashed, h.earned, fun d => le_trans (h.coins d) (hb d)⟩

theorem _root_.Verif.Chain.Returned.external {c x : Chain} {st a : Addr} {n : Nat} (h : Returned c st a n x) {b : Bank} (gd gs gf : Coins)
    (hb : ∀ d, (x.b (.user a)).amt d ≤ (b (.user a)).amt d) : Returned c st a n (x.external b gd gs gf) := by
  obtain ⟨l, l', h1, h2⟩ := h.coins
  exact ⟨h.request, l, l', h1, fun d => le_trans (h2 d) (hb d)⟩

theorem waits_start {gov : Addr} {c c1 : Chain} (h : Reachable gov c) {st a : Addr} {n : Nat}
    (hr : c.requests st a = []) (he : exec gov c (.undelegate a st n) = .ok c1) : Waits c st a c.now n c1 := by
  have h1 : c1.requests st a = [⟨st, a, c.now, n⟩] := by
    rw [requests_start h he, hr, if_pos ⟨rfl, rfl⟩]; rfl
  obtain ⟨w, hw, rfl⟩ := map_ok he
  have e := (Delegation.undelegateMsg_ok hw).1
  subst e
  exact ⟨h1, ⟨[], by rw [List.append_nil]; rfl, rfl⟩, fun d => Nat.le_refl _, fun d => Nat.le_refl _⟩

theorem waits_self {c : Chain} {st a : Addr} {t n : Nat} (hr : c.requests st a = [⟨st, a, t, n⟩]) : Waits c st a t n c :=
  ⟨hr, ⟨[], by rw [List.append_nil], rfl⟩, fun _ => Nat.le_refl _, fun _ => Nat.le_refl _⟩

theorem waits_or_returned {gov : Addr} {c c1 x : Chain} {st a : Addr} {t n : Nat} (h0 : Waits c st a t n c1)
    (h1 : Reachable gov c1) (hw : Without gov a c1 x) : Waits c st a t n x ∨ Returned c st a n x := by
  induction hw with
  | refl => exact Or.inl h0
  | step op hw' ho hs _ hok hh hb ih =>
    have hx := Without.reachable h1 hw'
    rcases ih with ih | ih
    · rcases waits_step hx ih op ho hs hok hh hb with h2 | h2
      · exact Or.inl h2.1
      · exact Or.inr h2
    · exact Or.inr (returned_step hx ih op ho hs hok hh hb)
  | outside b gd gs gf _ _ hd ih =>
    rcases ih with ih | ih
    · exact Or.inl (ih.external gd gs gf hd)
    · exact Or.inr (ih.external gd gs gf hd)

theorem returned_stays {gov : Addr} {c z y : Chain} {st a : Addr} {n : Nat} (hz : Reachable gov z)
    (h : Returned c st a n z) (hy : Without gov a z y) : Returned c st a n y := by
  induction hy with
  | refl => exact h
  | step op hw' ho hs _ hok hh hb ih => exact returned_step (Without.reachable hz hw') ih op ho hs hok hh hb
  | outside b gd gs gf _ _ hd ih => exact ih.external gd gs gf hd

/-- the first block that finds the unbonding time over -/
theorem due_returns {gov : Addr} {c x y : Chain} {st a : Addr} {t n : Nat} (hx : Reachable gov x)
    (hw : Waits c st a t n x ∨ Returned c st a n x) (dt pr te : Nat) (r : Bool)
    (ht : t + x.del.params.unbonding ≤ x.now + dt) (hs : Sane (x.step gov (.beginBlock dt pr te r)))
    (hok : (x.step gov (.beginBlock dt pr te r)).crashed = false)
    (hh : (x.step gov (.beginBlock dt pr te r)).del.halted = false)
    (ho : x.now + dt + x.del.params.unbonding < 2 ^ 64)
    (hy : Without gov a (x.step gov (.beginBlock dt pr te r)) y) : Returned c st a n y := by
  have hb : ∀ dt' pr' te' r', Op.beginBlock dt pr te r = .beginBlock dt' pr' te' r' →
      x.now + dt' + x.del.params.unbonding < 2 ^ 64 := by
    rintro dt' pr' te' r' ⟨⟩; exact ho
  have h2 : Returned c st a n (x.step gov (.beginBlock dt pr te r)) := by
    rcases hw with h2 | h2
    · rcases waits_step hx h2 _ rfl (by rintro ⟨⟩) hok (fun _ _ _ _ _ => hh) hb with h3 | h3
      · have := h3.2 dt pr te r rfl
        omega
      · exact h3
    · exact returned_step hx h2 _ rfl (by rintro ⟨⟩) hok (fun _ _ _ _ _ => hh) hb
  exact returned_stays (.step _ hx hs) h2 hy

end Chain

/-- C110: after an accepted request to undelegate (no other one of the same delegator for the same staker is waiting), and
while the delegator signs nothing else, the request is waiting, untouched, or it has been paid, and the coins are there. -/
theorem Chain.C110_waits (gov : Addr) (c c1 x : Chain) (h : Reachable gov c) (st a : Addr) (n : Nat)
    (hr : c.requests st a = []) (he : exec gov c (.undelegate a st n) = .ok c1) (h1 : Reachable gov c1)
    (hw : Without gov a c1 x) : Waits c st a c.now n x ∨ Returned c st a n x :=
  waits_or_returned (waits_start h hr he) h1 hw

/-- C110: the same, from any time at which the request is waiting. -/
theorem Chain.C110_pending (gov : Addr) (c x : Chain) (h : Reachable gov c) (st a : Addr) (t n : Nat)
    (hr : c.requests st a = [⟨st, a, t, n⟩]) (hw : Without gov a c x) : Waits c st a t n x ∨ Returned c st a n x :=
  waits_or_returned (waits_self hr) h hw

/-- C110: in the first block that finds the unbonding time over, at the latest, the request is paid, and nothing that anybody
else does afterwards takes the coins back. -/
theorem Chain.C110_returns (gov : Addr) (c c1 x y : Chain) (h : Reachable gov c) (st a : Addr) (n : Nat)
    (hr : c.requests st a = []) (he : exec gov c (.undelegate a st n) = .ok c1) (h1 : Reachable gov c1)
    (hw : Without gov a c1 x) (dt pr te : Nat) (r : Bool) (ht : c.now + x.del.params.unbonding ≤ x.now + dt)
    (hs : Sane (x.step gov (.beginBlock dt pr te r))) (hok : (x.step gov (.beginBlock dt pr te r)).crashed = false)
    (hh : (x.step gov (.beginBlock dt pr te r)).del.halted = false)
    (ho : x.now + dt + x.del.params.unbonding < 2 ^ 64)
    (hy : Without gov a (x.step gov (.beginBlock dt pr te r)) y) : Returned c st a n y :=
  due_returns (Without.reachable h1 hw) (C110_waits gov c c1 x h st a n hr he h1 hw) dt pr te r ht hs hok hh ho hy

/-- C110: if the staker was not slashed in the meantime the delegator has all the coins it asked for and its rewards. -/
theorem Chain.C110_full (gov : Addr) (c c1 x : Chain) (st a : Addr) (n : Nat)
    (he : exec gov c (.undelegate a st n) = .ok c1) (hx : Returned c st a n x)
    (hn : ∀ l, x.slashes = c.slashes ++ l → ∀ s ∈ l, s.1 ≠ st) (d : Denom) :
    (c.b (.user a)).amt d + c.earned st a d + (if d = kyve then n else 0) ≤ (x.b (.user a)).amt d := by
  obtain ⟨l, l', h1, h2⟩ := hx.coins
  have e : fractions st l = [] := by
    unfold fractions
    rw [List.map_eq_nil_iff, List.filter_eq_nil_iff]
    intro s hs
    simpa using hn (l ++ l') (by rw [h1, List.append_assoc]) s (List.mem_append_left _ hs)
  have h2 := h2 d
  rw [e] at h2
  obtain ⟨w, hw, rfl⟩ := map_ok he
  have h3 : n ≤ c.whole st a := by
    rw [whole_eq]
    exact (Delegation.undelegateMsg_ok hw).2
  have h4 : (([] : List Dec).foldl shrink (c.owns st a)) / 10 ^ 18 = c.whole st a := rfl
  rw [h4, Nat.min_eq_left h3] at h2
  exact h2

/-! ## examples -/

namespace Sample

/-- the side conditions of `Without` along a run, as a test -/
def okWithout (a : Addr) (c : Chain) : List Op → Bool
  | [] => true
  | op :: l => op.inner && decide (op.signer ≠ some a) && Delegation.dustOk (c.step gov op).del.trace &&
      decide (Delegation.totalAll (c.step gov op).del < 2 ^ 63) && !(c.step gov op).crashed && !(c.step gov op).del.halted &&
      (match op with
       | .beginBlock dt _ _ _ => decide (c.now + dt + c.del.params.unbonding < 2 ^ 64)
       | _ => true) && okWithout a (c.step gov op) l

theorem run_without {a : Addr} {c d : Chain} (h : Without gov a c d) (l : List Op) (ho : okWithout a d l = true) :
    Without gov a c (run d l) := by
  induction l generalizing d with
  | nil => exact h
  | cons op l ih =>
    simp only [okWithout, Bool.and_eq_true, decide_eq_true_eq, Bool.not_eq_true'] at ho
    obtain ⟨⟨⟨⟨⟨⟨⟨h1, h2⟩, h3⟩, h4⟩, h5⟩, h6⟩, h7⟩, h8⟩ := ho
    refine ih (.step op h h1 h2 ⟨Delegation.calm_of_dustOk h3, h4⟩ h5 (fun _ _ _ _ _ => h6) ?_) h8
    rintro dt pr te r rfl
    exact of_decide_eq_true h7

/-- staker 2 asks for 30 of its 100 -/
def asked30 : Chain := run second [.undelegate 2 2 30]
/-- others delegate, a block passes, the bundle is decided -/
def waited : Chain := run asked30 [.delegate 50 2 7, .beginBlock 60 0 0 false, .endBlock]
/-- a block after the unbonding time -/
def overdue : Chain := run waited [.beginBlock 2000000 0 0 false]
/-- then somebody else's message -/
def paidBack : Chain := run overdue [.delegate 50 2 7]

theorem overdue_eq : waited.step gov (.beginBlock 2000000 0 0 false) = overdue := by
  rw [overdue, run, List.foldl_cons, List.foldl_nil]

end Sample

/-- the theorem applied to the sample history -/
example : Returned Sample.second 2 2 30 Sample.paidBack := by
  have h1 : Reachable Sample.gov Sample.asked30 := Sample.run_reachable Sample.reach_second _ (by decide +kernel)
  have h2 : Without Sample.gov 2 Sample.asked30 Sample.waited := Sample.run_without .refl _ (by decide +kernel)
  have h4 : Without Sample.gov 2 Sample.overdue Sample.paidBack := Sample.run_without .refl _ (by decide +kernel)
  have he : exec Sample.gov Sample.second (.undelegate 2 2 30) = .ok Sample.asked30 := by
    cases e : exec Sample.gov Sample.second (.undelegate 2 2 30) with
    | error m =>
      have : (exec Sample.gov Sample.second (.undelegate 2 2 30)).isOk = true := by decide +kernel
      rw [e] at this; cases this
    | ok c =>
      have h5 : Sample.second.step Sample.gov (.undelegate 2 2 30) = c := step_of_exec (by decide +kernel) e
      have h6 : Sample.asked30 = Sample.second.step Sample.gov (.undelegate 2 2 30) := by
        rw [Sample.asked30, Sample.run, List.foldl_cons, List.foldl_nil]
      rw [h6, h5]
  rw [← Sample.overdue_eq] at h4
  refine Chain.C110_returns Sample.gov Sample.second Sample.asked30 Sample.waited Sample.paidBack Sample.reach_second 2 2 30
    (by decide +kernel) he h1 h2 2000000 0 0 false (by decide +kernel) ?_ ?_ ?_ (by decide +kernel) h4
  · rw [Sample.overdue_eq]
    exact ⟨Delegation.calm_of_dustOk (by decide +kernel), by decide +kernel⟩
  · rw [Sample.overdue_eq]; decide +kernel
  · rw [Sample.overdue_eq]; decide +kernel

/-- what that says: 30 coins and the rewards; the rewards of the second bundle may come on top -/
example : (Sample.second.b (.user 2)).amt kyve + Sample.second.earned 2 2 kyve + 30 ≤
      (Sample.paidBack.b (.user 2)).amt kyve ∧
    Sample.waited.requests 2 2 = [⟨2, 2, Sample.second.now, 30⟩] ∧ Sample.paidBack.requests 2 2 = [] ∧
    Sample.paidBack.whole 2 2 = 70 ∧ Sample.paidBack.slashes = Sample.second.slashes := by decide +kernel

/-- with a slash in between: staker 1 asks for all of its 100, is slashed by 20%, and gets 80 -/
example : let c := Sample.disputed
    let x := Sample.run c [.undelegate 1 1 100, .endBlock, .beginBlock 2000000 0 0 false]
    c.whole 1 1 = 100 ∧ c.requests 1 1 = [] ∧ fractions 1 x.slashes = [200000000000000000] ∧ x.whole 1 1 = 0 ∧
      (c.b (.user 1)).amt kyve + c.earned 1 1 kyve + 80 = (x.b (.user 1)).amt kyve := by decide +kernel

end Verif.Chain
