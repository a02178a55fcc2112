import Verif.Chain.Progress
import Verif.Chain.Homes

/-!
# Repeated messages (C107)

Sending the same message a second time: a message that may succeed only once is refused right after it succeeded, a
registration is refused forever, and withdrawing twice pays nothing the second time.
-/

set_option linter.dupNamespace false
namespace Verif.Delegation
open Verif

/-! ## proofs: x/delegation -/

theorem rewardOf_zero {e : Map Nat DecCoins} {l : List (Nat × Nat × Dec)}
    (h : ∀ t ∈ l, entryVal e t.2.1 = entryVal e t.1) : rewardOf e l = Coins.zero := by
  induction l with
  | nil => rfl
  | cons t l ih =>
    obtain ⟨lo, hi, b⟩ := t
    show (safeMulDec (entryDiff e lo hi) b).add (rewardOf e l) = _
    rw [ih (fun t ht => h t (List.mem_cons_of_mem _ ht))]
    have e1 : entryDiff e lo hi = Coins.zero := by
      unfold entryDiff
      rw [show entryVal e hi = entryVal e lo from h _ List.mem_cons_self]
      ext d; simp
    rw [e1]
    unfold safeMulDec
    split
    · rfl
    · ext d
      rw [Coins.amt_add, Coins.amt_mapAmt _ _ (by simp [Dec.mul, Dec.chop])]
      simp [Dec.mul, Dec.chop]

/-- right after a withdrawal there is nothing to withdraw -/
theorem withdraw_twice {s : F1} (h : F1Inv s) (w : Addr) : (withdraw (withdraw s w).1 w).2 = Coins.zero := by
  cases hw : s.dels.get? w with
  | none => rw [withdraw_absent hw, withdraw_absent hw]
  | some x =>
    obtain ⟨d, hd⟩ := h.data_of_del hw
    have D := h.dsome d hd
    have hk := D.klt w x hw
    have e1 : withdraw s w = withdrawFound s w x d := by unfold withdraw; rw [hw, hd]; rfl
    rw [e1]
    generalize hs1 : (withdrawFound s w x d).1 = s1
    have g1 : s1.dels.get? w = some ⟨Dec.trunc (balUpTo s.slashes x (d.latest + 1)), d.latest + 1⟩ := by
      rw [← hs1]; show (s.dels.set w _).get? w = _; rw [Map.get?_set_self]
    have g2 : s1.data = some (newData d) := by rw [← hs1]; rfl
    have g3 : s1.slashes = s.slashes := by rw [← hs1]; rfl
    have g4 : s1.entries = (newEntries s.entries d).del x.k := by rw [← hs1]; rfl
    have e2 : withdraw s1 w = withdrawFound s1 w ⟨Dec.trunc (balUpTo s.slashes x (d.latest + 1)), d.latest + 1⟩ (newData d) := by
      unfold withdraw; rw [g1, g2]; rfl
    rw [e2]
    show truncateDecCoins (rewardOf (newEntries s1.entries (newData d))
      (periodsOf s1.slashes ⟨_, d.latest + 1⟩ (d.latest + 1 + 1))) = _
    have hsl : slashesBetween s1.slashes (d.latest + 1) (d.latest + 1 + 1) = [] := by
      refine slashesBetween_empty (fun j q hj => ?_)
      rw [g3] at hj
      have := (D.sent j q hj).1
      omega
    unfold periodsOf
    rw [hsl]
    show truncateDecCoins (rewardOf (newEntries s1.entries (newData d)) [(d.latest + 1, d.latest + 1 + 1, _)]) = _
    rw [rewardOf_zero]
    · ext d; rw [truncateDecCoins, Coins.amt_mapAmt _ _ (by simp [Dec.trunc])]; simp [Dec.trunc]
    · intro t ht
      rw [List.mem_singleton] at ht
      subst ht
      show entryVal (newEntries s1.entries (newData d)) (d.latest + 1 + 1)
        = entryVal (newEntries s1.entries (newData d)) (d.latest + 1)
      have eq : newEntries s1.entries (newData d) =
          s1.entries.set (d.latest + 1 + 1) ((periodQuo Coins.zero d.total).add (entryVal s1.entries (d.latest + 1))) := rfl
      rw [eq]
      have z : (periodQuo Coins.zero d.total).add (entryVal s1.entries (d.latest + 1)) = entryVal s1.entries (d.latest + 1) := by
        ext dn
        unfold periodQuo
        split
        · simp
        · rw [Coins.amt_add, Coins.amt_mapAmt _ _ (by simp [Dec.quo, Dec.ofNat, Dec.chop])]
          simp [Dec.quo, Dec.ofNat, Dec.chop]
      rw [z]
      unfold entryVal
      rw [Map.get?_set_self, Map.get?_set, if_neg (by omega)]
      rfl

end Verif.Delegation

namespace Verif.Funders
open Verif

theorem fundPool_funders {s : State} {b : Bank} {ok : Bool} {m : FundMsg} {r : State × Bank}
    (h : fundPool s b ok m = .ok r) : r.1.funders = s.funders := by
  unfold fundPool at h
  split at h; cases h
  split at h; cases h
  split at h; cases h
  split at h; cases h
  split at h; cases h
  rename_i l hl f hf
  split at h; cases h
  rename_i w hw
  have e : w.s.funders = s.funders := by
    unfold ensureFreeSlot at hw
    split at hw; cases hw; rfl
    split at hw; cases hw
    split at hw; cases hw; rfl
    split at hw
    · split at hw; cases hw
      unfold evict at hw
      split at hw <;> cases hw
      rfl
    · cases hw
  unfold finishFund at h
  split at h <;> cases h
  exact e

theorem defundPool_funders {s : State} {b : Bank} {m : DefundMsg} {r : State × Bank}
    (h : defundPool s b m = .ok r) : r.1.funders = s.funders := by
  unfold defundPool at h
  split at h; cases h
  split at h; cases h
  split at h; cases h
  split at h; cases h
  split at h; cases h
  unfold finishDefund at h
  split at h <;> cases h
  rfl

theorem chargeAll_funders (l : List Funding) (c : Charge) : (l.foldl chargeOne c).s.funders = c.s.funders := by
  induction l generalizing c with
  | nil => rfl
  | cons f l ih => exact (ih _).trans rfl

theorem charge_funders {s : State} {b : Bank} {id : Nat} {r : Coins × State × Bank}
    (h : chargeFundersOfPool s b id = .ok r) : r.2.1.funders = s.funders := by
  unfold chargeFundersOfPool at h
  split at h; cases h
  simp only at h
  split at h; cases h; rfl
  split at h <;> cases h
  exact chargeAll_funders _ _

theorem step_funders {gov : Addr} {w : World} {op : Op} {a : Addr} (h : w.s.funders.has a = true) :
    (step gov w op).s.funders.has a = true := by
  cases op with
  | createFunder x =>
    show (orElseS w (createFunder w.s x)).s.funders.has a = true
    unfold createFunder
    split
    · exact h
    · show (w.s.funders.set x ()).has a = true
      rw [Stakers.has_iff, Map.get?_set]
      split
      · exact ⟨_, rfl⟩
      · exact (Stakers.has_iff _ _).1 h
  | poolCreated id =>
    show (if w.s.active.has id then w else (⟨w.s.createFundingState id, w.b⟩ : World)).s.funders.has a = true
    split <;> exact h
  | fund ok m =>
    show (orElse w (fundPool w.s w.b ok m)).s.funders.has a = true
    cases hr : fundPool w.s w.b ok m with
    | error e => exact h
    | ok r => show r.1.funders.has a = true; rw [fundPool_funders hr]; exact h
  | defund m =>
    show (orElse w (defundPool w.s w.b m)).s.funders.has a = true
    cases hr : defundPool w.s w.b m with
    | error e => exact h
    | ok r => show r.1.funders.has a = true; rw [defundPool_funders hr]; exact h
  | charge id =>
    show (orElseC w (chargeFundersOfPool w.s w.b id)).s.funders.has a = true
    cases hr : chargeFundersOfPool w.s w.b id with
    | error e => exact h
    | ok r => show r.2.1.funders.has a = true; rw [charge_funders hr]; exact h
  | updateParams x y =>
    show (orElseS w (updateParams gov w.s x y)).s.funders.has a = true
    unfold updateParams
    split
    · exact h
    · split <;> exact h
  | external b g => exact h

end Verif.Funders

namespace Verif.Chain
open Verif
open Chain
open Verif.Bundles (Proposal VoteDist Status)

/-! ## specification -/

/-- the messages that can not be repeated: proposing a bundle, voting, claiming a turn, registering as staker or funder, joining
and leaving a pool, enabling and disabling it -/
def Once : Op → Prop
  | .submit m => m.bundleSize < 2 ^ 64
  | .vote _ => True
  | .claim _ _ _ => True
  | .createStaker _ _ _ => True
  | .createFunder _ => True
  | .join _ => True
  | .leave _ _ => True
  | .enablePool _ _ => True
  | .disablePool _ _ => True
  | _ => False

/-- the sizes of the current proposals are 64-bit numbers, as their type says -/
def Sized (c : Chain) : Prop := ∀ id, (c.proposal id).bundleSize < 2 ^ 64

/-! ## proofs -/

variable {gov : Addr} {c c' : Chain}

theorem submit_twice (hr : Reachable gov c) (hz : Sized c) {m : SubmitMsg} (hm : m.bundleSize < 2 ^ 64)
    (h : c.submit m = .ok c') : ∃ e, c'.submit m = .error e := by
  cases h' : c'.submit m with
  | error e => exact ⟨e, rfl⟩
  | ok d =>
    exfalso
    obtain ⟨p, hp, -, hb, -, -, -, hi⟩ := submitArgs_none (submit_ok h).2.1
    obtain ⟨p', hp', -, -, -, -, -, hi'⟩ := submitArgs_none (submit_ok h').2.1
    have hk : Keyed c := keyed_of hr.good.mods.pool rfl
    have s0 := (resetPoints_fixed c m.pool m.staker).still
    have hi : m.fromIndex = (p.currentIndex + (c.proposal m.pool).bundleSize) % 2 ^ 64 := hi
    have hi' : m.fromIndex = (p'.currentIndex + (c'.proposal m.pool).bundleSize) % 2 ^ 64 := hi'
    have old := hz m.pool
    -- what became of the old proposal
    rcases submit_cases h with ⟨h0, e⟩ | ⟨h0, y, v, ht, hh⟩
    · have hsize : (c.proposal m.pool).bundleSize = 0 := by rw [(hr.good.bun.prop m.pool).empty h0]; rfl
      have hp1 : c'.pool.pools.get? m.pool = some p := by
        rw [e]; unfold submitFirst
        rw [register_get (c := (c.resetPoints m.pool m.staker).setProgress m.pool _) hp]; exact hp
      rw [hp1] at hp'; cases hp'
      have hsz : (c'.proposal m.pool).bundleSize = m.bundleSize := by
        rw [e]; unfold submitFirst
        rw [register_get (c := (c.resetPoints m.pool m.staker).setProgress m.pool _) hp, proposal_set, if_pos rfl]; rfl
      rw [hsz] at hi'; rw [hsize] at hi
      omega
    · have hfull := ((hr.good.bun.prop m.pool).full h0).1
      obtain ⟨f1, -, -⟩ := tally_spec ht
      have s1 := Still.trans s0 f1.still
      rcases hh with ⟨hval, e⟩ | ⟨-, e⟩
      · obtain ⟨-, hv⟩ := tally_facts (gov := 0) ht
        have hky0 : Keyed y := keyed_still hk s1
        have hky : Keyed (y.setProgress m.pool (y.choiceFrom m.pool (c.proposal m.pool).valid).2) := hky0
        have hpy : y.pool.pools.get? m.pool = some p := by rw [s1.pool]; exact hp
        have hf := finalizes (c := y.setProgress m.pool (y.choiceFrom m.pool (c.proposal m.pool).valid).2) (v := v)
          hky hpy (by show (y.proposal m.pool).storageId ≠ 0; rw [s1.proposal]; exact h0) (hv hval).1
        obtain ⟨q, hq, -, hq2, -⟩ := hf.pool
        have hq2 : q.currentIndex = (p.currentIndex + (y.proposal m.pool).bundleSize) % 2 ^ 64 := hq2
        rw [s1.proposal] at hq2
        unfold submitNext at e
        rw [register_get hq] at e
        have hp1 : c'.pool.pools.get? m.pool = some q := by rw [e]; exact hq
        rw [hp1] at hp'; cases hp'
        have hsz : (c'.proposal m.pool).bundleSize = m.bundleSize := by rw [e, proposal_set, if_pos rfl]; rfl
        rw [hsz, hq2] at hi'
        omega
      · have hp1 : c'.pool.pools.get? m.pool = some p := by
          rw [e]; show y.pool.pools.get? m.pool = _; rw [s1.pool]; exact hp
        rw [hp1] at hp'; cases hp'
        have hsz : (c'.proposal m.pool).bundleSize = 0 := by
          rw [e]; show ((y.setProposal m.pool _).proposal m.pool).bundleSize = 0
          rw [proposal_set, if_pos rfl]; rfl
        rw [hsz] at hi'
        omega

theorem vote_twice {m : VoteMsg} (h : c.vote m = .ok c') : ∃ e, c'.vote m = .error e := by
  obtain ⟨-, p, hp, rfl⟩ := vote_ok h
  cases h' : ((c.setProposal m.pool p).resetPoints m.pool m.staker).vote m with
  | error e => exact ⟨e, rfl⟩
  | ok d =>
    exfalso
    obtain ⟨h1, q, hq, -⟩ := vote_ok h'
    obtain ⟨-, -, -, -, hv, hi⟩ := canVote_none h1
    have e : ((c.setProposal m.pool p).resetPoints m.pool m.staker).proposal m.pool = p := by
      show (c.setProposal m.pool p).proposal m.pool = p
      rw [proposal_set, if_pos rfl]
    rw [e] at hv hi hq
    unfold castVote at hp hq
    split at hp
    · cases hp
    · cases hp; exact hv (by simp)
    · cases hp; exact hi (by simp)
    · split at hp
      · cases hp
      · cases hp
        rw [‹m.vote = _›] at hq
        simp at hq

theorem claim_twice {a b : Addr} {id : Nat} (h : c.claim a b id = .ok c') : ∃ e, c'.claim a b id = .error e := by
  obtain ⟨-, -, -, rfl⟩ := claim_ok h
  cases h' : (c.setProposal id { c.proposal id with nextUploader := some b, updatedAt := c.now }).claim a b id with
  | error e => exact ⟨e, rfl⟩
  | ok d =>
    exfalso
    obtain ⟨-, -, h2, -⟩ := claim_ok h'
    rw [proposal_set, if_pos rfl] at h2
    cases h2

theorem staker_refused {a : Addr} {k : Dec} {n : Nat} (h : c.st.stakers.has a = true) :
    ∃ e, c.createStaker a k n = .error e := by
  unfold createStaker Stakers.createStaker
  by_cases hk : k > Dec.one
  · rw [if_pos hk]; exact ⟨_, rfl⟩
  · rw [if_neg hk, if_pos h]; exact ⟨_, rfl⟩

theorem created_staker {a : Addr} {k : Dec} {n : Nat} (h : c.createStaker a k n = .ok c') : c'.st.stakers.has a = true := by
  unfold createStaker at h
  split at h; cases h
  rename_i s hs
  split at h <;> cases h
  unfold Stakers.createStaker at hs
  split at hs; cases hs
  split at hs; cases hs
  split at hs <;> cases hs
  rw [Stakers.has_iff]
  exact ⟨_, Map.get?_set_self _ _ _⟩

theorem funder_refused {a : Addr} (h : c.fund.funders.has a = true) : ∃ e, exec gov c (.createFunder a) = .error e := by
  show ∃ e, (Funders.createFunder c.fund a).map _ = .error e
  unfold Funders.createFunder
  rw [if_pos h]
  exact ⟨_, rfl⟩

theorem created_funder {a : Addr} (h : exec gov c (.createFunder a) = .ok c') : c'.fund.funders.has a = true := by
  have h : (Funders.createFunder c.fund a).map (fun s => { c with fund := s }) = .ok c' := h
  unfold Funders.createFunder at h
  split at h; cases h
  cases h
  rw [Stakers.has_iff]
  exact ⟨_, Map.get?_set_self _ _ _⟩

theorem join_twice (hr : Reachable gov c) {m : Stakers.JoinMsg} (h : c.join m = .ok c') : ∃ e, c'.join m = .error e := by
  obtain ⟨w, hw, e⟩ := join_eq h
  obtain ⟨s1, -, hs1⟩ := Stakers.join_vals (w := c.sw) hr.good.mods.st.inv.mem hr.good.sound.amt hw
  have hm : c'.st.vals.has (m.pool, m.creator) = true := by
    rw [Stakers.has_iff, e]
    have : ((c.withSt (Stakers.noteGift m c.sw w)).noteGifts m).st.vals = w.s.vals := by
      unfold Stakers.noteGift; split <;> rfl
    rw [this, hs1]
    exact ⟨_, Map.get?_set_self _ _ _⟩
  cases h' : c'.join m with
  | error e => exact ⟨e, rfl⟩
  | ok d =>
    exfalso
    obtain ⟨w', hw', -⟩ := join_eq h'
    unfold Stakers.joinPool at hw'
    split at hw'; cases hw'
    split at hw'; cases hw'
    split at hw'; cases hw'
    split at hw'; cases hw'
    split at hw'; cases hw'
    exact absurd hm (by assumption)

theorem leave_twice {a : Addr} {id : Nat} (h : exec gov c (.leave a id) = .ok c') : ∃ e, exec gov c' (.leave a id) = .error e := by
  have h : (Stakers.leavePool c.st c.now id a).map (fun s => { c with st := s }) = .ok c' := h
  cases hs : Stakers.leavePool c.st c.now id a with
  | error e => rw [hs] at h; cases h
  | ok s =>
    rw [hs] at h; cases h
    have hl : s.leaveIdx.has (a, id) = true := by
      unfold Stakers.leavePool at hs
      split at hs; cases hs
      unfold Stakers.State.orderLeave at hs
      split at hs <;> cases hs
      rw [Stakers.has_iff]
      exact ⟨_, Map.get?_set_self _ _ _⟩
    have hx : ∃ e, Stakers.leavePool s c.now id a = .error e := by
      unfold Stakers.leavePool
      split
      · exact ⟨_, rfl⟩
      · rename_i v hv
        unfold Stakers.State.orderLeave
        rw [if_pos (show (s.setVal id a { v with leaving := true }).leaveIdx.has (a, id) = true from hl)]
        exact ⟨_, rfl⟩
    obtain ⟨e, hx⟩ := hx
    show ∃ e, (Stakers.leavePool s c.now id a).map _ = .error e
    rw [hx]; exact ⟨_, rfl⟩

theorem enable_twice (hr : Reachable gov c) {a : Addr} {id : Nat} (h : exec gov c (.enablePool a id) = .ok c') :
    ∃ e, exec gov c' (.enablePool a id) = .error e := by
  have h : (Pool.enable gov c.pool a id).map (fun s => { c with pool := s }) = .ok c' := h
  cases hs : Pool.enable gov c.pool a id with
  | error e => rw [hs] at h; cases h
  | ok s =>
    rw [hs] at h; cases h
    unfold Pool.enable at hs
    split at hs; cases hs
    split at hs; cases hs
    rename_i p hp
    split at hs <;> cases hs
    have hk : p.id = id := keyed_of hr.good.mods.pool rfl id p hp
    show ∃ e, (Pool.enable gov (c.pool.setPool { p with disabled := false }) a id).map _ = .error e
    unfold Pool.enable
    split
    · exact ⟨_, rfl⟩
    · have e : (c.pool.setPool { p with disabled := false }).pools.get? id = some { p with disabled := false } := by
        show (c.pool.pools.set p.id _).get? id = _
        rw [hk, Map.get?_set_self]
      rw [e]
      exact ⟨_, rfl⟩

theorem drain_pool {id : Nat} (h : c.drain id = .ok c') : c'.pool = c.pool := by
  unfold drain at h
  split at h; cases h; rfl
  split at h; cases h
  split at h <;> cases h
  rfl

theorem disable_twice (hr : Reachable gov c) {a : Addr} {id : Nat} (h : exec gov c (.disablePool a id) = .ok c') :
    ∃ e, exec gov c' (.disablePool a id) = .error e := by
  have h : disablePool gov c a id = .ok c' := h
  unfold disablePool at h
  split at h; cases h
  rename_i s hs
  have e1 : c'.pool = s := by rw [drain_pool h, kickAll_pool_eq]
  unfold Pool.disable at hs
  split at hs; cases hs
  split at hs; cases hs
  rename_i p hp
  split at hs <;> cases hs
  have hk : p.id = id := keyed_of hr.good.mods.pool rfl id p hp
  show ∃ e, disablePool gov c' a id = .error e
  unfold disablePool Pool.disable
  rw [e1]
  have e : (c.pool.setPool { p with disabled := true }).pools.get? id = some { p with disabled := true } := by
    show (c.pool.pools.set p.id _).get? id = _
    rw [hk, Map.get?_set_self]
  rw [e]
  split
  · exact ⟨_, rfl⟩
  · rename_i x hx
    split at hx <;> cases hx

/-! ## theorems -/

/-- **C107 (once).** A message that can not be repeated and has just been accepted is refused if it is sent again. -/
theorem C107_once (gov : Addr) (c c' : Chain) (hr : Reachable gov c) (hz : Sized c) (op : Op) (ho : Once op)
    (h : exec gov c op = .ok c') : ∃ e, exec gov c' op = .error e := by
  cases op with
  | submit m => exact submit_twice hr hz ho h
  | vote m => exact vote_twice h
  | claim a b id => exact claim_twice h
  | createStaker a k n => exact staker_refused (created_staker h)
  | createFunder a => exact funder_refused (created_funder h)
  | join m => exact join_twice hr h
  | leave a id => exact leave_twice h
  | enablePool a id => exact enable_twice hr h
  | disablePool a id => exact disable_twice hr h
  | _ => exact ho.elim

theorem registered_micro (μ : Micro) (ho : μ.Ok gov c) {a : Addr} (h : c.fund.funders.has a = true) :
    (μ.run gov c).fund.funders.has a = true := by
  cases μ with
  | fund op => exact Funders.step_funders (w := c.fw) h
  | join m =>
    obtain ⟨hx, c', h'⟩ := ho
    have e : (Micro.join m).run gov c = c' := by
      show c.orElse (c.join m) = _
      rw [h']; rfl
    rw [e]
    obtain ⟨w, hw, rfl⟩ := join_eq h'
    exact h
  | createPool m =>
    obtain ⟨c', h'⟩ := ho
    have e : (Micro.createPool m).run gov c = c' := by
      show c.orElse (Chain.createPool gov c m) = _
      rw [h']; rfl
    rw [e]
    obtain ⟨s, hs, rfl⟩ := createPool_eq h'
    exact h
  | register m n =>
    show (c.register m n).fund.funders.has a = true
    unfold register; split <;> exact h
  | finalize id v =>
    show (c.finalize id v).fund.funders.has a = true
    unfold finalize; split <;> exact h
  | bundlesParams x y =>
    show (c.orElse (exec gov c (.bundlesParams x y))).fund.funders.has a = true
    show (c.orElse ((Bundles.updateParams gov c.bun x y).map _)).fund.funders.has a = true
    cases Bundles.updateParams gov c.bun x y <;> exact h
  | _ => exact h

/-- **C107 (registrations).** Who has registered as a staker or funder can not register again, ever. -/
theorem C107_registered (gov : Addr) (c d : Chain) (hr : Reachable gov c) (hl : Later gov c d) (a : Addr) :
    (c.st.stakers.has a = true → ∀ k n, ∃ e, exec gov d (.createStaker a k n) = .error e) ∧
    (c.fund.funders.has a = true → ∃ e, exec gov d (.createFunder a) = .error e) := by
  have key : (c.st.stakers.has a = true → d.st.stakers.has a = true) ∧
      (c.fund.funders.has a = true → d.fund.funders.has a = true) := by
    induction hl with
    | refl => exact ⟨fun h => h, fun h => h⟩
    | @step x op hx hs ih =>
      have hg := (Later.reachable hr hx).good
      constructor
      · intro h
        exact (Steps.invariant (P := fun c => Modules gov c ∧ c.st.stakers.has a = true)
          (fun c μ hP ho hc => ⟨hP.1.micro μ ho hc, micro_has μ hP.1 ho hP.2⟩) (step_steps hg.sound op) hs.calm
          ⟨hg.mods, ih.1 h⟩).2
      · intro h
        exact (Steps.invariant (P := fun c => Modules gov c ∧ c.fund.funders.has a = true)
          (fun c μ hP ho hc => ⟨hP.1.micro μ ho hc, registered_micro μ ho hP.2⟩) (step_steps hg.sound op) hs.calm
          ⟨hg.mods, ih.2 h⟩).2
  exact ⟨fun h k n => staker_refused (key.1 h), fun h => funder_refused (key.2 h)⟩

theorem finalize_interval {id : Nat} {pl : Pool.Pool} (hk : Keyed c) (hpl : c.pool.pools.get? id = some pl) (v : VoteDist) :
    ∃ q, (c.finalize id v).pool.pools.get? id = some q ∧ q.uploadInterval = pl.uploadInterval := by
  unfold finalize
  rw [hpl]
  refine ⟨{ pl with
      currentIndex := u64add pl.currentIndex (c.proposal id).bundleSize, totalBundles := pl.totalBundles + 1
      currentKey := (c.proposal id).toKey, currentSummary := (c.proposal id).summary }, ?_, rfl⟩
  show (Pool.incrementBundleInformation c.pool id _ _ _).pools.get? id = _
  unfold Pool.incrementBundleInformation
  rw [hpl]
  show (c.pool.pools.set pl.id _).get? id = _
  rw [hk id pl hpl, Map.get?_set_self]

/-- **C107 (skipping).** Who skipped its turn can not skip again in the same block, not even if it is its turn again, unless the
pool has no upload interval. -/
theorem C107_skip (gov : Addr) (c c' : Chain) (hr : Reachable gov c) (m : SkipMsg) (p : Pool.Pool)
    (hp : c.pool.pools.get? m.pool = some p) (hi : 0 < p.uploadInterval ∧ c.now + p.uploadInterval < 2 ^ 64)
    (h : exec gov c (.skip m) = .ok c') : ∃ e, exec gov c' (.skip m) = .error e := by
  have h : c.skip m = .ok c' := h
  show ∃ e, c'.skip m = .error e
  cases h' : c'.skip m with
  | error e => exact ⟨e, rfl⟩
  | ok d =>
    exfalso
    obtain ⟨q, hq, -, -, ht, -⟩ := canPropose_none (skip_ok h').1
    have s0 := (resetPoints_fixed c m.pool m.staker).still
    obtain ⟨y, v, ht0, e⟩ := skip_cases h
    obtain ⟨f1, -, -⟩ := tally_spec ht0
    have s1 := Still.trans s0 f1.still
    have hk : Keyed c := keyed_of hr.good.mods.pool rfl
    have hpy : y.pool.pools.get? m.pool = some p := by rw [s1.pool]; exact hp
    have hky0 : Keyed y := keyed_still hk s1
    have hky : Keyed (y.setProgress m.pool (y.choice m.pool [m.staker]).2) := hky0
    have key : (c'.proposal m.pool).updatedAt = c.now ∧ c'.now = c.now ∧
        ∃ q, c'.pool.pools.get? m.pool = some q ∧ q.uploadInterval = p.uploadInterval := by
      rw [e, ← s1.now]
      unfold skipOutcome
      split
      · refine ⟨by rw [proposal_set, if_pos rfl]; rfl, ?_, ?_⟩
        · show (Chain.finalize _ m.pool v).now = _
          rw [finalize_now]; rfl
        · show ∃ q, (Chain.finalize _ m.pool v).pool.pools.get? m.pool = some q ∧ _
          exact finalize_interval hky hpy v
      · exact ⟨by show ((Chain.setProposal _ m.pool _).proposal m.pool).updatedAt = _; rw [proposal_set, if_pos rfl]; rfl,
          rfl, p, hpy, rfl⟩
      · exact ⟨by rw [proposal_set, if_pos rfl]; rfl, rfl, p, hpy, rfl⟩
    obtain ⟨k1, k2, q', k3, k4⟩ := key
    have hq := hq.found
    rw [k3] at hq; cases hq
    rw [k1, k2, k4] at ht
    have ht : (c.now + p.uploadInterval) % 2 ^ 64 ≤ c.now := ht
    rw [Nat.mod_eq_of_lt hi.2] at ht
    omega

/-- **C107 (rewards).** Withdrawing the rewards a second time moves no coins. -/
theorem C107_withdraw (gov : Addr) (c c' c'' : Chain) (hr : Reachable gov c) (a st : Addr)
    (h : exec gov c (.withdraw a st) = .ok c') (h' : exec gov c' (.withdraw a st) = .ok c'') : c''.b = c'.b := by
  have key : ∀ {x y : Chain}, exec gov x (.withdraw a st) = .ok y →
      x.b.send (.mod .delegation) (.user a) (Delegation.withdraw (x.del.at st) a).2 = .ok y.b ∧
        y.del.at st = (Delegation.withdraw (x.del.at st) a).1 := by
    intro x y h
    have h : (Delegation.withdrawMsg x.dw a st).map x.withDel = .ok y := h
    unfold Delegation.withdrawMsg at h
    split at h; cases h
    cases hs : Delegation.rewardTransfer x.dw st (.withdraw a) a with
    | error e => rw [hs] at h; cases h
    | ok b =>
      rw [hs] at h; cases h
      refine ⟨hs, ?_⟩
      show (x.del.apply st (.withdraw a)).at st = _
      rw [Delegation.at_apply, if_pos rfl]; rfl
  obtain ⟨-, h2⟩ := key h
  obtain ⟨h3, -⟩ := key h'
  have hf : Delegation.F1Inv (c.del.at st) := hr.good.mods.del.winv.tied.f1inv st
  rw [h2, Delegation.withdraw_twice hf] at h3
  funext x
  ext d
  rw [(Bank.send_ok h3).2]
  simp

/-! ## concrete cases -/

/-- every kind of message is accepted in some reachable state -/
example : (exec Sample.gov Sample.later (.submit (Sample.bundle 1 8 10))).isOk = true ∧
    (exec Sample.gov Sample.proposed (Sample.votes 2 7 .abstain)).isOk = true ∧
    (exec Sample.gov Sample.ready (.claim 11 1 0)).isOk = true ∧
    (exec Sample.gov Sample.ready (.createStaker 9 0 5)).isOk = true ∧
    (exec Sample.gov Sample.ready (.createFunder 51)).isOk = true ∧
    (exec Sample.gov Sample.ready (.leave 2 0)).isOk = true ∧
    (exec Sample.gov Sample.ready (.disablePool 99 0)).isOk = true ∧
    (exec Sample.gov Sample.later (.skip ⟨11, 1, 0, 10⟩)).isOk = true ∧
    (exec Sample.gov Sample.ready (.withdraw 1 1)).isOk = true := by
  refine ⟨?_, ?_, ?_, ?_, ?_, ?_, ?_, ?_, ?_⟩ <;> decide +kernel

/-- the sizes of the proposals in the sample -/
example : (Sample.later.bun.proposals.toList).all (fun e => e.2.bundleSize < 2 ^ 64) = true := by decide +kernel

end Verif.Chain
