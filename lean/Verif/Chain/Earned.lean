import Verif.Chain.Told
import Verif.Chain.Commission

/-!
# C116: the events tell what every staker has earned

`EventBundleFinalized` carries the parts of the reward and the uploader, `EventClaimCommissionRewards` what was claimed.
-/

set_option linter.dupNamespace false
namespace Verif.Chain
open Verif
open Chain
open Verif.Bundles (Proposal VoteDist Reward FBundle Status)

/-! ## specification -/

/-- C116, the reader: how the unclaimed rewards of staker `a` change with an event: the commission and the storage cost of a
bundle go to its uploader, a claim takes them -/
def Log.earned (a : Addr) (d : Denom) : Log → Int
  | .finalized _ _ _ x _ u => if u = some a then (x.reward.storage.amt d : Int) + x.reward.commission.amt d else 0
  | .claimed b x => if b = a then -(x.amt d : Int) else 0
  | _ => 0

/-- the events `l` tell a reader what has been earned from `c` to `c'` -/
def Earns (l : List Log) (c c' : Chain) : Prop :=
  ∀ a d, (c'.unclaimed a d : Int) = c.unclaimed a d + (l.map (Log.earned a d)).sum

/-- no event is about earnings -/
def Silent (l : List Log) : Prop := ∀ a d, (l.map (Log.earned a d)).sum = 0

namespace Chain

theorem _root_.Verif.Chain.Silent.nil : Silent [] := fun _ _ => rfl
theorem _root_.Verif.Chain.Silent.append {l l' : List Log} (h : Silent l) (h' : Silent l') : Silent (l ++ l') :=
  fun a d => by rw [List.map_append, List.sum_append, h a d, h' a d]; rfl

theorem _root_.Verif.Chain.Earns.refl (c : Chain) : Earns [] c c := fun _ _ => by simp
theorem _root_.Verif.Chain.Earns.trans {l l' : List Log} {c d e : Chain} (h : Earns l c d) (h' : Earns l' d e) :
    Earns (l ++ l') c e := fun a k => by rw [h' a k, h a k, List.map_append, List.sum_append]; omega

theorem unclaimed_of {c c' : Chain} (h : c'.st.stakers = c.st.stakers) (a : Addr) (d : Denom) :
    c'.unclaimed a d = c.unclaimed a d := by unfold unclaimed Stakers.State.unclaimed; rw [h]

theorem _root_.Verif.Chain.Silent.earns {l : List Log} (h : Silent l) {c c' : Chain} (hs : c'.st.stakers = c.st.stakers) : Earns l c c' :=
  fun a d => by rw [h a d, unclaimed_of hs]; simp

/-! ## events that are not about earnings -/

theorem silent_slash (c : Chain) (id : Nat) (a : Addr) (t : Delegation.SlashType) : Silent (c.logSlash id a t) := by
  unfold logSlash
  split <;> exact fun _ _ => rfl

theorem silent_remove (c : Chain) (id : Nat) (a : Addr) (t : Delegation.SlashType) : Silent (c.logRemove id a t) :=
  (silent_slash c id a t).append (fun _ _ => rfl)

theorem silent_reset (c : Chain) (id : Nat) (a : Addr) : Silent (c.logReset id a) := by
  unfold logReset
  split
  · exact fun _ _ => rfl
  · split <;> exact fun _ _ => rfl

theorem silent_point (c : Chain) (id : Nat) (a : Addr) : Silent (c.logPoint id a) := by
  unfold logPoint
  split
  · exact Silent.append (l := [_]) (fun _ _ => rfl) (silent_remove _ id a _)
  · exact fun _ _ => rfl

theorem silent_points (id : Nat) (vs l : List Addr) (c : Chain) : Silent (logPoints id vs l c) := by
  induction l generalizing c with
  | nil => exact Silent.nil
  | cons a l ih =>
    unfold logPoints
    refine Silent.append ?_ (ih _)
    split
    · exact Silent.nil
    · exact silent_point c id a

theorem silent_nonVoters (c : Chain) (id : Nat) : Silent (c.logNonVoters id) := silent_points _ _ _ _

theorem silent_invalid (id : Nat) (l : List Addr) (c : Chain) : Silent (logInvalid id l c) := by
  induction l generalizing c with
  | nil => exact Silent.nil
  | cons a l ih => exact (silent_remove c id a _).append (ih _)

theorem silent_valid (id : Nat) (u : Option Addr) (l : List Addr) (c : Chain) : Silent (logValid id u l c) := by
  induction l generalizing c with
  | nil => exact Silent.nil
  | cons a l ih => exact (silent_remove c id a _).append (ih _)

theorem silent_tally (c : Chain) (id : Nat) (p : Proposal) : Silent (c.logTally id p) := by
  unfold logTally
  refine (silent_nonVoters c id).append ?_
  unfold logOutcome
  split
  · unfold logPaid
    split
    · exact Silent.nil
    · split
      · exact Silent.nil
      · exact silent_invalid _ _ _
  · exact silent_valid _ _ _ _
  · exact Silent.nil

theorem silent_drop (c : Chain) (id : Nat) (v : VoteDist) : Silent (c.logDrop id v) := by
  unfold logDrop logFinalize
  split
  · exact Silent.nil
  · intro a d
    simp [Log.earned, Bill.empty, Reward.none, Coins.amt_zero]

theorem silent_register (c : Chain) (m : SubmitMsg) : Silent (c.logRegister m) := by
  unfold logRegister
  split <;> exact fun _ _ => rfl

theorem silent_late (c : Chain) (id : Nat) (late : Option Addr) : Silent (c.logLate id late) := by
  cases late with
  | none => exact Silent.nil
  | some a =>
    unfold logLate
    dsimp only
    split
    · exact silent_point c id _
    · exact Silent.nil

theorem silent_unbond (now fuel : Nat) (w : Delegation.World) : Silent (logUnbond now fuel w) := by
  induction fuel generalizing w with
  | zero => exact Silent.nil
  | succ n ih =>
    unfold logUnbond
    split
    · exact Silent.nil
    · refine Silent.append ?_ (ih _)
      split <;> exact fun _ _ => rfl

theorem silent_leaves (now fuel : Nat) (s : Stakers.State) : Silent (logLeaves now fuel s) := by
  induction fuel generalizing s with
  | zero => exact Silent.nil
  | succ n ih =>
    unfold logLeaves
    refine Silent.append ?_ ?_
    · unfold logLeave
      split
      · exact Silent.nil
      · split <;> exact fun _ _ => rfl
    · split
      · exact ih _
      · exact Silent.nil

theorem silent_kicks (id : Nat) (l : List Addr) : Silent (l.map (Log.left id)) := by
  induction l with
  | nil => exact Silent.nil
  | cons a l ih => exact Silent.append (l := [_]) (fun _ _ => rfl) ih

theorem silent_join (s : Stakers.State) (amt : Addr → Nat) (id : Nat) (a : Addr) :
    Silent (logEvict s amt id a ++ [Log.joined id a]) := by
  refine Silent.append ?_ (fun _ _ => rfl)
  unfold logEvict
  split
  · exact Silent.nil
  · split
    · exact Silent.nil
    · split <;> exact fun _ _ => rfl

/-! ## tally -/

/-- what staker `a` gets of a bill -/
def pays (u : Option Addr) (x : Bill) (a : Addr) (d : Denom) : Int :=
  if u = some a then (x.reward.storage.amt d : Int) + x.reward.commission.amt d else 0

theorem bill_st {c d : Chain} {id : Nat} {x : Bill} (h : c.bill id = some (x, d)) : d.st = c.st := by
  unfold bill at h
  split at h
  · cases h
  · unfold billInflation at h
    split at h
    · cases h
    · unfold billPay at h
      split at h
      · cases h
      · injection h with h
        injection h with h1 h2
        rw [← h2]
        rfl

theorem slashInvalid_stakers (id : Nat) (l : List Addr) (c : Chain) : (slashInvalid id l c).st.stakers = c.st.stakers := by
  induction l generalizing c with
  | nil => rfl
  | cons a l ih => exact (ih _).trans (moved_slashAndRemove c id a _).stakers

theorem slashValid_stakers (id : Nat) (u : Option Addr) (l : List Addr) (c : Chain) :
    (slashValid id u l c).st.stakers = c.st.stakers := by
  induction l generalizing c with
  | nil => rfl
  | cons a l ih => exact (ih _).trans (moved_slashAndRemove c id a _).stakers

theorem increase_unclaimed {w w' : Stakers.World} {m : Mod} {u : Addr} {x : Coins}
    (h : Stakers.increaseRewards w m u x = .ok w') (a : Addr) (d : Denom) :
    (w'.s.unclaimed a).amt d = (w.s.unclaimed a).amt d + if u = a then x.amt d else 0 := by
  unfold Stakers.increaseRewards at h
  split at h
  · rename_i hz
    injection h with h; subst h
    have := Coins.isZero_iff.1 hz d
    rw [this]
    split <;> rfl
  · split at h
    · cases h
    · rename_i s hs
      split at h
      · cases h
      · injection h with h; subst h
        unfold Stakers.State.unclaimed
        rw [Map.get?_set]
        by_cases e : a = u
        · subst e
          rw [if_pos rfl, if_pos rfl, hs]
          show (s.rewards.add x).amt d = _
          rw [Coins.amt_add]
          rfl
        · rw [if_neg e, if_neg (fun z => e z.symm)]
          rfl

theorem earn_reward {c c' : Chain} {u : Option Addr} {x : Bill} (h : c.payReward u x.reward = .ok c') (a : Addr) (d : Denom) :
    (c'.unclaimed a d : Int) = c.unclaimed a d + pays u x a d := by
  unfold payReward at h
  split at h
  · cases h
  · cases u with
    | none =>
      injection h with h; subst h
      simp [pays, unclaimed]
    | some u =>
      dsimp only at h
      unfold payUploader at h
      split at h
      · cases h
      · rename_i w hw
        unfold payDelegators at h
        split at h
        · cases h
        · injection h with h; subst h
          have e := increase_unclaimed hw a d
          show (((w.s.unclaimed a).amt d : Nat) : Int) = _
          rw [e]
          unfold pays unclaimed
          rw [Coins.amt_add]
          by_cases hu : u = a
          · rw [if_pos hu, if_pos (by rw [hu])]
            simp only [sw]
            push_cast; ring
          · rw [if_neg hu, if_neg (by simpa using hu)]
            simp [sw]

theorem earn_tally {c y : Chain} {id : Nat} {p : Proposal} {v : VoteDist} (h : c.tally id p = .done y v) (a : Addr) (d : Denom) :
    (y.unclaimed a d : Int) = c.unclaimed a d + pays p.uploader (c.tallyBill id v.status) a d := by
  have hm := (moved_nonVoters c id).stakers
  have hz : pays p.uploader Bill.empty a d = 0 := by
    unfold pays
    split <;> simp [Bill.empty, Reward.none, Coins.amt_zero]
  have hv := (tells_tally h).2
  unfold tally tallyOutcome at h
  unfold tallyBill
  rw [hv]
  cases hs : ((c.nonVoters id).dist id).status with
  | valid =>
    rw [hs] at h
    obtain ⟨x, e, f, hb, -, hp, hy, -⟩ := tallyValid_bill h
    dsimp only
    rw [hb, hy, unclaimed_of (slashInvalid_stakers _ _ _), earn_reward hp]
    have e1 : e.unclaimed a d = c.unclaimed a d := unclaimed_of (by rw [bill_st hb, hm]) a d
    rw [e1]
    rfl
  | invalid =>
    rw [hs] at h
    injection h with h1 h2
    dsimp only
    rw [← h1, unclaimed_of (slashValid_stakers _ _ _ _), unclaimed_of hm, hz]
    simp
  | unspecified =>
    rw [hs] at h
    injection h with h1 h2
    dsimp only
    rw [← h1, unclaimed_of hm, hz]
    simp
  | noQuorum =>
    rw [hs] at h
    injection h with h1 h2
    dsimp only
    rw [← h1, unclaimed_of hm, hz]
    simp

theorem sum_finalize {c : Chain} {id : Nat} {pl : Pool.Pool} (hpl : c.pool.pools.get? id = some pl) (v : VoteDist) (x : Bill)
    (a : Addr) (d : Denom) : ((c.logFinalize id v x).map (Log.earned a d)).sum = pays (c.proposal id).uploader x a d := by
  unfold logFinalize
  rw [hpl]
  simp only [List.map_cons, List.map_nil, List.sum_cons, List.sum_nil, Log.earned, pays]
  omega

theorem bill_other (c : Chain) (id : Nat) {s : Status} (h : s ≠ .valid) : c.tallyBill id s = Bill.empty := by
  unfold tallyBill
  split
  · exact absurd rfl h
  · rfl

/-! ## messages of x/bundles -/

/-- a tally, then the event of the finalized bundle -/
theorem earns_valid {c y z : Chain} {id : Nat} {pl : Pool.Pool} {p : Proposal} {v w : VoteDist} (h : c.tally id p = .done y v)
    (hz : z.st.stakers = y.st.stakers) (hu : (z.proposal id).uploader = p.uploader) (hpl : z.pool.pools.get? id = some pl) :
    Earns (c.logTally id p ++ z.logFinalize id w (c.tallyBill id v.status)) c z := by
  intro a d
  rw [unclaimed_of hz, earn_tally h, List.map_append, List.sum_append, silent_tally c id p a d, sum_finalize hpl, hu]
  omega

/-- a tally without a valid bundle -/
theorem earns_other {c y : Chain} {id : Nat} {p : Proposal} {v : VoteDist} (h : c.tally id p = .done y v)
    (hv : v.status ≠ .valid) : Earns (c.logTally id p) c y := by
  intro a d
  rw [earn_tally h, silent_tally c id p a d, bill_other c id hv]
  unfold pays
  split <;> simp [Bill.empty, Reward.none, Coins.amt_zero]

theorem earns_submit {c c' : Chain} {m : SubmitMsg} (h : c.submit m = .ok c') : Earns (c.logSubmit m) c c' := by
  obtain ⟨-, ha, -⟩ := submit_ok h
  obtain ⟨pl, hpl⟩ : ∃ pl, c.pool.pools.get? m.pool = some pl := by
    unfold submitArgs at ha
    split at ha
    · cases ha
    · rename_i pl hpl; exact ⟨pl, hpl⟩
  have hf := resetPoints_fixed c m.pool m.staker
  unfold logSubmit
  refine ((silent_reset c m.pool m.staker).earns (moved_resetPoints c m.pool m.staker).stakers).trans ?_
  rcases submit_cases h with ⟨h0, rfl⟩ | ⟨h0, y, v, ht, hc⟩
  · rw [if_pos h0]
    refine (silent_register _ m).earns ?_
    unfold submitFirst
    rw [register_st]
    rfl
  · rw [if_neg h0, ht, ← (tells_tally ht).2]
    have hst := Still.trans hf.still (tally_spec ht).1.still
    have hpy : y.pool.pools.get? m.pool = some pl := by rw [hst.pool]; exact hpl
    have hpr : y.proposal m.pool = c.proposal m.pool := hst.proposal m.pool
    unfold logSubmitTallied
    dsimp only
    rcases hc with ⟨hs, rfl⟩ | ⟨hs, rfl⟩
    · rw [hs]
      dsimp only
      rw [← List.append_assoc]
      have e1 := earns_valid (w := v) (z := y.setProgress m.pool (y.choiceFrom m.pool (c.proposal m.pool).valid).2) ht rfl
        (by show (y.proposal m.pool).uploader = _; rw [hpr]) hpy
      rw [hs] at e1
      refine e1.trans ((silent_register _ m).earns ?_)
      unfold submitNext
      rw [register_st, finalize_vals]
    · rw [hs]
      exact (earns_other ht (by rw [hs]; simp)).trans ((silent_drop _ _ _).earns rfl)

theorem earns_skip {c c' : Chain} {m : SkipMsg} (h : c.skip m = .ok c') : Earns (c.logSkip m) c c' := by
  obtain ⟨ha, -⟩ := skip_ok h
  obtain ⟨pl, hpl⟩ : ∃ pl, c.pool.pools.get? m.pool = some pl := by
    cases hp : c.pool.pools.get? m.pool with
    | some pl => exact ⟨pl, rfl⟩
    | none =>
      unfold canPropose at ha
      split at ha
      · cases ha
      · split at ha
        · cases ha
        · rw [hp] at ha; cases ha
  have hf := resetPoints_fixed c m.pool m.staker
  obtain ⟨y, v, ht, rfl⟩ := skip_cases h
  have e0 := (silent_reset c m.pool m.staker).earns (moved_resetPoints c m.pool m.staker).stakers
  unfold logSkip
  rw [List.append_assoc]
  refine e0.trans ?_
  rw [ht, ← (tells_tally ht).2]
  have hst := Still.trans hf.still (tally_spec ht).1.still
  have hpy : y.pool.pools.get? m.pool = some pl := by rw [hst.pool]; exact hpl
  have hpr : y.proposal m.pool = c.proposal m.pool := hst.proposal m.pool
  unfold logSkipTallied skipOutcome
  dsimp only
  cases hs : v.status with
  | valid =>
    have e1 := earns_valid (w := v) (z := y.setProgress m.pool (y.choice m.pool [m.staker]).2) ht rfl
      (by show (y.proposal m.pool).uploader = _; rw [hpr]) hpy
    rw [hs] at e1
    intro a d
    have e2 := e1 a d
    dsimp only
    rw [← e2]
    congr 1
    refine unclaimed_of ?_ a d
    show (Chain.finalize _ m.pool v).st.stakers = _
    rw [finalize_vals]
  | invalid => exact (earns_other ht (by rw [hs]; simp)).trans ((silent_drop _ _ _).earns rfl)
  | unspecified => exact (earns_other ht (by rw [hs]; simp)).trans (Silent.nil.earns rfl)
  | noQuorum => exact (earns_other ht (by rw [hs]; simp)).trans (Silent.nil.earns rfl)

/-! ## end block -/

theorem moved_late (c : Chain) (id : Nat) (late : Option Addr) : (c.pointLate id late).st.stakers = c.st.stakers := by
  cases late with
  | none => rfl
  | some a =>
    unfold pointLate
    dsimp only
    split
    · exact (moved_addPoint c id _).stakers
    · rfl

theorem earns_visit {gov : Addr} {c c' : Chain} (hL : Light gov c) {id interval : Nat} (hp : c.pool.pools.has id = true)
    (h : c.visit id interval = some c') : Earns (c.logVisit id interval) c c' := by
  obtain ⟨pl, hpl⟩ := (Stakers.has_iff _ _).1 hp
  unfold visit at h
  unfold logVisit
  cases he : c.runError id with
  | some e =>
    rw [he] at h
    injection h with h
    subst h
    unfold logStopped visitStopped
    dsimp only
    split
    · exact (silent_drop _ _ _).earns rfl
    · split
      · exact Silent.nil.earns rfl
      · exact Silent.nil.earns rfl
  | none =>
    rw [he] at h
    dsimp only at h ⊢
    unfold visitRunning at h
    unfold logRunning
    split at h
    · rename_i h1
      injection h with h
      subst h
      rw [if_pos h1]
      exact Earns.refl c
    · rename_i h1
      rw [if_neg h1]
      split at h
      · rename_i h2
        injection h with h
        subst h
        rw [if_pos h2]
        unfold visitNoQuorum logNoQuorum
        exact ((silent_nonVoters c id).earns (moved_nonVoters c id).stakers).trans ((silent_drop _ _ _).earns rfl)
      · rename_i h2
        rw [if_neg h2]
        unfold visitTimeout at h
        unfold logTimeout
        split at h
        · rename_i h3
          injection h with h
          subst h
          rw [if_pos h3]
          exact Earns.refl c
        · rename_i h3
          rw [if_neg h3]
          split at h
          · rename_i h4
            rw [if_pos h4]
            cases ht : c.tally id (c.proposal id) with
            | panicked => rw [ht] at h; cases h
            | failed y => exact absurd ht (tally_not_failed (Light.fit hL) hpl (hL.bun.prop id) y)
            | done y v =>
              rw [ht] at h
              injection h with h
              subst h
              rw [← (tells_tally ht).2]
              have hst := (tally_spec ht).1.still
              have hpy : y.pool.pools.get? id = some pl := by rw [hst.pool]; exact hpl
              have hpr : y.proposal id = c.proposal id := hst.proposal id
              unfold logVisitTallied
              dsimp only
              rw [← List.append_assoc]
              refine Earns.trans ?_ ((silent_late _ id _).earns (moved_late _ _ _))
              split
              · rename_i hs
                have e1 := earns_valid (w := v) (z := y.setProgress id (y.choiceFrom id (c.proposal id).valid).2) ht rfl
                  (by show (y.proposal id).uploader = _; rw [hpr]) hpy
                intro a d
                rw [← e1 a d]
                congr 1
                refine unclaimed_of ?_ a d
                unfold visitValid
                show (Chain.finalize _ id v).st.stakers = _
                rw [finalize_vals]
              · rename_i hs
                unfold visitOther
                exact (earns_other ht hs).trans ((silent_drop _ _ _).earns rfl)
          · rename_i h4
            injection h with h
            subst h
            rw [if_neg h4]
            unfold logEmpty visitEmpty
            exact (silent_late _ id _).earns ((moved_late _ _ _).trans rfl)

theorem earns_visits {gov : Addr} (l : List (Nat × Pool.Pool)) {c c' : Chain} (hL : Light gov c)
    (hp : ∀ e ∈ l, c.pool.pools.has e.1 = true) (h : visits l c = some c') : Earns (logVisits l c) c c' := by
  induction l generalizing c with
  | nil => injection h with h; subst h; exact Earns.refl c
  | cons e l ih =>
    unfold visits at h
    unfold logVisits
    cases hv : c.visit e.1 e.2.uploadInterval with
    | none => rw [hv] at h; cases h
    | some d =>
      rw [hv] at h
      have hpe := hp e (by simp)
      obtain ⟨h1, t1⟩ := visit_steps (gov := gov) (Light.mem hL) hpe hv
      exact (earns_visit hL hpe hv).trans
        (ih (Light.steps hL h1.steps) (fun e' he' => t1.pool _ (hp e' (by simp [he']))) h)

theorem earns_endBlock {gov : Addr} {c : Chain} (h : Reachable gov c) : Earns c.logEndBlock c c.endBlock := by
  have hg := Reachable.good h
  have hL : Light gov c := ⟨hg.mods.st, hg.mods.pool, hg.mods.fund, hg.bun⟩
  have hL' : Light gov c.upgradePools := Light.steps hL (Steps.one (c := c) (.pool .endBlock) trivial)
  have hhas : ∀ e ∈ c.upgradePools.pool.pools.toList, c.upgradePools.pool.pools.has e.1 = true :=
    fun e he => (Stakers.has_iff _ _).2 ⟨e.2, (Map.mem_iff _ _ _).1 he⟩
  unfold logEndBlock endBlock
  cases hv : visits (c.upgradePools.pool.pools.toList) c.upgradePools with
  | none => exact Silent.nil.earns rfl
  | some c' =>
    have h1 : Earns [] c c.upgradePools := Silent.nil.earns rfl
    exact h1.trans (earns_visits _ hL' hhas hv)

/-! ## the other operations -/

theorem silent_queue (w : Delegation.World) (now : Nat) (r : Bool) : Silent (logQueue w now r) := by
  unfold logQueue
  exact silent_unbond _ _ _

theorem silent_stakers (s : Stakers.State) (now : Nat) : Silent (logStakers s now) := by
  unfold logStakers
  exact silent_leaves _ _ _

theorem silent_block (r : Bool) (o : Option Chain) : Silent (logBlock r o) := by
  cases o with
  | none => exact Silent.nil
  | some x => exact (silent_queue x.dw x.now r).append (silent_stakers x.st x.now)

theorem silent_one {e : Log} (h : ∀ a d, e.earned a d = 0) : Silent [e] := fun a d => by simp [h a d]

theorem silent_logged {c : Chain} {op : Op} (h1 : ∀ m, op ≠ .submit m) (h2 : ∀ m, op ≠ .skip m) (h3 : op ≠ .endBlock)
    (h4 : ∀ a x, op ≠ .claimRewards a x) : Silent (c.logged op) := by
  cases op with
  | submit m => exact absurd rfl (h1 m)
  | skip m => exact absurd rfl (h2 m)
  | endBlock => exact absurd rfl h3
  | claimRewards a x => exact absurd rfl (h4 a x)
  | vote m => rw [logged]; unfold logVote; exact (silent_reset c m.pool m.staker).append (silent_one (fun _ _ => rfl))
  | createStaker a k n => rw [logged]; exact silent_one (fun _ _ => rfl)
  | join m => rw [logged]; exact silent_join _ _ _ _
  | delegate a s n => rw [logged]; exact silent_one (fun _ _ => rfl)
  | redelegate m => rw [logged]; exact silent_one (fun _ _ => rfl)
  | disablePool a id => rw [logged]; exact silent_kicks _ _
  | beginBlock dt pr te r => rw [logged]; exact silent_block _ _
  | _ => exact Silent.nil

theorem earns_exec {gov : Addr} {c c' : Chain} (hr : Reachable gov c) {op : Op} (he : exec gov c op = .ok c') :
    Earns (c.logged op) c c' := by
  have hg := hr.good
  by_cases g1 : ∃ m, op = .submit m
  · obtain ⟨m, rfl⟩ := g1; exact earns_submit he
  by_cases g2 : ∃ m, op = .skip m
  · obtain ⟨m, rfl⟩ := g2; exact earns_skip he
  by_cases g3 : op = .endBlock
  · subst g3; injection he with he; subst he; exact earns_endBlock hr
  by_cases g5 : ∃ a x, op = .claimRewards a x
  · obtain ⟨a, x, rfl⟩ := g5
    intro b d
    show _ = _ + (([Log.claimed a x] : List Log).map (Log.earned b d)).sum
    simp only [List.map_cons, List.map_nil, List.sum_cons, List.sum_nil, Log.earned]
    by_cases e : a = b
    · subst e
      have := (C85_claim gov c c' a x he d).2.1
      rw [if_pos rfl]
      omega
    · rw [if_neg e]
      obtain ⟨w, hw, rfl⟩ := map_ok he
      have hx : (Stakers.Sys.step gov ⟨c.sw, c.now⟩ (.claim a x)).w.s.unclaimed b = c.st.unclaimed b :=
        Stakers.C18_only gov ⟨c.sw, c.now⟩ hg.mods.st (.claim a x) trivial b
          (fun y hy => by injection hy with hy; exact e hy) (fun y hy => by cases hy)
      have hy : (Stakers.Sys.step gov ⟨c.sw, c.now⟩ (.claim a x)).w.s = w.s := by
        show (Stakers.orElse c.sw (Stakers.claimRewards c.sw a x)).s = w.s
        rw [hw]; rfl
      rw [hy] at hx
      show (((w.s.unclaimed b).amt d : Nat) : Int) = _
      rw [hx]
      simp [unclaimed]
  by_cases g4 : ∃ x id, op = .disablePool x id
  · obtain ⟨x, id, rfl⟩ := g4
    exact (silent_kicks _ _).earns (disable_stakers he)
  push Not at g1 g2 g4 g5
  have hq := silent_logged (c := c) g1 g2 g3 g5
  by_cases g6 : op.inner = true
  · intro a d
    rw [hq a d]
    have key : c'.st.unclaimed a = c.st.unclaimed a := by
      rcases st_exec gov c c' op g6 he g1 g2 g3 g4 with e | ⟨o, e1, e2⟩
      · rw [e]
      · rw [e2]
        refine Stakers.C18_only gov ⟨c.sw, c.now⟩ hg.mods.st o (stOp_ok hr e1) a (fun x hx => ?_) (fun x hx => ?_)
        · subst hx
          cases op <;> simp only [stOp, Option.some.injEq, reduceCtorEq] at e1
          injection e1 with e3 e4
          exact g5 a x (by rw [e3, e4])
        · subst hx
          cases op <;> simp only [stOp, Option.some.injEq, reduceCtorEq] at e1
    unfold unclaimed
    rw [key]
    simp
  · cases op with
    | external b gd gs gf =>
      injection he with he
      subst he
      exact Silent.nil.earns rfl
    | _ => exact absurd rfl g6

theorem earns_step {gov : Addr} {c : Chain} (hr : Reachable gov c) (op : Op) : Earns (logs gov c op) c (c.step gov op) := by
  unfold logs step
  cases hc : c.crashed with
  | true => exact Earns.refl c
  | false =>
    cases he : exec gov c op with
    | error e => exact Earns.refl c
    | ok c' => exact earns_exec hr he

/-- **C116.** The unclaimed rewards of a staker change by exactly what the events say: plus the commission and the storage cost
of every bundle whose `EventBundleFinalized` names it as the uploader, minus what it claims. -/
theorem C116_earned (gov : Addr) (c c' : Chain) (h : Reachable gov c) (l : List Log) (hl : Heard gov c l c') (a : Addr)
    (d : Denom) : (c'.unclaimed a d : Int) = c.unclaimed a d + (l.map (Log.earned a d)).sum := by
  have key : Earns l c c' := by
    induction hl with
    | start => exact Earns.refl c
    | step op h1 _ ih => exact ih.trans (earns_step ((heard_later h1).reachable h) op)
  exact key a d

end Chain

/-- the bundle of the sample history: its uploader, staker 1, earns something -/
example : 0 < (Sample.news.map (Log.earned 1 kyve)).sum ∧ (Sample.news.map (Log.earned 2 kyve)).sum = 0 := by decide +kernel
example : (Sample.ending.unclaimed 1 kyve : Int) = Sample.ready.unclaimed 1 kyve + (Sample.news.map (Log.earned 1 kyve)).sum :=
  C116_earned Sample.gov _ _ Sample.reach_ready _ Sample.news_heard 1 kyve

end Verif.Chain
