import Verif.Bundles.GoMaps
import Verif.Chain.Stake
import Verif.Chain.Plain
import Verif.Chain.SampleReach

/-!
# The rotation on the chain, with Go's maps and machine integers (C101)

`Verif/Bundles/GoMaps.lean` shows that the rotation as Go executes it (maps iterated in any order, `int64` arithmetic, panics)
does what the model says, for inputs in range.  Here: on a chain where never more than `2^54` coins are delegated (eighteen
billion KYVE), all inputs of all selections are in range.
-/

set_option linter.dupNamespace false
namespace Verif.Chain
open Verif
open Verif.Bundles (Proposal VoteDist)
open Verif.Delegation (totalAll)

/-- the histories in which never more than `M` coins are delegated in total -/
inductive Within (gov : Addr) (M : Nat) : Chain → Prop
  | init (dp : Delegation.Params) (sp : Stakers.Params) (bp : Bundles.Params) (b : Bank) (now : Nat) :
      dp.validate = true → bp.validate = true → Within gov M (Chain.init dp sp bp b now)
  | step {c : Chain} (op : Chain.Op) : Within gov M c → Sane (c.step gov op) → totalAll (c.step gov op).del ≤ M →
      Within gov M (c.step gov op)

theorem Within.reachable {gov : Addr} {M : Nat} {c : Chain} (h : Within gov M c) : Reachable gov c := by
  induction h with
  | init dp sp bp b now hd hb => exact .init dp sp bp b now hd hb
  | step op _ hs _ ih => exact .step op ih hs

theorem Within.total {gov : Addr} {M : Nat} {c : Chain} (h : Within gov M c) : totalAll c.del ≤ M := by
  cases h with
  | init dp sp bp b now hd hb =>
    have : totalAll (Chain.init dp sp bp b now).del = 0 := rfl
    rw [this]; exact Nat.zero_le _
  | step op _ _ ht => exact ht

/-- the stored progress is one a selection left -/
structure RotOk (M : Nat) (c : Chain) : Prop where
  keys : ∀ id, ((c.bun.progressOf id).map (·.1)).Nodup
  stored : ∀ id, ∀ e ∈ c.bun.progressOf id, |e.2| ≤ 3 * (M : Int)

namespace Chain

/-! ## Proofs -/

variable {gov : Addr} {M : Nat} {c c' : Chain}

theorem RotOk.of_eq (h : RotOk M c) (e : c'.bun.progress = c.bun.progress) : RotOk M c' := by
  have : ∀ id, c'.bun.progressOf id = c.bun.progressOf id := fun id => by unfold Bundles.State.progressOf; rw [e]
  exact ⟨fun id => by rw [this]; exact h.keys id, fun id => by rw [this]; exact h.stored id⟩

theorem choice_keys (c : Chain) (id : Nat) (ex : List Addr) : ((c.choice id ex).2.map (·.1)).Nodup := by
  unfold choice Bundles.chooseNext Bundles.saved
  simp only
  rw [List.map_map]
  show (List.map (fun v : Bundles.Val => v.addr) _).Nodup
  rw [Bundles.Go.nextProposer_addr, Bundles.load_addr]
  exact Bundles.candidates_nodup (Stakers.stakersOf_nodup c.st id) _

theorem stake_le (c : Chain) (id : Nat) : Bundles.stake (c.members id) c.del.amount ≤ totalAll c.del :=
  stake_le_total c.del _ (Bundles.candidates_nodup (Stakers.stakersOf_nodup c.st id) _)

theorem RotOk.select (h : RotOk M c) (ht : totalAll c.del ≤ M) (id : Nat) (ex : List Addr) :
    RotOk M (c.setProgress id (c.choice id ex).2) := by
  have e : ∀ i, (c.setProgress id (c.choice id ex).2).bun.progressOf i = if i = id then (c.choice id ex).2 else c.bun.progressOf i := by
    intro i
    show ((c.bun.progress.set id (c.choice id ex).2).get? i).getD [] = _
    rw [Map.get?_set]
    split <;> rfl
  refine ⟨fun i => ?_, fun i => ?_⟩
  · rw [e]
    split
    · exact choice_keys c id ex
    · exact h.keys i
  · rw [e]
    split
    · intro x hx
      have h1 := Bundles.C28_bounded (c.members id) c.del.amount (c.bun.progressOf id) ex x hx
      have h2 := stake_le c id
      omega
    · exact h.stored i

/-- what the small steps of a selection keep: the stored progress, the total, and nobody joins -/
structure Turned (M : Nat) (c c' : Chain) : Prop where
  rot : RotOk M c'
  total : totalAll c'.del ≤ M
  member : ∀ id a, c'.member id a = true → c.member id a = true

theorem Turned.quiet (h : RotOk M c) (ht : totalAll c.del ≤ M) (q : Quiet) : Turned M c (q.micro.run gov c) := by
  have hs := Quiet.still gov c q
  exact ⟨RotOk.of_eq h (by rw [hs.bun]), le_trans (total_quiet gov q c) ht, hs.member⟩

theorem finalize_progress (c : Chain) (id : Nat) (v : VoteDist) : (c.finalize id v).bun.progress = c.bun.progress := by
  unfold finalize; split <;> rfl

theorem register_progress (c : Chain) (m : SubmitMsg) (n : Option Addr) : (c.register m n).bun.progress = c.bun.progress := by
  unfold register; split <;> rfl

theorem turned_micro (h : RotOk M c) (ht : totalAll c.del ≤ M) (μ : Micro) (ho : μ.Ok gov c) (hj : μ.judging = true) :
    Turned M c (μ.run gov c) := by
  cases μ with
  | del act =>
    cases act <;> first | (cases hj; done) | skip
    · rename_i st x; exact Turned.quiet h ht (.payout st x)
    · rename_i st t; exact Turned.quiet h ht (.slash st t)
  | st op =>
    cases op <;> first | (cases hj; done) | skip
    · rename_i p a; exact Turned.quiet h ht (.kick p a)
    · rename_i p a; exact Turned.quiet h ht (.inc p a)
    · rename_i p a; exact Turned.quiet h ht (.reset p a)
    · rename_i a x; exact Turned.quiet h ht (.reward a x)
  | fund op =>
    cases op <;> first | (cases hj; done) | skip
    rename_i p; exact Turned.quiet h ht (.charge p)
  | pool op => exact ⟨RotOk.of_eq h rfl, ht, fun _ _ hx => hx⟩
  | pay b x => exact ⟨RotOk.of_eq h rfl, ht, fun _ _ hx => hx⟩
  | blank id n => exact ⟨RotOk.of_eq h rfl, ht, fun _ _ hx => hx⟩
  | next id n t => exact ⟨RotOk.of_eq h rfl, ht, fun _ _ hx => hx⟩
  | cast id a v => exact ⟨RotOk.of_eq h rfl, ht, fun _ _ hx => hx⟩
  | register m n =>
    obtain ⟨s, hs⟩ := register_eq c m n
    refine ⟨RotOk.of_eq h (register_progress c m n), ?_, fun id a hx => ?_⟩
    · show totalAll (c.register m n).del ≤ M
      rw [hs]; exact ht
    · have hx : (c.register m n).member id a = true := hx
      rw [hs] at hx; exact hx
  | progress id l =>
    obtain ⟨ex, rfl⟩ := ho
    exact ⟨RotOk.select h ht id ex, ht, fun _ _ hx => hx⟩
  | finalize id v =>
    refine ⟨RotOk.of_eq h (finalize_progress c id v), ?_, fun i a hx => ?_⟩
    · show totalAll (c.finalize id v).del ≤ M
      rw [finalize_del]; exact ht
    · have hx : (c.finalize id v).member i a = true := hx
      unfold member at hx ⊢
      rw [finalize_st] at hx; exact hx
  | crash => exact ⟨RotOk.of_eq h rfl, ht, fun _ _ hx => hx⟩
  | join | createPool | bundlesParams | block | external => cases hj

theorem turned_steps (h : RotOk M c) (ht : totalAll c.del ≤ M) (hs : JSteps gov c c') : Turned M c c' := by
  induction hs with
  | refl => exact ⟨h, ht, fun _ _ hx => hx⟩
  | cons μ _ ho hj _ ih =>
    have := turned_micro (gov := gov) ih.rot ih.total μ ho hj
    exact ⟨this.rot, this.total, fun id a hx => ih.member id a (this.member id a hx)⟩

theorem kickAll_progress (id : Nat) (l : List Addr) (c : Chain) : (kickAll id l c).bun.progress = c.bun.progress := by
  induction l generalizing c with
  | nil => rfl
  | cons a l ih => exact ih _

/-- the other operations do not touch the progress -/
theorem progress_exec {op : Op} (hj : op.judges = false) (h : exec gov c op = .ok c') :
    c'.bun.progress = c.bun.progress := by
  cases op with
  | submit m => cases hj
  | skip m => cases hj
  | endBlock => cases hj
  | vote m =>
    have h' : c.vote m = .ok c' := h
    unfold vote at h'
    split at h'
    · cases h'
    · split at h'
      · cases h'
      · cases h'; rfl
  | claim a b i =>
    have h' : c.claim a b i = .ok c' := h
    unfold claim at h'
    repeat (split at h'; cases h')
    cases h'; rfl
  | createStaker a k n =>
    have h' : c.createStaker a k n = .ok c' := h
    unfold createStaker at h'
    split at h'
    · cases h'
    · split at h'
      · cases h'
      · cases h'; rfl
  | join m => obtain ⟨w, hw, rfl⟩ := join_eq h; rfl
  | createPool m => obtain ⟨s, hs, rfl⟩ := createPool_eq h; rfl
  | disablePool a i =>
    have h' : disablePool gov c a i = .ok c' := h
    unfold disablePool at h'
    split at h'
    · cases h'
    · rename_i s hs
      have q := kickAll_progress i (c.members i) { c with pool := s }
      generalize kickAll i (c.members i) { c with pool := s } = y at *
      unfold drain at h'
      split at h'
      · cases h'; exact q
      · split at h'
        · cases h'
        · split at h'
          · cases h'
          · cases h'; exact q
  | bundlesParams a y =>
    obtain ⟨s, hr, rfl⟩ := map_ok h
    unfold Bundles.updateParams at hr
    split at hr
    · cases hr
    · split at hr
      · cases hr
      · cases hr; rfl
  | beginBlock dt pr te r =>
    injection h with h
    subst h
    show (c.afterSplit r ((c.newBlock dt r).splitInflation pr te)).bun.progress = _
    cases hs : (c.newBlock dt r).splitInflation pr te with
    | none => rfl
    | some x =>
      obtain ⟨b, hl, rfl, -⟩ := splitInflation_eq hs
      show (if r then c.bun.initMemStore else c.bun).progress = _
      cases r <;> rfl
  | external b gd gs gf => injection h with h; subst h; rfl
  | _ => obtain ⟨s, hr, rfl⟩ := map_ok h; rfl

theorem Within.rot (h : Within gov M c) : RotOk M c := by
  induction h with
  | init dp sp bp b now hd hb =>
    have e : ∀ id, (Chain.init dp sp bp b now).bun.progressOf id = [] := fun id => rfl
    exact ⟨fun id => by rw [e]; exact List.nodup_nil, fun id x hx => by rw [e] at hx; cases hx⟩
  | @step c op h _ _ ih =>
    unfold step
    split
    · exact ih
    · cases he : exec gov c op with
      | error e => exact ih
      | ok c' =>
        show RotOk M c'
        cases hj : op.judges with
        | false => exact RotOk.of_eq ih (progress_exec hj he)
        | true =>
          have hs := h.reachable.good.sound
          refine (turned_steps (gov := gov) ih h.total ?_).rot
          cases op <;> first | (cases hj; done) | skip
          · exact submit_steps hs.mem he
          · exact skip_steps hs he
          · injection he with he; subst he
            exact endBlock_steps hs.mem

theorem members_sorted (c : Chain) (id : Nat) : (c.members id).Pairwise (· < ·) := by
  unfold members Stakers.State.stakersOf
  rw [List.pairwise_map, List.pairwise_filter]
  have h : c.st.vals.keys.Pairwise (fun a b => KeyOrd.lt a b = true) := by
    have := c.st.vals.sorted
    unfold Map.keys
    rw [List.pairwise_map]
    exact this
  refine h.imp ?_
  rintro ⟨p, a⟩ ⟨q, b⟩ hl hp hq
  have hp : p = id := by simpa using hp
  have hq : q = id := by simpa using hq
  subst hp hq
  simpa [KeyOrd.lt] using hl

theorem members_few (h : Reachable gov c) (id : Nat) : (c.members id).length ≤ 50 := by
  have hm := h.good.mods.st.inv.mem
  have := hm.cap id
  rw [hm.cnt id, ← Stakers.length_stakersOf] at this
  exact this

/-- the inputs of every selection are in range -/
theorem rotation_input (hM : M ≤ 2 ^ 54) (h : Within gov M c) {y : Chain} (hs : JSteps gov c y) (id : Nat) :
    Bundles.Go.Input M (y.members id) y.del.amount (y.bun.progressOf id) := by
  have ht := turned_steps (gov := gov) (Within.rot h) h.total hs
  have hnd : (y.members id).Nodup := Stakers.stakersOf_nodup y.st id
  have hle : (y.members id).length ≤ 50 := by
    refine le_trans (List.Subperm.length_le (hnd.subperm fun a ha => ?_)) (members_few h.reachable id)
    obtain ⟨v, hv⟩ := Stakers.mem_stakersOf.1 ha
    obtain ⟨v', hv'⟩ := (Stakers.has_iff _ _).1 (ht.member id a ((Stakers.has_iff _ _).2 ⟨v, hv⟩))
    exact Stakers.mem_stakersOf.2 ⟨v', hv'⟩
  refine ⟨hnd, le_trans (stake_le y id) ht.total, ht.rot.keys id, ht.rot.stored id, ?_⟩
  calc (y.members id).length * M ≤ 50 * 2 ^ 54 := Nat.mul_le_mul hle hM
    _ < 1152921504606846976 := by norm_num

/-! ## C101 -/

/-- **C101**: on a chain where never more than `2^54` coins were delegated, every selection - in the state itself, or in
the course of a message or end block (`JSteps`) - has the same outcome for every choice of the Go runtime: the one of the
model; and it does not panic. -/
theorem C101_selection (gov : Addr) (M : Nat) (hM : M ≤ 2 ^ 54) (c : Chain) (h : Within gov M c) (y : Chain) (hs : JSteps gov c y)
    (r : Bundles.Go.Runtime) (ho : r.Valid) (id : Nat) (l : List Addr) :
    Bundles.Go.chooseNext r (y.members id) y.del.amount (y.bun.progressOf id) l = some (y.choice id l) ∧
    Bundles.Go.chooseFromList r (y.members id) y.del.amount (y.bun.progressOf id) l = some (y.choiceFrom id l) := by
  have hi := rotation_input hM h hs id
  exact ⟨Bundles.Go.C101_rotation r ho M _ _ _ hi (members_sorted y id) l,
    Bundles.Go.C101_rotation_list r ho M _ _ _ hi (members_sorted y id) l⟩

/-! ## The hypotheses are met -/

/-- the side conditions of `Within` along a run, as a test -/
def withinRun (M : Nat) (c : Chain) : List Op → Bool
  | [] => true
  | op :: l => Delegation.dustOk (c.step Sample.gov op).del.trace
      && decide (totalAll (c.step Sample.gov op).del < 2 ^ 63)
      && decide (totalAll (c.step Sample.gov op).del ≤ M) && withinRun M (c.step Sample.gov op) l

theorem run_within {c : Chain} (h : Within Sample.gov M c) (l : List Op) (ho : withinRun M c l = true) :
    Within Sample.gov M (Sample.run c l) := by
  induction l generalizing c with
  | nil => exact h
  | cons op l ih =>
    simp only [withinRun, Bool.and_eq_true, decide_eq_true_eq] at ho
    exact ih (.step op h ⟨Delegation.calm_of_dustOk ho.1.1.1, ho.1.1.2⟩ ho.1.2) ho.2

theorem within_start : Within Sample.gov (2 ^ 54) Sample.start := .init _ _ _ _ _ (by decide) (by decide)
theorem within_ready : Within Sample.gov (2 ^ 54) Sample.ready := run_within within_start _ (by decide +kernel)
theorem within_proposed : Within Sample.gov (2 ^ 54) Sample.proposed := run_within within_ready _ (by decide +kernel)
theorem within_voted : Within Sample.gov (2 ^ 54) Sample.voted := run_within within_proposed _ (by decide +kernel)
theorem within_later : Within Sample.gov (2 ^ 54) Sample.later := run_within within_voted _ (by decide +kernel)
theorem within_second : Within Sample.gov (2 ^ 54) Sample.second := run_within within_later _ (by decide +kernel)

/-- after two bundles, a runtime that iterates its maps to and fro makes the choice of the model; four stakers take part
and the stored progress is not empty -/
example : (Sample.second.members 0).length = 4 ∧ Sample.second.bun.progressOf 0 ≠ [] ∧
    Bundles.Go.chooseNext Bundles.Go.zigzag (Sample.second.members 0) Sample.second.del.amount
      (Sample.second.bun.progressOf 0) [] = some (Sample.second.choice 0 []) :=
  ⟨by decide +kernel, by decide +kernel,
    (C101_selection Sample.gov (2 ^ 54) le_rfl _ within_second _ (.refl _) _ Bundles.Go.zigzag_valid 0 []).1⟩

end Chain
end Verif.Chain
