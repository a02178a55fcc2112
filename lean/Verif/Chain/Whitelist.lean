import Verif.Chain.Governance

/-!
# The native coin and the funding whitelist (C66)

`ValidateBasic` of a parameter update of x/funders demands that the native coin is listed, but it decodes the payload
into the *default* parameters, while the keeper decodes it into the *current* ones and stores the result unchecked.
-/

set_option linter.dupNamespace false
namespace Verif.Funders
open Verif

/-- every coin the payload lists is named -/
def ParamsPayload.named (y : ParamsPayload) : Prop := ∀ l, y.whitelist = some l → ∀ q ∈ l, q.denom ≠ none

theorem mem_mergeList {q : EntryPatch} {d : Denom} (hd : q.denom = some d) :
    ∀ {ps : List EntryPatch} (es : List Entry), q ∈ ps → ∃ e ∈ mergeList es ps, e.denom = d
  | [], _, h => by cases h
  | p :: ps, es, h => by
    rcases List.mem_cons.1 h with rfl | h
    · cases es with
      | nil => exact ⟨_, List.mem_cons_self .., by unfold EntryPatch.fresh; rw [hd]; rfl⟩
      | cons e es => exact ⟨_, List.mem_cons_self .., by unfold Entry.merge; rw [hd]; rfl⟩
    · cases es with
      | nil =>
        obtain ⟨e, he, h2⟩ := mem_mergeList hd [] h
        exact ⟨e, List.mem_cons_of_mem _ he, h2⟩
      | cons e es =>
        obtain ⟨e', he, h2⟩ := mem_mergeList hd es h
        exact ⟨e', List.mem_cons_of_mem _ he, h2⟩

theorem of_mergeList : ∀ {ps : List EntryPatch} {es : List Entry} {e : Entry}, (∀ q ∈ ps, q.denom ≠ none) →
    e ∈ mergeList es ps → ∃ q ∈ ps, q.denom = some e.denom
  | [], es, e, _, h => by simp [mergeList] at h
  | p :: ps, [], e, hn, h => by
    unfold mergeList at h
    rcases List.mem_cons.1 h with rfl | h
    · refine ⟨p, List.mem_cons_self .., ?_⟩
      cases hp : p.denom with
      | none => exact absurd hp (hn p (List.mem_cons_self ..))
      | some d => unfold EntryPatch.fresh; rw [hp]; rfl
    · obtain ⟨q, h1, h2⟩ := of_mergeList (fun q hq => hn q (List.mem_cons_of_mem _ hq)) h
      exact ⟨q, List.mem_cons_of_mem _ h1, h2⟩
  | p :: ps, e' :: es, e, hn, h => by
    unfold mergeList at h
    rcases List.mem_cons.1 h with rfl | h
    · refine ⟨p, List.mem_cons_self .., ?_⟩
      cases hp : p.denom with
      | none => exact absurd hp (hn p (List.mem_cons_self ..))
      | some d => unfold Entry.merge; rw [hp]; rfl
    · obtain ⟨q, h1, h2⟩ := of_mergeList (fun q hq => hn q (List.mem_cons_of_mem _ hq)) h
      exact ⟨q, List.mem_cons_of_mem _ h1, h2⟩

/-- an accepted payload that names every coin it lists keeps the native coin -/
theorem merge_kyve {p : Params} {y : ParamsPayload} (hy : y.named) (hv : y.valid = true)
    (h : ∃ e ∈ p.whitelist, e.denom = kyve) : ∃ e ∈ (p.merge y).whitelist, e.denom = kyve := by
  cases hw : y.whitelist with
  | none => unfold Params.merge; rw [hw]; exact h
  | some l =>
    unfold ParamsPayload.valid at hv
    rw [Bool.and_eq_true] at hv
    have h2 := hv.2
    rw [List.any_eq_true] at h2
    obtain ⟨e, he, hk⟩ := h2
    have hk : e.denom = kyve := by simpa using hk
    unfold Params.merge at he ⊢
    rw [hw] at he ⊢
    obtain ⟨q, hq, hd⟩ := of_mergeList (hy l hw) he
    rw [hk] at hd
    exact mem_mergeList hd _ hq

end Verif.Funders

namespace Verif.Chain
open Verif

namespace Chain

/-- reachable by a history in which every update of the funding parameters names the coins it lists -/
inductive Named (gov : Addr) : Chain → Prop
  | init (dp : Delegation.Params) (sp : Stakers.Params) (bp : Bundles.Params) (b : Bank) (now : Nat) :
      dp.validate = true → bp.validate = true → Named gov (Chain.init dp sp bp b now)
  | step {c : Chain} (op : Op) : Named gov c → (∀ a y, op = .fundersParams a y → y.named) → Sane (c.step gov op) →
      Named gov (c.step gov op)

theorem Named.reachable {gov : Addr} {c : Chain} (h : Named gov c) : Reachable gov c := by
  induction h with
  | init dp sp bp b now h1 h2 => exact .init dp sp bp b now h1 h2
  | step op _ _ hs ih => exact .step op ih hs

/-- C66, the part that holds: as long as every parameter update names the coins it lists, the native coin can be
funded.  Missing: updates that leave the denom of the first listed coin out (`C66_false`). -/
theorem C66_partial (gov : Addr) (c : Chain) (h : Named gov c) : Funders.Spec.whitelisted c.fw kyve := by
  induction h with
  | init dp sp bp b now h1 h2 => exact ⟨_, List.mem_cons_self .., rfl⟩
  | @step c op h hop hs ih =>
    by_cases he : (c.step gov op).fund.params = c.fund.params
    · unfold Funders.Spec.whitelisted at ih ⊢
      have e1 : (c.step gov op).fw.s.params = c.fw.s.params := he
      rw [e1]; exact ih
    · obtain ⟨y, rfl⟩ := (C52_params gov c (Named.reachable h) op).2.2.2.2 he
      have hcr : c.crashed = false := by
        cases hb : c.crashed with
        | false => rfl
        | true => exact absurd (by unfold Chain.step; rw [if_pos hb]) he
      have hst : c.step gov (.fundersParams gov y) = c.orElse (exec gov c (.fundersParams gov y)) := by
        unfold Chain.step; rw [if_neg (by rw [hcr]; simp)]
      rw [hst] at he ⊢
      cases hx : exec gov c (.fundersParams gov y) with
      | error e => rw [hx] at he; exact absurd rfl he
      | ok c' =>
        obtain ⟨s, hr, rfl⟩ := map_ok hx
        unfold Funders.updateParams at hr
        split at hr
        · cases hr
        · rename_i hv
          split at hr
          · cases hr
          · injection hr with hr
            subst hr
            exact Funders.merge_kyve (hop gov y rfl) (by simpa using hv) ih

/-- a list of two coins, the native one second -/
def swapped : Op := .fundersParams Sample.gov
  { whitelist := some [⟨some 1, some 6, some 1000, some 10, some Dec.one⟩,
      ⟨some kyve, some 6, some 1000000000, some 100000, some Dec.one⟩] }
/-- a list of one coin without its name: the first entry of whatever list there is -/
def unnamed : Op := .fundersParams Sample.gov { whitelist := some [{ minAmount := some 5 }] }
/-- the sample chain after the first update; the inflation account of the pool holds coins -/
def listed : Chain := Sample.run Sample.later
  [.external (fun a => if a = .pool 0 then Coins.single kyve 1000000 else Sample.later.b a) Coins.zero Coins.zero Coins.zero,
   swapped]
/-- after the second one -/
def unlisted : Chain := Sample.run listed [unnamed]

/-- C66 is false: two parameter updates, both accepted, take the native coin off the whitelist.  The pool, which pays
from its inflation account, then cannot finalize a valid bundle: the submission that would do so panics. -/
theorem C66_false : Reachable Sample.gov unlisted ∧ ¬ Funders.Spec.whitelisted unlisted.fw kyve ∧
    (listed.exec Sample.gov (.submit (Sample.bundle 1 8 10))).isOk = true ∧
    (unlisted.exec Sample.gov (.submit (Sample.bundle 1 8 10))).isOk = false := by
  refine ⟨Sample.run_reachable (Sample.run_reachable Sample.reach_later _ (by decide +kernel)) _ (by decide +kernel), ?_, by decide +kernel, by decide +kernel⟩
  rw [← Funders.listed_iff]
  have : unlisted.fw.s.params.listed kyve = false := by decide +kernel
  rw [this]; decide

/-- witness: the first of the two updates is of the named kind, is accepted and changes the list -/
example : (Sample.later.exec Sample.gov swapped).isOk = true ∧
    ((Sample.later.step Sample.gov swapped).fund.params.whitelist.map (·.denom)) = [1, kyve] ∧
    ∀ a y, swapped = .fundersParams a y → y.named := by
  refine ⟨by decide +kernel, by decide +kernel, ?_⟩
  intro a y h
  injection h with h1 h2
  subst h2
  intro l hl q hq
  injection hl with hl
  subst hl
  rcases List.mem_cons.1 hq with rfl | hq
  · simp
  · rcases List.mem_cons.1 hq with rfl | hq
    · simp
    · cases hq

end Chain
end Verif.Chain
