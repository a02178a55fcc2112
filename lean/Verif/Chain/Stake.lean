import Verif.Chain.Judge
import Verif.Bundles.Votes

/-!
# C21 on the chain: the stake of a pool decides

Delegations do not grow while nodes are punished and paid, so the counts of the vote distribution never wrap.
-/

set_option linter.dupNamespace false
namespace Verif.Chain
open Verif
open Chain
open Verif.Bundles (Proposal VoteDist Status stakeAll stakeFor CleanVotes)
open Verif.Delegation (totalAll)

/-! ## specification -/

/-- the status `s` is what the members of pool `id` with their delegations in state `d` decide: valid if and only if more
than half of the stake voted valid; invalid if and only if there is stake and at least half of it voted invalid -/
structure Majority (id : Nat) (s : Status) (d : Chain) : Prop where
  valid : s = .valid ↔ stakeAll (d.members id) d.del.amount < 2 * stakeFor (d.members id) d.del.amount (d.proposal id).valid
  invalid : s = .invalid ↔ 0 < stakeAll (d.members id) d.del.amount ∧
    stakeAll (d.members id) d.del.amount ≤ 2 * stakeFor (d.members id) d.del.amount (d.proposal id).invalid

namespace Chain

/-! ## delegations do not grow -/

theorem amount_payout (s : Delegation.State) (a : Addr) (x : Coins) :
    (s.apply a (.payout x)).amount a = s.amount a := by
  unfold Delegation.State.amount
  rw [Delegation.at_apply, if_pos rfl]
  show (Delegation.payout (s.at a) x).d.total = _
  unfold Delegation.payout
  cases hd : (s.at a).data with
  | none => show (s.at a).d.total = _; unfold Delegation.F1.d; rw [hd]
  | some d => simp [Delegation.F1.d]

theorem total_slashDelegators (w : Delegation.World) (a : Addr) (t : Delegation.SlashType) :
    totalAll (Delegation.slashDelegators w a t).s ≤ totalAll w.s := by
  unfold Delegation.slashDelegators
  split
  · exact le_refl _
  · show totalAll (w.s.applyIndexed a _) ≤ _
    have h := Delegation.totalAll_applyIndexed (s := w.s) a (.slash (w.s.params.slashFraction t))
    have h2 : (w.s.applyIndexed a (.slash (w.s.params.slashFraction t))).amount a ≤ w.s.amount a := by
      unfold Delegation.State.amount
      rw [Delegation.at_applyIndexed, if_pos rfl]
      show (Delegation.slash (w.s.at a) _).1.d.total ≤ _
      rw [Delegation.total_slash]
      exact Nat.sub_le _ _
    omega

theorem total_payout (w : Delegation.World) (m : Mod) (a : Addr) (x : Coins) :
    totalAll (Delegation.orElse w (Delegation.payoutRewards w m a x)).s ≤ totalAll w.s := by
  cases h : Delegation.payoutRewards w m a x with
  | error e => exact le_refl _
  | ok w' =>
    show totalAll w'.s ≤ _
    rcases Delegation.payoutRewards_s h with rfl | h
    · exact le_refl _
    · rw [h]
      have h1 := Delegation.totalAll_apply (s := w.s) a (.payout x)
      rw [amount_payout] at h1
      omega

theorem total_quiet (gov : Addr) (q : Quiet) (c : Chain) : totalAll (q.micro.run gov c).del ≤ totalAll c.del := by
  cases q with
  | slash a t => exact total_slashDelegators c.dw a t
  | payout a x => exact total_payout c.dw .pool a x
  | kick id a => exact le_refl _
  | inc id a => exact le_refl _
  | reset id a => exact le_refl _
  | reward a x => exact le_refl _
  | charge id => exact le_refl _
  | pay b h => exact le_refl _

theorem total_q {gov : Addr} {c c' : Chain} (h : QSteps gov c c') : totalAll c'.del ≤ totalAll c.del := by
  induction h with
  | refl => exact le_refl _
  | tail q _ _ _ ih => exact le_trans (total_quiet gov q _) ih

theorem finalize_del (c : Chain) (id : Nat) (v : VoteDist) : (c.finalize id v).del = c.del := by
  unfold finalize; split <;> rfl

theorem total_visit {gov : Addr} {c c' : Chain} (hw : Well gov c) {id interval : Nat} (hp : c.pool.pools.has id = true)
    (h : c.visit id interval = some c') : totalAll c'.del ≤ totalAll c.del := by
  rcases visit_cases h with ⟨e, -, rfl⟩ | ⟨-, -, rfl⟩ | ⟨-, -, -, -, rfl⟩ | ⟨-, -, -, rfl⟩ | ⟨-, -, h0, rfl⟩ |
    ⟨-, -, -, ht⟩ | ⟨y, v, -, -, h0, -, ht, rfl⟩
  · unfold visitStopped
    split
    · exact le_refl _
    · split <;> exact le_refl _
  · exact le_refl _
  · have h := total_q (nonVoters_q 0 c id)
    exact h
  · exact le_refl _
  · unfold visitEmpty
    have h := total_q (pointLate_q 0 ((c.setProgress id (c.choice id []).2).setProposal id
      { c.proposal id with nextUploader := (c.choice id []).1, updatedAt := c.now }) id (c.proposal id).nextUploader)
    exact h
  · obtain ⟨pl, hpl⟩ := (Stakers.has_iff _ _).1 hp
    exact absurd ht (tally_not_failed (Well.fit hw) hpl (hw.bun.prop id) _)
  · have hq := tally_q 0 c id (c.proposal id)
    rw [ht] at hq
    refine le_trans (total_q (pointLate_q 0 _ id _)) (le_trans ?_ (total_q (show QSteps 0 c y from hq)))
    split
    · unfold visitValid
      show totalAll (Chain.finalize _ id v).del ≤ _
      rw [finalize_del]
      exact le_refl _
    · exact le_refl _

/-- the state in which a pool is visited -/
theorem Handled.split' {gov : Addr} {l : List (Nat × Pool.Pool)} {c c' : Chain} (h : Handled gov l c c')
    (hn : (l.map (·.1)).Nodup) {id : Nat} {p : Pool.Pool} (hm : (id, p) ∈ l) :
    ∃ d d', Apart id c d ∧ Stable c d ∧ Well gov d ∧ d.pool.pools.has id = true ∧ totalAll d.del ≤ totalAll c.del ∧
      d.visit id p.uploadInterval = some d' ∧ Apart id d' c' ∧ Stable d' c' := by
  have after : ∀ {l : List (Nat × Pool.Pool)} {c c' : Chain}, Handled gov l c c' → id ∉ l.map (·.1) →
      Apart id c c' ∧ Stable c c' := by
    intro l c c' h
    induction h with
    | nil _ => intro _; exact ⟨Apart.refl _ _, Stable.refl _⟩
    | cons hw hp hv _ ih =>
      intro hn
      rw [List.map_cons, List.mem_cons, not_or] at hn
      obtain ⟨i1, i2⟩ := ih hn.2
      exact ⟨(apart_visit hn.1 (Well.keyed hw) hv).trans i1, (visit_stable hw hp hv).trans i2⟩
  induction h with
  | nil _ => cases hm
  | @cons e l c d c' hw hp hv hh ih =>
    rw [List.map_cons, List.nodup_cons] at hn
    rcases List.mem_cons.1 hm with rfl | hm
    · obtain ⟨a1, a2⟩ := after hh hn.1
      exact ⟨c, d, Apart.refl _ _, Stable.refl _, hw, hp, le_refl _, hv, a1, a2⟩
    · have hne : id ≠ e.1 := fun e' => hn.1 (e' ▸ List.mem_map.2 ⟨_, hm, rfl⟩)
      obtain ⟨x, x', h1, h2, h3, h4, h5, h6⟩ := ih hn.2 hm
      exact ⟨x, x', (apart_visit hne (Well.keyed hw) hv).trans h1, (visit_stable hw hp hv).trans h2, h3, h4,
        le_trans h5 (total_visit hw hp hv), h6⟩

/-! ## the distribution -/

theorem sum_at'_le {V : Type} (f : Addr → V → Nat) (l : List Addr) (hl : l.Nodup) (m : Map Addr V) :
    (l.map (m.at' f)).sum ≤ m.sum f := by
  induction l generalizing m with
  | nil => exact Nat.zero_le _
  | cons a l ih =>
    rw [List.nodup_cons] at hl
    have h1 := ih hl.2 (m.del a)
    have h2 := m.sum_del f a
    have h3 : (l.map ((m.del a).at' f)) = l.map (m.at' f) := by
      apply List.map_congr_left
      intro b hb
      unfold Map.at'
      rw [Map.get?_del, if_neg (fun e : b = a => hl.1 (e ▸ hb))]
    rw [h3] at h1
    rw [List.map_cons, List.sum_cons]
    omega

theorem stake_le_total (s : Delegation.State) (l : List Addr) (hl : l.Nodup) : stakeAll l s.amount ≤ totalAll s := by
  have h := sum_at'_le (fun _ f => Delegation.Data.total (Delegation.F1.d f)) l hl s.f1
  have e : l.map (s.f1.at' (fun _ f => f.d.total)) = l.map s.amount := by
    apply List.map_congr_left
    intro a _
    unfold Map.at' Delegation.State.amount Delegation.State.at
    cases s.f1.get? a <;> rfl
  rw [e] at h
  exact h

theorem clean_votes {p : Proposal} (h : (voters p).Nodup) : CleanVotes p := by
  unfold voters at h
  rw [List.nodup_append, List.nodup_append] at h
  obtain ⟨⟨h1, h2, h3⟩, h4, h5⟩ := h
  exact ⟨h1, h2, h4, fun a ha hb => h3 a ha a hb rfl, fun a ha hb => h5 a (by simp [ha]) a hb rfl,
    fun a ha hb => h5 a (by simp [ha]) a hb rfl⟩

theorem dist_majority {c : Chain} {id : Nat} (hv : (voters (c.proposal id)).Nodup) (ht : totalAll c.del < 2 ^ 63) :
    Majority id (c.dist id).status c := by
  have hn : (c.members id).Nodup := Stakers.stakersOf_nodup _ _
  have hs := lt_of_le_of_lt (stake_le_total c.del (c.members id) hn) ht
  unfold dist
  cases hp : c.bun.proposals.get? id with
  | none =>
    have e : c.proposal id = Proposal.blank none 0 := by
      unfold Chain.proposal Bundles.State.proposal; rw [hp]; rfl
    have e0 : ∀ l, stakeFor l c.del.amount [] = 0 := fun l => by simp [stakeFor]
    refine ⟨⟨fun h => (by cases h), fun h => ?_⟩, ⟨fun h => (by cases h), fun h => ?_⟩⟩
    · rw [e, show (Proposal.blank none 0).valid = [] from rfl, e0] at h; omega
    · rw [e, show (Proposal.blank none 0).invalid = [] from rfl, e0] at h; omega
  | some p =>
    have e : c.proposal id = p := by unfold Chain.proposal Bundles.State.proposal; rw [hp]; rfl
    rw [e] at hv
    obtain ⟨h1, h2, -⟩ := Bundles.C21_majority (c.members id) c.del.amount (c.member id) p hn
      (fun a => (mem_members).symm) (clean_votes hv) hs
    rw [← e] at h1 h2
    rw [← e]
    exact ⟨h1, h2⟩

/-- the status of a tally -/
theorem tally_majority {c y : Chain} {id : Nat} {v : VoteDist} (hv : (voters (c.proposal id)).Nodup)
    (ht : totalAll c.del < 2 ^ 63) (h : c.tally id (c.proposal id) = .done y v) :
    Majority id v.status (c.nonVoters id) := by
  rw [tally_dist h]
  refine dist_majority ?_ (lt_of_le_of_lt (total_q (nonVoters_q 0 c id)) ht)
  rw [(nonVoters_q 0 c id).still.proposal id]
  exact hv

/-- C21 on every reachable state: the status of a pool's vote distribution (`CurrentVoteStatus`) is what the stake of the
pool's members decides. -/
theorem C21_reachable (gov : Addr) (c : Chain) (h : Reachable gov c) (id : Nat) : Majority id (c.dist id).status c :=
  dist_majority (h.good.bun.prop id).nodup h.good.sane.small

example : Majority 0 .valid Sample.later := by
  have h := C21_reachable Sample.gov Sample.later Sample.reach_later 0
  rw [show (Sample.later.dist 0).status = .valid by decide +kernel] at h
  exact h

end Chain
end Verif.Chain
