import Verif.Chain.Commission

/-!
# C86: how a staker loses its place in a pool

A member of a pool stays one until it leaves by itself (an announcement that has become old enough), somebody with more
delegation joins a full pool of which it is the smallest member, governance disables the pool, it was on the losing side
of a vote, or it reaches the maximum of points by not voting or not uploading.
-/

set_option linter.dupNamespace false
namespace Verif.Chain
open Verif
open Chain

/-! ## specification -/

/-- the reasons for which member `a` of pool `id` loses its place -/
inductive LosesPlace (gov : Addr) (id : Nat) (a : Addr) (op : Op) (c c' : Chain) : Prop
  /-- it has announced to leave, and the leave time is over -/
  | asked (dt provision team : Nat) (restarted : Bool) (t : Nat) : op = .beginBlock dt provision team restarted →
      c.st.announcement a id = some t → t + c.st.params.leavePoolTime ≤ c.now + dt → LosesPlace gov id a op c c'
  /-- somebody with more delegation joins the full pool, and nobody in the pool has less than it -/
  | replaced (m : Stakers.JoinMsg) : op = .join m → m.pool = id → m.creator ≠ a → (c.members id).length = 50 →
      (∀ x ∈ c.members id, c.del.amount a ≤ c.del.amount x) → c.del.amount a < c.del.amount m.creator →
      LosesPlace gov id a op c c'
  /-- governance disables the pool -/
  | disabled : op = .disablePool gov id → LosesPlace gov id a op c c'
  /-- it voted against a bundle that became final -/
  | against : op.judges = true → a ∈ (c.proposal id).invalid → NewBundle id c c' → LosesPlace gov id a op c c'
  /-- it voted for (or uploaded) a bundle that was thrown away -/
  | infavour : op.judges = true → a ∈ (c.proposal id).valid → (c.proposal id).storageId ≠ 0 →
      (c'.proposal id).storageId = 0 → ¬ NewBundle id c c' → LosesPlace gov id a op c c'
  /-- it gets points, for not voting or for not uploading, and reaches the maximum -/
  | inactive (v : Stakers.Val) : op.judges = true → c.st.vals.get? (id, a) = some v →
      0 < missed (c.proposal id) a + late (c.proposal id) a →
      c.bun.params.maxPoints ≤ v.points + missed (c.proposal id) a + late (c.proposal id) a → LosesPlace gov id a op c c'

namespace Chain

/-! ## proofs -/

/-- the reasons in a tally -/
inductive Fails (id : Nat) (a : Addr) (c c' : Chain) : Prop
  | against : a ∈ (c.proposal id).invalid → NewBundle id c c' → Fails id a c c'
  | infavour : a ∈ (c.proposal id).valid → (c.proposal id).storageId ≠ 0 → (c'.proposal id).storageId = 0 →
      ¬ NewBundle id c c' → Fails id a c c'
  | inactive (v : Stakers.Val) : c.st.vals.get? (id, a) = some v →
      0 < missed (c.proposal id) a + late (c.proposal id) a →
      c.bun.params.maxPoints ≤ v.points + missed (c.proposal id) a + late (c.proposal id) a → Fails id a c c'

theorem Fails.loses {gov : Addr} {id : Nat} {a : Addr} {op : Op} {c c' : Chain} (h : Fails id a c c')
    (hj : op.judges = true) : LosesPlace gov id a op c c' := by
  cases h with
  | against h1 h2 => exact .against hj h1 h2
  | infavour h1 h2 h3 h4 => exact .infavour hj h1 h2 h3 h4
  | inactive v h1 h2 h3 => exact .inactive v hj h1 h2 h3

theorem Fails.between {id : Nat} {a : Addr} {c x y c' : Chain} (h : Fails id a x y) (h1 : Apart id c x) (h2 : Apart id y c') :
    Fails id a c c' := by
  have ep : x.proposal id = c.proposal id := by
    unfold Chain.proposal Bundles.State.proposal; rw [h1.stored]
  have ep' : c'.proposal id = y.proposal id := by
    unfold Chain.proposal Bundles.State.proposal; rw [h2.stored]
  have en : NewBundle id x y ↔ NewBundle id c c' := by
    unfold NewBundle
    constructor
    · rintro ⟨i, n1, n2⟩
      exact ⟨i, by rw [← Apart.bundle h1]; exact n1, by rw [Apart.bundle h2]; exact n2⟩
    · rintro ⟨i, n1, n2⟩
      exact ⟨i, by rw [Apart.bundle h1]; exact n1, by rw [← Apart.bundle h2]; exact n2⟩
  cases h with
  | against k1 k2 => exact .against (by rw [← ep]; exact k1) (en.1 k2)
  | infavour k1 k2 k3 k4 =>
    exact .infavour (by rw [← ep]; exact k1) (by rw [← ep]; exact k2) (by rw [ep']; exact k3) (fun e => k4 (en.2 e))
  | inactive v k1 k2 k3 =>
    rw [ep] at k2 k3
    rw [h1.params] at k3
    exact .inactive v (by rw [← h1.vals]; exact k1) k2 k3

theorem judged_lost {id : Nat} {active : Option Addr} {f : Addr → Option Delegation.SlashType} {m : Addr → Nat}
    {l : List (Addr × Dec)} {c c' : Chain} (h : Judged id active f m l c c') {a : Addr} (hm : c.member id a = true)
    (hn : c'.member id a = false) : (f a).isSome = true ∨ ∃ v, c.st.vals.get? (id, a) = some v ∧ 0 < m a ∧
      c.bun.params.maxPoints ≤ v.points + m a := by
  obtain ⟨v, hv⟩ := (Stakers.has_iff _ _).1 hm
  have hn : c'.st.vals.get? (id, a) = none := (Stakers.has_false_iff _ _).1 hn
  have e := h.member a
  by_cases hf : (f a).isSome = true
  · exact Or.inl hf
  right
  rw [hn, if_neg hf, hv] at e
  have e : score c.bun.params.maxPoints (m a) (renew active a v) = none := e.symm
  refine ⟨v, hv, ?_⟩
  unfold score at e
  split at e
  · cases e
  · rename_i h0
    split at e
    · rename_i hle
      refine ⟨Nat.pos_of_ne_zero h0, le_trans hle ?_⟩
      unfold renew
      split
      · simp
      · exact le_refl _
    · cases e

theorem fault_some {p : Bundles.Proposal} {s : Bundles.Status} {a : Addr} (h : (fault p s a).isSome = true) :
    (s = .valid ∧ a ∈ p.invalid) ∨ (s = .invalid ∧ a ∈ p.valid) := by
  unfold fault at h
  split at h
  · split at h
    · rename_i hh; exact Or.inl ⟨rfl, hh⟩
    · cases h
  · split at h
    · rename_i hh; exact Or.inr ⟨rfl, hh⟩
    · cases h
  · cases h

theorem fails_of {id : Nat} {active : Option Addr} {s : Bundles.Status} {m : Addr → Nat} {l : List (Addr × Dec)}
    {c c' : Chain} (hj : Judged id active (fault (c.proposal id) s) m l c c')
    (h0 : (c.proposal id).storageId ≠ 0 ∨ (c.proposal id).valid = [])
    (hm' : ∀ a, m a ≤ missed (c.proposal id) a + late (c.proposal id) a)
    (hval : s = .valid ↔ NewBundle id c c') (hinv : s = .invalid → (c'.proposal id).storageId = 0) {a : Addr}
    (hm : c.member id a = true) (hn : c'.member id a = false) : Fails id a c c' := by
  rcases judged_lost hj hm hn with h | ⟨v, h1, h2, h3⟩
  · rcases fault_some h with ⟨e1, e2⟩ | ⟨e1, e2⟩
    · exact .against e2 (hval.1 e1)
    · refine .infavour e2 ?_ (hinv e1) (fun e => ?_)
      · rcases h0 with h0 | h0
        · exact h0
        · rw [h0] at e2; cases e2
      · rw [e1] at hval; exact absurd (hval.2 e) (by decide)
  · have := hm' a
    exact .inactive v h1 (by omega) (by omega)

theorem fails_noFault {id : Nat} {active : Option Addr} {m : Addr → Nat} {l : List (Addr × Dec)}
    {c c' : Chain} (hj : Judged id active noFault m l c c')
    (hm' : ∀ a, m a ≤ missed (c.proposal id) a + late (c.proposal id) a) {a : Addr}
    (hm : c.member id a = true) (hn : c'.member id a = false) : Fails id a c c' := by
  rcases judged_lost hj hm hn with h | ⟨v, h1, h2, h3⟩
  · cases h
  · have := hm' a
    exact .inactive v h1 (by omega) (by omega)

theorem fails_turn {id : Nat} {f : Addr → Option Delegation.SlashType} {m : Addr → Nat} {l : List (Addr × Dec)}
    {c c' : Chain} (ht : Turn id c c' f m) (hj : Judged id none f m l c c') {a : Addr}
    (hm : c.member id a = true) (hn : c'.member id a = false) : Fails id a c c' := by
  cases ht with
  | stopped | early | waiting => exact fails_noFault hj (fun _ => Nat.zero_le _) hm hn
  | noQuorum => exact fails_noFault hj (fun _ => Nat.le_add_right _ _) hm hn
  | empty => exact fails_noFault hj (fun _ => Nat.le_add_left _ _) hm hn
  | decided s _ _ h0 _ hval hz => exact fails_of hj (Or.inl h0) (fun _ => le_refl _) hval (fun _ => hz) hm hn

theorem turns_apart {l : List Nat} {c c' : Chain} (h : Turns l c c') {id : Nat} (hi : id ∉ l) : Apart id c c' := by
  induction h with
  | nil => exact Apart.refl _ _
  | @cons j ids c d c' f m x _ _ _ ha _ _ ih =>
    rw [List.mem_cons, not_or] at hi
    exact (ha id hi.1).trans (ih hi.2)

theorem fails_turns {l : List Nat} {c c' : Chain} (h : Turns l c c') (hl : l.Nodup) {id : Nat} {a : Addr}
    (hm : c.member id a = true) (hn : c'.member id a = false) : Fails id a c c' := by
  induction h with
  | nil => rw [hm] at hn; cases hn
  | @cons j ids c d c' f m x _ ht hj ha _ hr ih =>
    obtain ⟨n1, n2⟩ := List.nodup_cons.1 hl
    by_cases e : id = j
    · subst e
      have h2 := turns_apart hr n1
      have hd : d.member id a = false := by
        rw [← hn]; unfold Chain.member Map.has; rw [h2.vals]
      exact (fails_turn ht hj hm hd).between (Apart.refl _ _) h2
    · have h1 := ha id e
      have hd : d.member id a = true := by
        rw [← hm]; unfold Chain.member Map.has; rw [h1.vals]
      exact (ih n2 hd hn).between h1 (Apart.refl _ _)

theorem disable_member {gov : Addr} {c c' : Chain} {x : Addr} {id : Nat} (h : disablePool gov c x id = .ok c') :
    x = gov ∧ ∀ j a, j ≠ id → c'.member j a = c.member j a := by
  unfold disablePool at h
  split at h
  · cases h
  · rename_i s hs
    have hx : x = gov := by
      unfold Pool.disable at hs
      split at hs
      · cases hs
      · rename_i e; exact (not_not.1 e).symm
    refine ⟨hx, fun j a hj => ?_⟩
    have e : (kickAll id (c.members id) { c with pool := s }).member j a = c.member j a := by
      rw [Bool.eq_iff_iff, kickAll_member]
      exact ⟨fun x => x.1, fun x => ⟨x, fun y => hj y.1⟩⟩
    unfold drain at h
    split at h
    · cases h; exact e
    · split at h
      · cases h
      · split at h
        · cases h
        · cases h; exact e

theorem places_exec (gov : Addr) (c c' : Chain) (h : Reachable gov c) (hs : Sane c') (op : Op) (ho : op.inner = true)
    (he : exec gov c op = .ok c')
    (hov : ∀ dt pr te r, op = .beginBlock dt pr te r → c.now + dt + c.st.params.leavePoolTime < 2 ^ 63) (id : Nat) (a : Addr)
    (hm : c.member id a = true) (hn : c'.member id a = false) : LosesPlace gov id a op c c' := by
  have hg := Reachable.good h
  have gone : c'.st = c.st → False := fun e => by
    unfold Chain.member at hm hn; rw [e, hm] at hn; cases hn
  by_cases g1 : ∃ m, op = .submit m
  · obtain ⟨m, rfl⟩ := g1
    have hid : id = m.pool := by
      by_contra e
      obtain ⟨l, -, ⟨-, -, hj⟩ | ⟨-, s, -, -, -, -, hj⟩⟩ := C24_submit gov c c' h m he <;>
      · have := hj.other id a e
        unfold Chain.member Map.has at hm hn; rw [this, hm] at hn; cases hn
    subst hid
    refine Fails.loses ?_ rfl
    obtain ⟨l, -, ⟨-, -, hj⟩ | ⟨h0, s, -, -, hv, hi, hj⟩⟩ := C24_submit gov c c' h m he
    · exact fails_noFault hj (fun _ => Nat.zero_le _) hm hn
    · exact fails_of hj (Or.inl h0) (fun _ => Nat.le_add_right _ _) hv hi hm hn
  by_cases g2 : ∃ m, op = .skip m
  · obtain ⟨m, rfl⟩ := g2
    obtain ⟨l, s, -, -, hv, hi, -, hj⟩ := C24_skip gov c c' h m he
    have hid : id = m.pool := by
      by_contra e
      have := hj.other id a e
      unfold Chain.member Map.has at hm hn; rw [this, hm] at hn; cases hn
    subst hid
    refine Fails.loses ?_ rfl
    refine fails_of hj ?_ (fun _ => Nat.le_add_right _ _) hv hi hm hn
    by_cases h0 : (c.proposal m.pool).storageId = 0
    · right; rw [(hg.bun.prop m.pool).empty h0]; rfl
    · exact Or.inl h0
  by_cases g3 : op = .endBlock
  · subst g3
    injection he with he
    subst he
    rcases endBlock_handled h hs with e | hh
    · rw [e] at hn
      exact absurd (hm.symm.trans hn) (by decide)
    · have hnd : (c.upgradePools.pool.pools.toList.map (·.1)).Nodup := Map.keys_nodup _
      have ht := turns_handled hh hnd (fun e he => (Map.mem_iff _ _ _).1 he) hg.sane.small
      have hf : Fails id a c.upgradePools c.endBlock := fails_turns ht hnd hm hn
      have hf' : Fails id a c c.endBlock := by
        cases hf with
        | against k1 k2 => exact .against k1 k2
        | infavour k1 k2 k3 k4 => exact .infavour k1 k2 k3 k4
        | inactive v k1 k2 k3 => exact .inactive v k1 k2 k3
      exact hf'.loses rfl
  by_cases g4 : ∃ x j, op = .disablePool x j
  · obtain ⟨x, j, rfl⟩ := g4
    obtain ⟨rfl, hd⟩ := disable_member he
    by_cases e : id = j
    · subst e; exact .disabled rfl
    · rw [hd id a e, hm] at hn; cases hn
  push Not at g1 g2 g4
  rcases st_exec gov c c' op ho he g1 g2 g3 g4 with e | ⟨o, e1, e2⟩
  · exact (gone e).elim
  · have hn' : (Stakers.Sys.step gov ⟨c.sw, c.now⟩ o).w.s.member id a = false := by
      rw [← e2]; exact hn
    by_cases g5 : ∃ dt pr te r, op = .beginBlock dt pr te r
    · obtain ⟨dt, pr, te, r, rfl⟩ := g5
      cases e1
      have hb := (Stakers.C17_block gov ⟨c.sw, c.now⟩ hg.mods.st dt (hov dt pr te r rfl) id a).2
      by_cases hx : ∀ t, c.st.announcement a id = some t → c.now + dt < t + c.st.params.leavePoolTime
      · have := (hb hx).1
        exfalso
        unfold Stakers.State.member Map.has at hn'
        rw [this] at hn'
        unfold Chain.member Map.has at hm
        exact absurd (hm.symm.trans hn') (by decide)
      · push Not at hx
        obtain ⟨t, ht1, ht2⟩ := hx
        exact .asked dt pr te r t rfl ht1 ht2
    · have hb : ∀ dt, o ≠ .beginBlock dt := by
        intro dt e
        subst e
        cases op <;> simp only [stOp, Option.some.injEq, reduceCtorEq] at e1
        exact g5 ⟨_, _, _, _, rfl⟩
      rcases Stakers.C17_other gov ⟨c.sw, c.now⟩ hg.mods.st o (stOp_ok h e1) hb id a hm hn' with e | ⟨ans, amt, m, e, k1, k2, k3, k4, k5⟩
      · subst e
        cases op <;> simp only [stOp, Option.some.injEq, reduceCtorEq] at e1
      · subst e
        cases op <;> simp only [stOp, Option.some.injEq, reduceCtorEq] at e1
        injection e1 with i1 i2 i3
        subst i1 i2 i3
        exact .replaced _ rfl k1 k2 k3 k4 k5

end Chain

/-- C86: a member of a pool that is none any more after a message or block has lost its place for one of the reasons of
`LosesPlace`.  (Times without overflow of `int64`.) -/
theorem Chain.C86_place (gov : Addr) (c : Chain) (h : Reachable gov c) (op : Op) (hs : Sane (c.step gov op))
    (ho : op.inner = true)
    (hov : ∀ dt pr te r, op = .beginBlock dt pr te r → c.now + dt + c.st.params.leavePoolTime < 2 ^ 63) (id : Nat) (a : Addr)
    (hm : c.member id a = true) (hn : (c.step gov op).member id a = false) :
    LosesPlace gov id a op c (c.step gov op) := by
  unfold step at hs hn ⊢
  split at hn
  · rw [hm] at hn; cases hn
  · rename_i hc
    rw [if_neg hc] at hs ⊢
    cases he : exec gov c op with
    | error e => rw [he] at hn; exact absurd (hm.symm.trans hn) (by decide)
    | ok c' =>
      rw [he] at hs hn
      exact places_exec gov c c' h hs op ho he hov id a hm hn

/-- staker 1 uploaded a bundle the others found invalid: it loses its place -/
example : Sample.disputed.member 0 1 = true ∧ Sample.punished.member 0 1 = false ∧
    (1 : Addr) ∈ (Sample.disputed.proposal 0).valid ∧ (Sample.disputed.proposal 0).storageId ≠ 0 ∧
    (Sample.punished.proposal 0).storageId = 0 := by decide +kernel
/-- staker 2 announces to leave and is gone when the leave time is over; staker 3 stays -/
example : (Sample.run Sample.ready [.leave 2 0, .beginBlock 431999 0 0 false]).member 0 2 = true ∧
    (Sample.run Sample.ready [.leave 2 0, .beginBlock 432000 0 0 false]).member 0 2 = false ∧
    (Sample.run Sample.ready [.leave 2 0, .beginBlock 432000 0 0 false]).member 0 3 = true ∧
    (Sample.run Sample.ready [.leave 2 0]).st.announcement 2 0 = some 0 := by decide +kernel

end Verif.Chain
