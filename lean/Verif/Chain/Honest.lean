import Verif.Chain.Slashing
import Verif.Chain.SampleReach

/-!
# Honest majority (C102, C103)

The two promises the whole protocol is about.  Some stakers are honest: what they submit is good, and they vote valid on good
data only and invalid on bad data only; whether data is good is an arbitrary predicate (the chain can not see it).  As long as
honest stakers have more than half of the stake whenever a bundle is decided,

* C102: every finalized bundle is good,
* C103: no honest staker is slashed or removed by a decision.
-/

set_option linter.dupNamespace false
namespace Verif.Chain
open Verif
open Chain
open Verif.Bundles (Proposal VoteDist Status FBundle stakeFor stakeAll)
open Verif.Delegation (SlashType totalAll)

/-! ## specification -/

/-- what a bundle says about the data -/
structure Data where
  storageId : Nat
  dataHash : Nat
  fromKey : Nat
  toKey : Nat
  summary : Nat
  size : Nat

/-- the data of a submission -/
def Chain.SubmitMsg.data (m : SubmitMsg) : Data := ⟨m.storageId, m.dataHash, m.fromKey, m.toKey, m.summary, m.bundleSize⟩

/-- the data that is up for vote in pool `id` -/
def Chain.data (c : Chain) (id : Nat) : Data :=
  let p := c.proposal id
  ⟨p.storageId, p.dataHash, p.fromKey, p.toKey, p.summary, p.bundleSize⟩

/-- the finalized bundle `f` has the data `d` -/
structure HasData (f : FBundle) (d : Data) : Prop where
  storageId : f.storageId = d.storageId
  dataHash : f.dataHash = d.dataHash
  fromKey : f.fromKey = d.fromKey
  toKey : f.toKey = d.toKey
  summary : f.summary = d.summary
  size : f.toIndex = (f.fromIndex + d.size) % 2 ^ 64

/-- which stakers are honest, and which data is good in which pool -/
structure Honesty where
  honest : Addr → Prop
  good : Nat → Data → Prop

/-- The honest stakers follow the rules: what the registered node of an honest staker submits is good; it votes valid only
while good data is up for vote, and invalid only while bad data is. -/
def Honesty.Follows (H : Honesty) (c : Chain) : Op → Prop
  | .submit m => H.honest m.staker → Registered c m.pool m.staker m.creator → H.good m.pool m.data
  | .vote m => H.honest m.staker → Registered c m.pool m.staker m.creator →
      (m.vote = .valid → H.good m.pool (c.data m.pool)) ∧ (m.vote = .invalid → ¬ H.good m.pool (c.data m.pool))
  | _ => True

/-- the operation may decide the bundle of pool `id` -/
def Chain.Op.Decides (id : Nat) : Op → Prop
  | .submit m => m.pool = id
  | .skip m => m.pool = id
  | .endBlock => True
  | _ => False

/-- in none of its pools is `a` close to the maximum of inactivity points -/
def Awake (c : Chain) (a : Addr) : Prop :=
  ∀ id v, c.st.vals.get? (id, a) = some v → v.points + 2 < c.bun.params.maxPoints

/-- honest stakers that are awake have more than half of the stake of pool `id` -/
def Honesty.Majority (H : Honesty) (c : Chain) (id : Nat) : Prop :=
  ∃ l : List Addr, l.Nodup ∧ (∀ a ∈ l, H.honest a ∧ Awake c a ∧ c.member id a = true) ∧
    stakeAll (c.members id) c.del.amount < 2 * (l.map c.del.amount).sum

/-- an operation that honest stakers can live with: they follow the rules, and when it may decide a bundle they have the
majority of the pool -/
structure Honesty.Allows (H : Honesty) (c : Chain) (op : Op) : Prop where
  follows : H.Follows c op
  majority : ∀ id, op.Decides id → (c.proposal id).storageId ≠ 0 → H.Majority c id

/-- the histories with an honest majority -/
inductive HonestRun (gov : Addr) (H : Honesty) : Chain → Prop
  | init (dp : Delegation.Params) (sp : Stakers.Params) (bp : Bundles.Params) (b : Bank) (now : Nat) :
      dp.validate = true → bp.validate = true → HonestRun gov H (Chain.init dp sp bp b now)
  | step {c : Chain} (op : Op) : HonestRun gov H c → Sane (c.step gov op) → H.Allows c op →
      HonestRun gov H (c.step gov op)

/-! ## proofs -/

theorem HonestRun.reachable {gov : Addr} {H : Honesty} {c : Chain} (h : HonestRun gov H c) : Reachable gov c := by
  induction h with
  | init dp sp bp b now hd hb => exact .init dp sp bp b now hd hb
  | step op _ hs _ ih => exact .step op ih hs

/-- the votes of honest stakers on the proposal of pool `id` are right -/
structure Right (H : Honesty) (c : Chain) (id : Nat) : Prop where
  valid : ∀ a ∈ (c.proposal id).valid, H.honest a → H.good id (c.data id)
  invalid : ∀ a ∈ (c.proposal id).invalid, H.honest a → ¬ H.good id (c.data id)

variable {gov : Addr} {H : Honesty} {c c' d : Chain} {id : Nat}

theorem Right.of_eq (h : Right H c id) (e : c'.proposal id = c.proposal id) : Right H c' id := by
  have e' : c'.data id = c.data id := by unfold Chain.data; rw [e]
  exact ⟨fun a ha => by rw [e'] ; exact h.valid a (e ▸ ha), fun a ha => by rw [e']; exact h.invalid a (e ▸ ha)⟩

theorem Right.blank {n : Option Addr} {t : Nat} (e : c'.proposal id = Proposal.blank n t) : Right H c' id :=
  ⟨fun a ha => (by rw [e] at ha; cases ha), fun a ha => (by rw [e] at ha; cases ha)⟩

theorem Right.submitted {m : SubmitMsg} {t x y : Nat} {n : Option Addr} (e : c'.proposal id = m.proposal t x y n)
    (hg : H.honest m.staker → H.good id m.data) : Right H c' id := by
  have e' : c'.data id = m.data := by unfold Chain.data; rw [e]; rfl
  refine ⟨fun a ha hh => ?_, fun a ha => (by rw [e] at ha; cases ha)⟩
  rw [e] at ha
  have ha : a = m.staker := List.mem_singleton.1 ha
  subst ha
  rw [e']; exact hg hh

theorem Right.kept {n : Option Addr} {t : Nat} (h : Right H c id)
    (e : c'.proposal id = { c.proposal id with nextUploader := n, updatedAt := t }) : Right H c' id := by
  have e' : c'.data id = c.data id := by unfold Chain.data; rw [e]
  refine ⟨fun a ha => ?_, fun a ha => ?_⟩
  · rw [e']; rw [e] at ha; exact h.valid a ha
  · rw [e']; rw [e] at ha; exact h.invalid a ha

theorem Right.voted {m : VoteMsg} (h : Right H c id) (e : castVote (c.proposal id) m.staker m.vote = .ok (c'.proposal id))
    (hf : H.honest m.staker → (m.vote = .valid → H.good id (c.data id)) ∧ (m.vote = .invalid → ¬ H.good id (c.data id))) :
    Right H c' id := by
  cases hv : m.vote with
  | unspecified => rw [hv] at e; cases e
  | valid =>
    rw [hv] at e
    injection e with e
    have e' : c'.data id = c.data id := by unfold Chain.data; rw [← e]
    refine ⟨fun a ha hh => ?_, fun a ha => ?_⟩
    · rw [e']
      rw [← e] at ha
      rcases List.mem_append.1 ha with ha | ha
      · exact h.valid a ha hh
      · have := List.mem_singleton.1 ha
        subst this
        exact (hf hh).1 hv
    · rw [e']; rw [← e] at ha; exact h.invalid a ha
  | invalid =>
    rw [hv] at e
    injection e with e
    have e' : c'.data id = c.data id := by unfold Chain.data; rw [← e]
    refine ⟨fun a ha => ?_, fun a ha hh => ?_⟩
    · rw [e']; rw [← e] at ha; exact h.valid a ha
    · rw [e']
      rw [← e] at ha
      rcases List.mem_append.1 ha with ha | ha
      · exact h.invalid a ha hh
      · have := List.mem_singleton.1 ha
        subst this
        exact (hf hh).2 hv
  | abstain =>
    rw [hv] at e
    have e : (if m.staker ∈ (c.proposal id).abstain then Except.error "already voted abstain" else
      Except.ok { c.proposal id with abstain := (c.proposal id).abstain ++ [m.staker] }) = .ok (c'.proposal id) := e
    split at e
    · cases e
    · injection e with e
      have e' : c'.data id = c.data id := by unfold Chain.data; rw [← e]
      refine ⟨fun a ha => ?_, fun a ha => ?_⟩
      · rw [e']; rw [← e] at ha; exact h.valid a ha
      · rw [e']; rw [← e] at ha; exact h.invalid a ha

theorem right_step (hr : Reachable gov c) (op : Op) (h : Right H c id) (hf : H.Follows c op) :
    Right H (c.step gov op) id := by
  have sub : ∀ {pl : Pool.Pool}, Submitted id pl c (c.step gov op) op → Right H (c.step gov op) id := by
    rintro pl ⟨m, n, rfl, rfl, e⟩
    unfold step at e ⊢
    split
    · exact h
    · rename_i hc
      rw [if_neg hc] at e
      cases he : exec gov c (.submit m) with
      | error x => exact h
      | ok c' =>
        rw [he] at e
        obtain ⟨pl', -, hreg, -⟩ := canPropose_none (submit_ok he).1
        exact Right.submitted e (fun hh => hf hh hreg)
  cases round_step hr op id with
  | kept n t e s => exact h.kept e
  | voted m e1 e2 hreg h0 hs hv hi hc s =>
    subst e1 e2
    exact h.voted hc (fun hh => hf hh hreg)
  | dropped n e s => exact Right.blank e
  | proposed pl _ _ hs _ => exact sub hs
  | finalized pl v _ _ hs =>
    rcases hs with ⟨n, e⟩ | hs
    · exact Right.blank e
    · exact sub hs

theorem HonestRun.right (h : HonestRun gov H c) (id : Nat) : Right H c id := by
  induction h with
  | init dp sp bp b now hd hb => exact Right.blank (n := none) (t := 0) rfl
  | step op h _ ha ih => exact right_step h.reachable op ih ha.follows

/-! ### stakes -/

theorem stakeFor_sub {M l : List Addr} (amt : Addr → Nat) (hM : M.Nodup) (hl : l.Nodup) (hs : ∀ a ∈ l, a ∈ M) :
    stakeFor M amt l = (l.map amt).sum := by
  unfold stakeFor
  refine List.Perm.sum_eq (List.Perm.map _ ?_)
  rw [List.perm_ext_iff_of_nodup (hM.filter _) hl]
  intro a
  simp only [List.mem_filter, decide_eq_true_eq]
  exact ⟨fun h => h.2, fun h => ⟨hs a h, h⟩⟩

theorem minority {M l v : List Addr} (amt : Addr → Nat) (hM : M.Nodup) (hl : l.Nodup) (hs : ∀ a ∈ l, a ∈ M)
    (hv : ∀ a ∈ l, a ∉ v) : stakeFor M amt v + (l.map amt).sum ≤ stakeAll M amt := by
  rw [← stakeFor_sub amt hM hl hs]
  exact Bundles.stakeFor_disjoint M amt v l (fun a ha hb => hv a hb ha)

theorem stake_mono {M M' : List Addr} {amt amt' : Addr → Nat} (hM' : M'.Nodup) (hs : ∀ a ∈ M', a ∈ M)
    (ha : ∀ a ∈ M', amt' a ≤ amt a) : stakeAll M' amt' ≤ stakeAll M amt := by
  unfold stakeAll
  obtain ⟨l, hp, hl⟩ := hM'.subperm hs
  have h1 : (l.map amt).sum ≤ (M.map amt).sum := (hl.map amt).sum_le_sum (fun _ _ => Nat.zero_le _)
  have h2 : (M'.map amt').sum ≤ (M'.map amt).sum := List.sum_le_sum ha
  have h3 : (l.map amt).sum = (M'.map amt).sum := (hp.map amt).sum_eq
  omega

theorem members_nodup (c : Chain) (id : Nat) : (c.members id).Nodup := Stakers.stakersOf_nodup c.st id

theorem member_some {a : Addr} : c.member id a = true ↔ ∃ v, c.st.vals.get? (id, a) = some v := by
  unfold Chain.member; exact Stakers.has_iff _ _

/-- a list of honest stakers that have the majority of pool `id`, none close to the maximum of points there -/
structure Camp (H : Honesty) (c : Chain) (id : Nat) (l : List Addr) : Prop where
  nodup : l.Nodup
  honest : ∀ a ∈ l, H.honest a
  member : ∀ a ∈ l, ∃ v, c.st.vals.get? (id, a) = some v ∧ v.points + 2 < c.bun.params.maxPoints
  most : stakeAll (c.members id) c.del.amount < 2 * (l.map c.del.amount).sum

theorem renew_points (active : Option Addr) (a : Addr) (v : Stakers.Val) : (renew active a v).points ≤ v.points := by
  unfold renew; split
  · exact Nat.zero_le _
  · exact le_refl _

theorem missed_le (p : Proposal) (a : Addr) : missed p a ≤ 1 := by unfold missed; split <;> omega
theorem late_le (p : Proposal) (a : Addr) : late p a ≤ 1 := by unfold late; split <;> omega

/-- a staker with points to spare that is not at fault is not touched -/
theorem Judged.safe {active : Option Addr} {f : Addr → Option SlashType} {m : Addr → Nat} {l : List (Addr × Dec)}
    (h : Judged id active f m l c d) {a : Addr} (hf : f a = none) (hm : m a ≤ 2)
    (hv : ∀ v, c.st.vals.get? (id, a) = some v → v.points + 2 < c.bun.params.maxPoints) :
    a ∉ l.map (·.1) ∧ ∀ j, (∃ v, c.st.vals.get? (j, a) = some v) → ∃ v, d.st.vals.get? (j, a) = some v := by
  constructor
  · intro ha
    obtain ⟨⟨b, q⟩, hb, rfl⟩ := List.mem_map.1 ha
    obtain ⟨-, ⟨t, ht, -⟩ | ⟨-, ⟨h0, v, h1, h2⟩, -⟩⟩ := (h.exactly b q).1 hb
    · rw [hf] at ht; cases ht
    · have h3 := hv v h1
      have h4 := renew_points active b v
      have hm : m b ≤ 2 := hm
      omega
  · rintro j ⟨v, hj⟩
    by_cases e : j = id
    · subst e
      have h3 := hv v hj
      have h4 := renew_points active a v
      rw [h.member a, hf, hj]
      show ∃ w, score c.bun.params.maxPoints (m a) (renew active a v) = some w
      unfold score
      split
      · exact ⟨_, rfl⟩
      · rw [if_neg (by omega)]; exact ⟨_, rfl⟩
    · exact ⟨v, by rw [h.other j a e]; exact hj⟩

/-- the verdict of an honest majority is right -/
theorem verdict_right {active : Option Addr} {s : Status} {l : List Addr} (hr : Right H c id) (hl : Camp H c id l)
    (hv : Verdict id active s c) :
    (s = .valid → H.good id (c.data id)) ∧ (s = .invalid → ¬ H.good id (c.data id)) := by
  obtain ⟨d, x, -, hj, hx, hp, hm⟩ := hv
  have hno : ∀ a, noFault a = none := fun _ => rfl
  have safe : ∀ a ∈ l, a ∉ x.map (·.1) ∧ ∃ v, d.st.vals.get? (id, a) = some v := by
    intro a ha
    obtain ⟨v, h1, h2⟩ := hl.member a ha
    have := Judged.safe hj (hno a) (by have := missed_le (c.proposal id) a; omega)
      (fun w hw => by rw [h1] at hw; cases hw; exact h2)
    exact ⟨this.1, this.2 id ⟨v, h1⟩⟩
  -- whoever is still a member was not slashed
  have stay : ∀ a ∈ d.members id, a ∈ c.members id ∧ d.del.amount a = c.del.amount a := by
    intro a ha
    obtain ⟨w, hw⟩ := member_some.1 (mem_members.1 ha)
    have e := hj.member a
    rw [hw, show (noFault a).isSome = false from rfl, if_neg (by simp)] at e
    cases hc : c.st.vals.get? (id, a) with
    | none => rw [hc] at e; cases e
    | some v =>
      refine ⟨mem_members.2 (member_some.2 ⟨v, hc⟩), hx a (fun hn => ?_)⟩
      obtain ⟨⟨b, q⟩, hb, rfl⟩ := List.mem_map.1 hn
      obtain ⟨-, ⟨t, ht, -⟩ | ⟨-, ⟨h0, v', h1, h2⟩, -⟩⟩ := (hj.exactly b q).1 hb
      · cases ht
      · rw [hc] at h1; cases h1
        rw [hc] at e
        have e : some w = score c.bun.params.maxPoints (missed (c.proposal id) b) (renew active b v) := e
        unfold score at e
        rw [if_neg (by omega), if_pos h2] at e
        cases e
  have htot : stakeAll (d.members id) d.del.amount ≤ stakeAll (c.members id) c.del.amount :=
    stake_mono (members_nodup d id) (fun a ha => (stay a ha).1) (fun a ha => le_of_eq (stay a ha).2)
  have hsum : (l.map d.del.amount).sum = (l.map c.del.amount).sum := by
    congr 1
    exact List.map_congr_left fun a ha => hx a (safe a ha).1
  have hmost := hl.most
  have hsub : ∀ a ∈ l, a ∈ d.members id := fun a ha => mem_members.2 (member_some.2 (safe a ha).2)
  constructor
  · intro e
    by_contra hg
    have := hm.valid.1 e
    have h2 := minority (v := (d.proposal id).valid) d.del.amount (members_nodup d id) hl.nodup hsub
      (fun a ha hb => hg (hr.valid a (hp ▸ hb) (hl.honest a ha)))
    omega
  · intro e hg
    have := (hm.invalid.1 e).2
    have h2 := minority (v := (d.proposal id).invalid) d.del.amount (members_nodup d id) hl.nodup hsub
      (fun a ha hb => hr.invalid a (hp ▸ hb) (hl.honest a ha) hg)
    omega

/-- so honest voters are not at fault -/
theorem fault_none {s : Status} (hr : Right H c id) (hs : (s = .valid → H.good id (c.data id)) ∧
    (s = .invalid → ¬ H.good id (c.data id))) {a : Addr} (ha : H.honest a) : fault (c.proposal id) s a = none := by
  unfold fault
  split
  · rw [if_neg]; intro hi; exact hr.invalid a hi ha (hs.1 rfl)
  · rw [if_neg]; intro hi; exact hs.2 rfl (hr.valid a hi ha)
  · rfl

/-! ### the end block -/

/-- in none of the pools of the list is `a` close to the maximum of points -/
def AwakeIn (ids : List Nat) (c : Chain) (a : Addr) : Prop :=
  ∀ id ∈ ids, ∀ v, c.st.vals.get? (id, a) = some v → v.points + 2 < c.bun.params.maxPoints

theorem turn_honest {f : Addr → Option SlashType} {m : Addr → Nat} (ht : Turn id c d f m) (hr : Right H c id)
    (hm : (c.proposal id).storageId ≠ 0 → ∃ l, Camp H c id l) :
    (∀ a, H.honest a → f a = none) ∧ (∀ a, m a ≤ 2) ∧ (NewBundle id c d → H.good id (c.data id)) := by
  cases ht with
  | stopped _ h | early _ _ h | waiting _ _ _ _ h => exact ⟨fun _ _ => rfl, fun _ => Nat.zero_le _, fun hn => absurd hn h⟩
  | noQuorum _ _ _ _ _ h =>
    exact ⟨fun _ _ => rfl, fun a => le_trans (missed_le _ a) (by omega), fun hn => absurd hn h⟩
  | empty _ _ _ h => exact ⟨fun _ _ => rfl, fun a => le_trans (late_le _ a) (by omega), fun hn => absurd hn h⟩
  | decided s _ _ h0 hv hn =>
    obtain ⟨l, hl⟩ := hm h0
    have hs := verdict_right hr hl hv
    refine ⟨fun a ha => fault_none hr hs ha, fun a => ?_, fun h => hs.1 (hn.2 h)⟩
    have := missed_le (c.proposal id) a
    have := late_le (c.proposal id) a
    show missed (c.proposal id) a + late (c.proposal id) a ≤ 2
    omega

theorem turns_honest {ids : List Nat} (ht : Turns ids c c') (hn : ids.Nodup) (hr : ∀ j ∈ ids, Right H c j)
    (hm : ∀ j ∈ ids, (c.proposal j).storageId ≠ 0 → ∃ l, Camp H c j l ∧ ∀ a ∈ l, AwakeIn ids c a) :
    (∃ x, c'.slashes = c.slashes ++ x ∧ ∀ a, H.honest a → AwakeIn ids c a → a ∉ x.map (·.1) ∧
      ∀ j, (∃ v, c.st.vals.get? (j, a) = some v) → ∃ v, c'.st.vals.get? (j, a) = some v) ∧
    (∀ j ∈ ids, NewBundle j c c' → H.good j (c.data j)) := by
  induction ht with
  | nil => exact ⟨⟨[], by simp, fun a _ _ => ⟨by simp, fun j hj => hj⟩⟩, fun j hj => by cases hj⟩
  | @cons id ids c d c' f m l hl ht hj ha hs hrest ih =>
    rw [List.nodup_cons] at hn
    obtain ⟨t1, t2, t3⟩ := turn_honest ht (hr id (by simp)) (fun h0 => by
      obtain ⟨l, h1, -⟩ := hm id (by simp) h0; exact ⟨l, h1⟩)
    have hid : ∀ {j}, j ∈ ids → j ≠ id := fun hj e => hn.1 (e ▸ hj)
    have safe : ∀ a, H.honest a → AwakeIn (id :: ids) c a → a ∉ l.map (·.1) ∧
        ∀ j, (∃ v, c.st.vals.get? (j, a) = some v) → ∃ v, d.st.vals.get? (j, a) = some v := fun a h1 h2 =>
      Judged.safe hj (t1 a h1) (t2 a) (h2 id (by simp))
    have awake : ∀ a, AwakeIn (id :: ids) c a → AwakeIn ids d a := by
      intro a h j hj v hv
      rw [(ha j (hid hj)).vals] at hv
      rw [(ha j (hid hj)).params]
      exact h j (by simp [hj]) v hv
    have amt : ∀ a, a ∉ l.map (·.1) → d.del.amount a = c.del.amount a := by
      obtain ⟨l', g1, g2, -⟩ := hs
      have e : l' = l := by rw [hl] at g1; exact (List.append_cancel_left g1).symm
      subst e; exact g2
    have le : ∀ a, d.del.amount a ≤ c.del.amount a := by obtain ⟨l', -, -, g⟩ := hs; exact g
    obtain ⟨⟨x, hx, hx'⟩, hb⟩ := ih hn.2 (fun j hj => (hr j (by simp [hj])).of_eq (ha j (hid hj)).proposal)
      (fun j hj h0 => by
        rw [(ha j (hid hj)).proposal] at h0
        obtain ⟨y, hy, hy'⟩ := hm j (by simp [hj]) h0
        refine ⟨y, ⟨hy.nodup, hy.honest, fun a hya => ?_, ?_⟩, fun a hya => awake a (hy' a hya)⟩
        · rw [(ha j (hid hj)).vals, (ha j (hid hj)).params]
          exact hy.member a hya
        · have h1 : (y.map d.del.amount).sum = (y.map c.del.amount).sum := by
            congr 1
            exact List.map_congr_left fun a hya => amt a (safe a (hy.honest a hya) (hy' a hya)).1
          have h2 : stakeAll (d.members j) d.del.amount ≤ stakeAll (c.members j) c.del.amount := by
            refine stake_mono (members_nodup d j) (fun a hd => ?_) (fun a _ => le a)
            obtain ⟨v, hv⟩ := member_some.1 (mem_members.1 hd)
            rw [(ha j (hid hj)).vals] at hv
            exact mem_members.2 (member_some.2 ⟨v, hv⟩)
          have := hy.most
          omega)
    refine ⟨⟨l ++ x, by rw [hx, hl, List.append_assoc], fun a h1 h2 => ?_⟩, fun j hj hnew => ?_⟩
    · obtain ⟨s1, s2⟩ := safe a h1 h2
      obtain ⟨r1, r2⟩ := hx' a h1 (awake a h2)
      refine ⟨by rw [List.map_append, List.mem_append]; exact fun h => h.elim s1 r1, fun j hv => r2 j (s2 j hv)⟩
    · by_cases e : j = id
      · subst e
        refine t3 ?_
        obtain ⟨i, hi, hi'⟩ := hnew
        refine ⟨i, hi, fun hz => hi' ?_⟩
        have : ∀ {l : List Nat} {c c' : Chain}, Turns l c c' → j ∉ l → Apart j c c' := by
          intro l c c' h
          induction h with
          | nil => intro _; exact Apart.refl _ _
          | cons _ _ _ ha _ _ ih =>
            intro hj
            rw [List.mem_cons, not_or] at hj
            exact (ha j hj.1).trans (ih hj.2)
        have hap := this hrest hn.1
        show c'.bun.finalized.get? _ = none
        rw [hap.fin]; exact hz
      · have hj' : j ∈ ids := by
          rcases List.mem_cons.1 hj with h | h
          · exact absurd h e
          · exact h
        have hap := ha j e
        have e2 : d.data j = c.data j := by unfold Chain.data; rw [hap.proposal]
        rw [← e2]
        refine hb j hj' ?_
        obtain ⟨i, hi, hi'⟩ := hnew
        refine ⟨i, ?_, hi'⟩
        show d.bun.finalized.get? _ = none
        rw [hap.fin]; exact hi

/-! ### one operation -/

theorem Honesty.Majority.camp (h : H.Majority c id) : ∃ l, Camp H c id l ∧ ∀ a ∈ l, Awake c a := by
  obtain ⟨l, h1, h2, h3⟩ := h
  refine ⟨l, ⟨h1, fun a ha => (h2 a ha).1, fun a ha => ?_, h3⟩, fun a ha => (h2 a ha).2.1⟩
  obtain ⟨-, hw, hm⟩ := h2 a ha
  obtain ⟨v, hv⟩ := member_some.1 hm
  exact ⟨v, hv, hw id v hv⟩

/-- what a decision does to honest stakers and to the bundles -/
structure Fairly (H : Honesty) (c c' : Chain) : Prop where
  spared : ∃ x, c'.slashes = c.slashes ++ x ∧ ∀ a, H.honest a → Awake c a → a ∉ x.map (·.1) ∧
    ∀ j, (∃ v, c.st.vals.get? (j, a) = some v) → ∃ v, c'.st.vals.get? (j, a) = some v
  good : ∀ id, NewBundle id c c' → H.good id (c.data id)

theorem Fairly.refl (c : Chain) : Fairly H c c :=
  ⟨⟨[], by simp, fun _ _ _ => ⟨by simp, fun _ h => h⟩⟩, fun _ ⟨i, h1, h2⟩ => absurd h1 h2⟩

theorem no_bundle_other {x : Chain} {j : Nat} (h : Apart j c x) : ¬ NewBundle j c x := by
  rintro ⟨i, h1, h2⟩
  exact h2 (by show x.bun.finalized.get? _ = none; rw [h.fin]; exact h1)

theorem judged_fair {active : Option Addr} {s : Status} {x : List (Addr × Dec)} (hr : Right H c id)
    (hs : (s = .valid → H.good id (c.data id)) ∧ (s = .invalid → ¬ H.good id (c.data id)))
    (hj : Judged id active (fault (c.proposal id) s) (missed (c.proposal id)) x c c') {a : Addr} (ha : H.honest a)
    (hw : Awake c a) :
    a ∉ x.map (·.1) ∧ ∀ j, (∃ v, c.st.vals.get? (j, a) = some v) → ∃ v, c'.st.vals.get? (j, a) = some v :=
  Judged.safe hj (fault_none hr hs ha) (le_trans (missed_le _ a) (by omega)) (hw id)

theorem fairly_submit (hc : Reachable gov c) (hr : ∀ id, Right H c id) {m : SubmitMsg} (ha : H.Allows c (.submit m))
    (he : exec gov c (.submit m) = .ok c') : Fairly H c c' := by
  obtain ⟨x, hx, h⟩ := C24_submit gov c c' hc m he
  have other : ∀ id, id ≠ m.pool → ¬ NewBundle id c c' := fun id hid =>
    no_bundle_other (apart_submit (keyed_of hc.good.mods.pool rfl) hid he)
  rcases h with ⟨-, h2, h3⟩ | ⟨h0, s, -, hv, hn, -, hj⟩
  · refine ⟨⟨x, hx, fun a h1 hw => Judged.safe h3 rfl (Nat.zero_le _) (hw m.pool)⟩, fun id hnew => ?_⟩
    by_cases e : id = m.pool
    · subst e; exact absurd hnew h2
    · exact absurd hnew (other id e)
  · obtain ⟨l, hl, -⟩ := (ha.majority m.pool rfl h0).camp
    have hs := verdict_right (hr m.pool) hl hv
    refine ⟨⟨x, hx, fun a h1 hw => judged_fair (hr m.pool) hs hj h1 hw⟩, fun id hnew => ?_⟩
    by_cases e : id = m.pool
    · subst e; exact hs.1 (hn.2 hnew)
    · exact absurd hnew (other id e)

theorem fairly_skip (hc : Reachable gov c) (hr : ∀ id, Right H c id) {m : SkipMsg} (ha : H.Allows c (.skip m))
    (he : exec gov c (.skip m) = .ok c') : Fairly H c c' := by
  obtain ⟨x, s, hx, hv, hn, -, -, hj⟩ := C24_skip gov c c' hc m he
  have other : ∀ id, id ≠ m.pool → ¬ NewBundle id c c' := fun id hid =>
    no_bundle_other (apart_skip (keyed_of hc.good.mods.pool rfl) hid he)
  have hs : (s = .valid → H.good m.pool (c.data m.pool)) ∧ (s = .invalid → ¬ H.good m.pool (c.data m.pool)) := by
    by_cases h0 : (c.proposal m.pool).storageId = 0
    · have e := (hc.good.bun.prop m.pool).empty h0
      obtain ⟨d, -, -, -, -, hp, hm⟩ := hv
      have z : ∀ l, stakeFor l d.del.amount [] = 0 := fun l => by simp [stakeFor]
      refine ⟨fun hv => ?_, fun hi => ?_⟩
      · have := hm.valid.1 hv
        rw [hp, e, show (Proposal.blank (c.proposal m.pool).nextUploader (c.proposal m.pool).updatedAt).valid = [] from rfl,
          z] at this
        omega
      · have := hm.invalid.1 hi
        rw [hp, e, show (Proposal.blank (c.proposal m.pool).nextUploader (c.proposal m.pool).updatedAt).invalid = [] from rfl,
          z] at this
        omega
    · obtain ⟨l, hl, -⟩ := (ha.majority m.pool rfl h0).camp
      exact verdict_right (hr m.pool) hl hv
  refine ⟨⟨x, hx, fun a h1 hw => judged_fair (hr m.pool) hs hj h1 hw⟩, fun id hnew => ?_⟩
  by_cases e : id = m.pool
  · subst e; exact hs.1 (hn.2 hnew)
  · exact absurd hnew (other id e)

theorem fairly_endBlock (hc : Reachable gov c) (hr : ∀ id, Right H c id) (ha : H.Allows c .endBlock)
    (hs : Sane (c.step gov .endBlock)) (h : (c.step gov .endBlock).crashed = false) :
    Fairly H c (c.step gov .endBlock) := by
  obtain ⟨s, l, hn, hl, ht⟩ := C24_endBlock gov c hc hs h
  obtain ⟨⟨x, hx, hx'⟩, hb⟩ := turns_honest (H := H) ht hn (fun j _ => (hr j).of_eq rfl) (fun j _ h0 => by
    obtain ⟨y, hy, hy'⟩ := (ha.majority j trivial h0).camp
    exact ⟨y, ⟨hy.nodup, hy.honest, hy.member, hy.most⟩, fun a hya id _ v hv => hy' a hya id v hv⟩)
  refine ⟨⟨x, hx, fun a h1 hw => hx' a h1 (fun id _ v hv => hw id v hv)⟩, fun id hnew => ?_⟩
  by_cases hi : id ∈ l
  · exact hb id hi hnew
  · obtain ⟨i, h1, h2⟩ := hnew
    obtain ⟨f, hf⟩ := Option.ne_none_iff_exists'.1 h2
    obtain ⟨p, hp, -⟩ := C23_new gov c hc .endBlock id i f h1 hf
    exact absurd ((hl id).2 ⟨p, hp⟩) hi

theorem fairly_step (hc : Reachable gov c) (hr : ∀ id, Right H c id) (op : Op) (ha : H.Allows c op)
    (hs : Sane (c.step gov op)) (hj : op.judges = true) : Fairly H c (c.step gov op) := by
  by_cases g : op = .endBlock
  · subst g
    cases hcr : (c.step gov .endBlock).crashed with
    | false => exact fairly_endBlock hc hr ha hs hcr
    | true =>
      have e : c.step gov .endBlock = c ∨ c.step gov .endBlock = { c with crashed := true } ∨
          (c.step gov .endBlock).crashed = false := by
        unfold step
        split
        · exact Or.inl rfl
        · rename_i hc0
          right
          show c.endBlock = _ ∨ c.endBlock.crashed = false
          have hc0 : c.crashed = false := by simpa using hc0
          have e1 : c.step gov .endBlock = c.endBlock := by unfold step; rw [hc0]; rfl
          rw [e1] at hs
          rcases endBlock_handled hc hs with e | hh
          · exact Or.inl e
          · right
            have : ∀ {l : List (Nat × Pool.Pool)} {x y : Chain}, Handled gov l x y → y.crashed = x.crashed := by
              intro l x y h
              induction h with
              | nil _ => rfl
              | @cons kp _ _ _ _ hw hp hv _ ih =>
                rw [ih]; exact (apart_visit (id := kp.1 + 1) (j := kp.1) (by omega) (Well.keyed hw) hv).crashed
            rw [this hh]; exact hc0
      rcases e with e | e | e
      · rw [e]; exact Fairly.refl c
      · rw [e]
        exact ⟨⟨[], by simp [slashes], fun _ _ _ => ⟨by simp, fun _ h => h⟩⟩, fun _ ⟨i, h1, h2⟩ => absurd h1 h2⟩
      · rw [e] at hcr; cases hcr
  · unfold step
    split
    · exact Fairly.refl c
    · cases he : exec gov c op with
      | error e => exact Fairly.refl c
      | ok c' =>
        show Fairly H c c'
        cases op <;> first | (cases hj; done) | skip
        · exact fairly_submit hc hr ha he
        · exact fairly_skip hc hr ha he
        · exact absurd rfl g

/-! ## C102, C103 -/

/-- **C102**: in every history with an honest majority, every finalized bundle of every pool holds good data. -/
theorem C102_archive (gov : Addr) (H : Honesty) (c : Chain) (h : HonestRun gov H c) (id i : Nat) (f : FBundle)
    (hf : c.bundle id i = some f) : ∃ d, HasData f d ∧ H.good id d := by
  induction h with
  | init dp sp bp b now hd hb => cases hf
  | @step c op h hs ha ih =>
    cases h0 : c.bundle id i with
    | some g =>
      have := bundle_kept h.reachable op h0
      rw [hf] at this; cases this
      exact ih h0
    | none =>
      obtain ⟨p, -, -, -, e1, -, e2, e7, e3, e4, e5, e6, -⟩ := C23_new gov c h.reachable op id i f h0 hf
      refine ⟨c.data id, ⟨e1, e6, e3, e4, e5, ?_⟩, ?_⟩
      · rw [e7, e2]; rfl
      · have hn : NewBundle id c (c.step gov op) := ⟨i, h0, by rw [hf]; simp⟩
        cases hj : op.judges with
        | false => exact absurd hn (no_bundle (fun k => by rw [(plain_step h.reachable hj).fin]))
        | true => exact (fairly_step h.reachable h.right op ha hs hj).good id hn

/-- **C103**: in every history with an honest majority, an honest staker that is not about to be removed for inactivity is
not slashed by any operation; and no submission, skip or end block takes delegation away from it or removes it from a pool. -/
theorem C103_spared (gov : Addr) (H : Honesty) (c : Chain) (h : HonestRun gov H c) (op : Op) (ha : H.Allows c op)
    (hs : Sane (c.step gov op)) (a : Addr) (hh : H.honest a) (hw : Awake c a) :
    (∃ x, (c.step gov op).slashes = c.slashes ++ x ∧ a ∉ x.map (·.1)) ∧
    (op.judges = true → (c.step gov op).del.amount a = c.del.amount a ∧
      ∀ id, c.member id a = true → (c.step gov op).member id a = true) := by
  cases hj : op.judges with
  | false =>
    refine ⟨⟨[], by rw [(plain_step h.reachable hj).slashes]; simp, by simp⟩, fun e => by cases e⟩
  | true =>
    obtain ⟨x, hx, hx'⟩ := (fairly_step h.reachable h.right op ha hs hj).spared
    obtain ⟨h1, h2⟩ := hx' a hh hw
    refine ⟨⟨x, hx, h1⟩, fun _ => ⟨?_, fun id hm => member_some.2 (h2 id (member_some.1 hm))⟩⟩
    obtain ⟨l', g1, g2, -⟩ := C24_stake gov c h.reachable op hj
    have e : l' = x := by rw [hx] at g1; exact (List.append_cancel_left g1).symm
    subst e
    exact g2 a h1

/-! ## The hypotheses are met -/

namespace Sample

/-- stakers 1, 2 and 3 are honest, and data with hash 1 is good -/
def trust : Honesty := ⟨fun a => a ∈ [1, 2, 3], fun _ d => d.dataHash = 1⟩

/-- `trust.Majority`, as a test -/
def most (c : Chain) (id : Nat) : Bool :=
  [1, 2, 3].all (fun a => c.member id a) && c.st.vals.toList.all (fun e => decide (e.2.points + 2 < c.bun.params.maxPoints)) &&
    decide (stakeAll (c.members id) c.del.amount < 2 * ([1, 2, 3].map c.del.amount).sum)

/-- `trust.Allows`, as a test -/
def allowed (c : Chain) : Op → Bool
  | .submit m => decide (m.staker ∉ [1, 2, 3] ∨ m.dataHash = 1) && most c m.pool
  | .vote m => decide (m.staker ∉ [1, 2, 3] ∨ ((m.vote = .valid → (c.proposal m.pool).dataHash = 1) ∧
      (m.vote = .invalid → (c.proposal m.pool).dataHash ≠ 1)))
  | .skip m => most c m.pool
  | .endBlock => false
  | _ => true

theorem most_ok {c : Chain} {id : Nat} (h : most c id = true) : trust.Majority c id := by
  simp only [most, Bool.and_eq_true, List.all_eq_true, decide_eq_true_eq] at h
  exact ⟨[1, 2, 3], by decide, fun a ha => ⟨ha, fun j v hv => h.1.2 _ ((Map.mem_iff _ _ _).2 hv), h.1.1 a ha⟩, h.2⟩

theorem allowed_ok {c : Chain} {op : Op} (h : allowed c op = true) : trust.Allows c op := by
  cases op <;> first
    | (cases h; done)
    | exact ⟨trivial, fun _ hd => absurd hd (fun x => x)⟩
    | skip
  · simp only [allowed, Bool.and_eq_true, decide_eq_true_eq] at h
    exact ⟨fun hh _ => h.1.resolve_left (fun g => g hh), fun j hd _ => by cases hd; exact most_ok h.2⟩
  · simp only [allowed, decide_eq_true_eq] at h
    exact ⟨fun hh _ => h.resolve_left (fun g => g hh), fun _ hd => absurd hd (fun x => x)⟩
  · exact ⟨trivial, fun j hd _ => by cases hd; exact most_ok h⟩

/-- the side conditions of `HonestRun` along a run, as a test -/
def trustRun (c : Chain) : List Op → Bool
  | [] => true
  | op :: l => Delegation.dustOk (c.step Sample.gov op).del.trace && decide (totalAll (c.step Sample.gov op).del < 2 ^ 63)
      && allowed c op && trustRun (c.step Sample.gov op) l

theorem run_trust {c : Chain} (h : HonestRun Sample.gov trust c) (l : List Op) (ho : trustRun c l = true) :
    HonestRun Sample.gov trust (run c l) := by
  induction l generalizing c with
  | nil => exact h
  | cons op l ih =>
    simp only [trustRun, Bool.and_eq_true, decide_eq_true_eq] at ho
    exact ih (.step op h ⟨Delegation.calm_of_dustOk ho.1.1.1, ho.1.1.2⟩ (allowed_ok ho.1.2)) ho.2

theorem trust_start : HonestRun Sample.gov trust start := .init _ _ _ _ _ (by decide) (by decide)
theorem trust_ready : HonestRun Sample.gov trust ready := run_trust trust_start _ (by decide +kernel)

/-- staker 4 proposes bad data, the others vote against it, and a minute later staker 4 is to be judged -/
def lies : Chain := run ready [.claim 14 4 0, .beginBlock 60 0 0 false, .submit { bundle 4 9 0 with dataHash := 2 },
  votes 1 9 .invalid, votes 2 9 .invalid, votes 3 9 .invalid, .beginBlock 60 0 0 false]
/-- staker 4 is slashed by the attempt of staker 1 to submit, which drops the bad data; then staker 1 proposes good data -/
def caught : Chain := run lies [.submit (bundle 1 7 10), .beginBlock 60 0 0 false, .submit (bundle 1 7 0)]
/-- the good data is finalized -/
def truth : Chain := run caught [votes 2 7 .valid, votes 3 7 .valid, .beginBlock 60 0 0 false, .submit (bundle 2 8 10)]

theorem trust_lies : HonestRun Sample.gov trust lies := run_trust trust_ready _ (by decide +kernel)
theorem trust_caught : HonestRun Sample.gov trust caught := run_trust trust_lies _ (by decide +kernel)
theorem trust_truth : HonestRun Sample.gov trust truth := run_trust trust_caught _ (by decide +kernel)

end Sample

/-- bad data was proposed and judged, only staker 4 was slashed, and the finalized bundle is good -/
example : HonestRun Sample.gov Sample.trust Sample.truth ∧ (Sample.lies.data 0).dataHash = 2 ∧
    Sample.truth.slashes.map (·.1) = [4] ∧ (Sample.truth.bundle 0 0).map (·.dataHash) = some 1 :=
  ⟨Sample.trust_truth, by decide +kernel, by decide +kernel, by decide +kernel⟩

/-- the case of C103: the submission that judges the bad data is allowed, and staker 2 is awake -/
example : Sample.trust.Allows Sample.lies (.submit (Sample.bundle 1 7 10)) ∧ Sample.trust.honest 2 ∧ Awake Sample.lies 2 ∧
    Sample.lies.member 0 2 = true :=
  ⟨Sample.allowed_ok (by decide +kernel), (by show (2 : Addr) ∈ [1, 2, 3]; decide),
    fun j v hv => (by
      have h : Sample.lies.st.vals.toList.all (fun e => decide (e.2.points + 2 < Sample.lies.bun.params.maxPoints)) = true := by
        decide +kernel
      rw [List.all_eq_true] at h
      exact of_decide_eq_true (h _ ((Map.mem_iff _ _ _).2 hv))), by decide +kernel⟩

end Verif.Chain
