import Verif.Chain.Fundings

/-!
# C85: the commission rewards of a staker

What a staker has earned for its bundles and has not claimed yet becomes less only by the staker's own claims, which pay
exactly the claimed coins to it, and becomes more only when a bundle it uploaded becomes final.
-/

set_option linter.dupNamespace false
namespace Verif.Chain
open Verif
open Chain

/-! ## specification -/

/-- the rewards staker `a` could claim -/
def Chain.unclaimed (c : Chain) (a : Addr) (d : Denom) : Nat := (c.st.unclaimed a).amt d

/-- between the two states a bundle of pool `id` uploaded by `a` became final -/
def Uploaded (a : Addr) (id : Nat) (c c' : Chain) : Prop :=
  NewBundle id c c' ∧ (c.proposal id).uploader = some a

namespace Chain

/-! ## proofs -/

/-- the rewards of `a` are not less, and the same without a bundle of `a` -/
def Grows (a : Addr) (c c' : Chain) : Prop :=
  (∀ d, c.unclaimed a d ≤ c'.unclaimed a d) ∧ ((∀ id, ¬ Uploaded a id c c') → ∀ d, c'.unclaimed a d = c.unclaimed a d)

theorem Grows.of_eq {a : Addr} {c c' : Chain} (h : c'.st.unclaimed a = c.st.unclaimed a) : Grows a c c' := by
  have e : ∀ d, c'.unclaimed a d = c.unclaimed a d := fun d => by unfold unclaimed; rw [h]
  exact ⟨fun d => (e d).ge, fun _ => e⟩

theorem unclaimed_reward (c : Chain) (a : Addr) (d : Denom) : c.unclaimed a d = c.rewardOf a d := by
  unfold unclaimed rewardOf Stakers.State.unclaimed
  cases c.st.stakers.get? a <;> rfl

theorem grows_stakers {a : Addr} {c c' : Chain} (h : c'.st.stakers = c.st.stakers) : Grows a c c' :=
  Grows.of_eq (by unfold Stakers.State.unclaimed; rw [h])

theorem settles_rewards {id : Nat} {c c' : Chain} (h : Settles id c c') (a : Addr) :
    (∀ d, c.unclaimed a d ≤ c'.unclaimed a d) ∧ (¬ Uploaded a id c c' → ∀ d, c'.unclaimed a d = c.unclaimed a d) := by
  rcases h with ⟨hn, u, f, r, hu, -, hp, -⟩ | ⟨-, hm⟩
  · have e : ∀ d, c'.rewardOf a d = c.rewardOf a d + (if a = u then r.storage.amt d + r.commission.amt d else 0) :=
      fun d => hp.uploader a d
    refine ⟨fun d => ?_, fun hx d => ?_⟩
    · rw [unclaimed_reward, unclaimed_reward, e d]; exact Nat.le_add_right _ _
    · rw [unclaimed_reward, unclaimed_reward, e d, if_neg (fun e => hx ⟨hn, by rw [e]; exact hu⟩)]; rfl
  · have e := (grows_stakers (a := a) (c := c) (c' := c') hm.stakers)
    exact ⟨e.1, fun _ d => by unfold unclaimed Stakers.State.unclaimed; rw [hm.stakers]⟩

theorem handled_apart {gov : Addr} {l : List (Nat × Pool.Pool)} {c c' : Chain} (h : Handled gov l c c') {id : Nat}
    (hn : id ∉ l.map (·.1)) : Apart id c c' := by
  induction h with
  | nil _ => exact Apart.refl _ _
  | cons hw hp hv _ ih =>
    rw [List.map_cons, List.mem_cons, not_or] at hn
    exact (apart_visit hn.1 (Well.keyed hw) hv).trans (ih hn.2)

theorem Apart.bundle {id : Nat} {c c' : Chain} (h : Apart id c c') (i : Nat) : c'.bundle id i = c.bundle id i := h.fin i

theorem handled_rewards {gov : Addr} {l : List (Nat × Pool.Pool)} {c c' : Chain} (h : Handled gov l c c')
    (hl : (l.map (·.1)).Nodup) (a : Addr) : Grows a c c' := by
  induction h with
  | nil _ => exact Grows.of_eq rfl
  | @cons e l c d c' hw hp hv ht ih =>
    rw [List.map_cons, List.nodup_cons] at hl
    obtain ⟨h1, h2⟩ := ih hl.2
    obtain ⟨g1, g2⟩ := settles_rewards (settles_visit hw hp hv) a
    have hlast := handled_apart ht hl.1
    refine ⟨fun k => le_trans (g1 k) (h1 k), fun hno k => ?_⟩
    rw [h2 ?_ k, g2 ?_ k]
    · rintro ⟨⟨i, n1, n2⟩, hu⟩
      exact hno e.1 ⟨⟨i, n1, by rw [Apart.bundle hlast]; exact n2⟩, hu⟩
    · rintro id ⟨⟨i, n1, n2⟩, hu⟩
      by_cases hi : id = e.1
      · subst hi
        rw [Apart.bundle hlast] at n2
        exact n2 n1
      · have ha := apart_visit hi (Well.keyed hw) hv
        refine hno id ⟨⟨i, by rw [← Apart.bundle ha]; exact n1, n2⟩, ?_⟩
        rw [← hu]
        unfold Chain.proposal Bundles.State.proposal
        rw [ha.stored]

/-- the operation of x/stakers a message or block performs -/
def stOp (c : Chain) : Op → Option Stakers.Op
  | .vote m => some (.resetPoints m.pool m.staker)
  | .createStaker a k _ => some (.createStaker a k true)
  | .join m => some (.join (c.poolAnswer m.pool) c.del.amount m)
  | .leave a id => some (.leave a id)
  | .updateCommission a k => some (.updateCommission a k)
  | .updateMetadata a i v => some (.updateMetadata a i v)
  | .claimRewards a x => some (.claim a x)
  | .stakersParams a y => some (.updateParams a y)
  | .beginBlock dt _ _ _ => some (.beginBlock dt)
  | _ => none

theorem afterSplit_st (c : Chain) (r : Bool) (o : Option Chain) (s : Stakers.State)
    (h : ∀ x, o = some x → Stakers.beginBlock x.st x.now = s) :
    (c.afterSplit r o).st = c.st ∨ (c.afterSplit r o).st = s := by
  unfold afterSplit
  split
  · exact Or.inr (h _ rfl)
  · exact Or.inl rfl

/-- everything but tallies and the disabling of a pool -/
theorem st_exec (gov : Addr) (c c' : Chain) (op : Op) (ho : op.inner = true) (he : exec gov c op = .ok c')
    (h1 : ∀ m, op ≠ .submit m) (h2 : ∀ m, op ≠ .skip m) (h3 : op ≠ .endBlock) (h4 : ∀ a id, op ≠ .disablePool a id) :
    c'.st = c.st ∨ ∃ o, c.stOp op = some o ∧ c'.st = (Stakers.Sys.step gov ⟨c.sw, c.now⟩ o).w.s := by
  have via : ∀ {s s' : Stakers.State} {w : Stakers.World} {r : Except String Stakers.State}, r = .ok s' → s = s' →
      s = (Stakers.orElseS w r).s := by rintro s s' w r rfl rfl; rfl
  cases op with
  | submit m => exact absurd rfl (h1 m)
  | skip m => exact absurd rfl (h2 m)
  | endBlock => exact absurd rfl h3
  | disablePool a id => exact absurd rfl (h4 a id)
  | vote m =>
    obtain ⟨-, p, -, rfl⟩ := vote_ok he
    exact Or.inr ⟨_, rfl, rfl⟩
  | claim x y j =>
    obtain ⟨-, -, -, rfl⟩ := claim_ok he
    exact Or.inl rfl
  | createStaker x k n =>
    right
    refine ⟨_, rfl, ?_⟩
    have he' : c.createStaker x k n = .ok c' := he
    unfold createStaker at he'
    split at he'
    · cases he'
    · rename_i s hs
      split at he'
      · cases he'
      · cases he'; exact via hs rfl
  | join m =>
    obtain ⟨w, hw, rfl⟩ := join_eq he
    right
    refine ⟨_, rfl, ?_⟩
    show (Stakers.noteGift m c.sw w).s = (Stakers.joinStep c.sw c.now (c.poolAnswer m.pool) c.del.amount m).s
    unfold Stakers.joinStep
    rw [hw]
  | leave | updateCommission | updateMetadata | stakersParams =>
    obtain ⟨s, hr, rfl⟩ := map_ok he
    exact Or.inr ⟨_, rfl, via hr rfl⟩
  | claimRewards x k =>
    obtain ⟨w, hr, rfl⟩ := map_ok he
    right
    refine ⟨_, rfl, ?_⟩
    show w.s = (Stakers.orElse c.sw (Stakers.claimRewards c.sw x k)).s
    rw [hr]; rfl
  | updatePool | enablePool | scheduleUpgrade | cancelUpgrade | createFunder | fundersParams | fund | defund
    | bundlesParams | poolParams | delegate | redelegate | undelegate | withdraw | delegationParams =>
    obtain ⟨s, hr, rfl⟩ := map_ok he
    exact Or.inl rfl
  | createPool m =>
    obtain ⟨s, -, rfl⟩ := createPool_eq he
    exact Or.inl rfl
  | beginBlock dt pr te r =>
    injection he with he
    rw [← he]
    rcases afterSplit_st c r ((c.newBlock dt r).splitInflation pr te) (Stakers.beginBlock c.st (c.now + dt)) (fun x hx => by
      obtain ⟨b, hl, rfl, -⟩ := splitInflation_eq hx
      rfl) with e | e
    · exact Or.inl e
    · exact Or.inr ⟨_, rfl, e⟩
  | external b gd gs gf => cases ho

theorem kickAll_stakers (id : Nat) (l : List Addr) (c : Chain) : (kickAll id l c).st.stakers = c.st.stakers := by
  induction l generalizing c with
  | nil => rfl
  | cons a l ih =>
    show (kickAll id l (c.kick id a)).st.stakers = _
    rw [ih (c.kick id a)]
    exact (Stakers.kick_same c.st c.now id a).stakers

theorem disable_stakers {gov : Addr} {c c' : Chain} {x : Addr} {id : Nat} (h : disablePool gov c x id = .ok c') :
    c'.st.stakers = c.st.stakers := by
  unfold disablePool at h
  split at h
  · cases h
  · unfold drain at h
    split at h
    · cases h; rw [kickAll_stakers]
    · split at h
      · cases h
      · split at h
        · cases h
        · cases h
          show (kickAll _ _ _).st.stakers = _
          rw [kickAll_stakers]

theorem stOp_ok {gov : Addr} {c : Chain} (h : Reachable gov c) {op : Op} {o : Stakers.Op} (ho : c.stOp op = some o) :
    o.ok := by
  cases op <;> simp only [stOp, Option.some.injEq, reduceCtorEq] at ho <;> subst ho <;> try exact trivial
  exact (Reachable.good h).sound.amt

theorem rewards_exec (gov : Addr) (c c' : Chain) (h : Reachable gov c) (hs : Sane c') (op : Op) (ho : op.inner = true)
    (he : exec gov c op = .ok c') (a : Addr) (ha : ∀ x, op ≠ .claimRewards a x) : Grows a c c' := by
  have hg := Reachable.good h
  by_cases g1 : ∃ m, op = .submit m
  · obtain ⟨m, rfl⟩ := g1
    obtain ⟨k1, k2⟩ := settles_rewards (settles_submit hg he) a
    exact ⟨k1, fun hn => k2 (hn m.pool)⟩
  by_cases g2 : ∃ m, op = .skip m
  · obtain ⟨m, rfl⟩ := g2
    obtain ⟨k1, k2⟩ := settles_rewards (settles_skip hg he) a
    exact ⟨k1, fun hn => k2 (hn m.pool)⟩
  by_cases g3 : op = .endBlock
  · subst g3
    injection he with he
    subst he
    rcases endBlock_handled h hs with e | hh
    · rw [e]; exact Grows.of_eq rfl
    · exact handled_rewards hh (Map.keys_nodup _) a
  by_cases g4 : ∃ x id, op = .disablePool x id
  · obtain ⟨x, id, rfl⟩ := g4
    exact grows_stakers (disable_stakers he)
  push Not at g1 g2 g4
  rcases st_exec gov c c' op ho he g1 g2 g3 g4 with e | ⟨o, e1, e2⟩
  · exact Grows.of_eq (by rw [e])
  · apply Grows.of_eq
    rw [e2]
    refine Stakers.C18_only gov ⟨c.sw, c.now⟩ hg.mods.st o (stOp_ok h e1) a (fun x hx => ?_) (fun x hx => ?_)
    · subst hx
      cases op <;> simp only [stOp, Option.some.injEq, reduceCtorEq] at e1
      injection e1 with e3 e4
      exact ha x (by rw [e3, e4])
    · subst hx
      cases op <;> simp only [stOp, Option.some.injEq, reduceCtorEq] at e1

end Chain

/-- C85: whatever happens, except a claim of the staker itself, its unclaimed rewards do not become less, and they stay
the same unless a bundle it uploaded became final.  (How much is added for a bundle: `C22_finalized`, `C22_endBlock`.) -/
theorem Chain.C85_commission (gov : Addr) (c : Chain) (h : Reachable gov c) (op : Op) (hs : Sane (c.step gov op))
    (ho : op.inner = true) (a : Addr) (ha : ∀ x, op ≠ .claimRewards a x) (d : Denom) :
    c.unclaimed a d ≤ (c.step gov op).unclaimed a d ∧
      ((∀ id, ¬ Uploaded a id c (c.step gov op)) → (c.step gov op).unclaimed a d = c.unclaimed a d) := by
  have key : Grows a c (c.step gov op) := by
    unfold step at hs ⊢
    split
    · exact Grows.of_eq rfl
    · rename_i hc
      rw [if_neg hc] at hs
      cases he : exec gov c op with
      | error e => exact Grows.of_eq rfl
      | ok c' =>
        rw [he] at hs
        exact rewards_exec gov c c' h hs op ho he a ha
  exact ⟨key.1 d, fun hn => key.2 hn d⟩

/-- C85: a claim that is accepted pays exactly the claimed coins to the staker and takes them from its rewards. -/
theorem Chain.C85_claim (gov : Addr) (c c' : Chain) (a : Addr) (x : Coins)
    (he : exec gov c (.claimRewards a x) = .ok c') (d : Denom) :
    x.amt d ≤ c.unclaimed a d ∧ c'.unclaimed a d + x.amt d = c.unclaimed a d ∧
      (c'.b (.user a)).amt d = (c.b (.user a)).amt d + x.amt d := by
  obtain ⟨w, hr, rfl⟩ := map_ok he
  obtain ⟨h1, h2, h3, -⟩ := Stakers.C18_claim c.sw w a x hr d
  exact ⟨h1, h2, h3⟩

/-- C85: a claim is accepted exactly from a staker that claims something and no more than it has. -/
theorem Chain.C85_accepted (gov : Addr) (c : Chain) (h : Reachable gov c) (a : Addr) (x : Coins) :
    (∃ c', exec gov c (.claimRewards a x) = .ok c') ↔
      c.st.stakers.has a = true ∧ (∃ d, x.amt d ≠ 0) ∧ ∀ d, x.amt d ≤ c.unclaimed a d := by
  rw [show (∀ d, x.amt d ≤ c.unclaimed a d) ↔ (∀ d, x.amt d ≤ (c.sw.s.unclaimed a).amt d) from Iff.rfl,
    show c.st.stakers.has a = c.sw.s.stakers.has a from rfl,
    ← Stakers.C18_claim_accepted gov ⟨c.sw, c.now⟩ (Reachable.good h).mods.st a x]
  constructor
  · rintro ⟨c', he⟩
    obtain ⟨w, hr, -⟩ := map_ok he
    exact ⟨w, hr⟩
  · rintro ⟨w, hr⟩
    refine ⟨c.withSt w, ?_⟩
    show (Stakers.claimRewards c.sw a x).map c.withSt = _
    have hr' : Stakers.claimRewards c.sw a x = .ok w := hr
    rw [hr']; rfl

/-- the first bundle becomes final: its uploader, staker 1, gets commission and the storage cost -/
example : Uploaded 1 0 Sample.later Sample.second ∧ Sample.later.unclaimed 1 kyve = 0 ∧
    0 < Sample.second.unclaimed 1 kyve ∧ Sample.second.unclaimed 2 kyve = 0 :=
  ⟨⟨⟨0, by decide +kernel, by decide +kernel⟩, by decide +kernel⟩, by decide +kernel⟩
/-- it claims half of it -/
example : (Sample.run Sample.second [.claimRewards 1 (Coins.single kyve 50000)]).unclaimed 1 kyve + 50000 =
    Sample.second.unclaimed 1 kyve := by decide +kernel

end Verif.Chain
