import Verif.Chain.Fundings
import Verif.Chain.RoundTrip
import Verif.Chain.History
import Verif.Chain.SampleReach

/-!
# C111: how long a funding lasts

A funder that signs nothing pays, for every finalized bundle of the pool, exactly what it promised per bundle, until nothing
is left, or until another funder takes its place; then the rest is back on its account.
-/

set_option linter.dupNamespace false
namespace Verif.Chain
open Verif
open Chain

/-! ## specification -/

/-- the number of finalized bundles of a pool, as the pool's page shows it (`C23_chain`: they are numbered from 0 to this) -/
def Chain.published (c : Chain) (id : Nat) : Nat := ((c.pool.pools.get? id).map (·.totalBundles)).getD 0

/-- a history in which `a` signs nothing and coin `d` is on the whitelist all the time; what happens outside of the modelled
modules takes no coin `d` from the account of `a` -/
inductive Idle (gov a : Addr) (d : Denom) (c : Chain) : Chain → Prop
  | refl : Idle gov a d c c
  | step {x : Chain} (op : Op) : Idle gov a d c x → op.inner = true → op.signer ≠ some a →
      Funders.Spec.whitelisted x.fw d → Sane (x.step gov op) → Idle gov a d c (x.step gov op)
  | outside {x : Chain} (b : Bank) (gd gs gf : Coins) : Idle gov a d c x → x.crashed = false →
      (x.b (.user a)).amt d ≤ (b (.user a)).amt d → Idle gov a d c (x.external b gd gs gf)

/-- what is left of coin `d` after `n` bundles at the promised price -/
def Chain.atPrice (c : Chain) (id : Nat) (a : Addr) (d : Denom) (n : Nat) : Nat :=
  c.left id a d - n * c.promised id a d

/-- between `c` and `x` the funder has paid for all bundles of the pool, each at the promised price, and nothing else -/
structure PaidAll (id : Nat) (a : Addr) (d : Denom) (c x : Chain) : Prop where
  coins : x.left id a d = c.atPrice id a d (x.published id - c.published id)
  terms : x.left id a d ≠ 0 → x.promised id a d = c.promised id a d
  account : (c.b (.user a)).amt d ≤ (x.b (.user a)).amt d

/-- between `c` and `x` another funder has taken the place; the funder has paid for the bundles up to then, and the rest is
back on its account -/
structure PaidBack (id : Nat) (a : Addr) (d : Denom) (c x : Chain) : Prop where
  coins : x.left id a d = 0
  account : ∃ n, n ≤ x.published id - c.published id ∧
    (c.b (.user a)).amt d + c.atPrice id a d n ≤ (x.b (.user a)).amt d

namespace Chain

/-! ## proofs -/

/-- an operation finalizes no bundle of the pool, or exactly one -/
theorem published_step {gov : Addr} {c : Chain} (h : Reachable gov c) (op : Op) {id : Nat} {p : Pool.Pool}
    (hp : c.pool.pools.get? id = some p) :
    (¬ NewBundle id c (c.step gov op) ∧ (c.step gov op).published id = c.published id) ∨
    (NewBundle id c (c.step gov op) ∧ (c.step gov op).published id = c.published id + 1) := by
  rcases bundles_step h op id with s | ⟨pl, v, hpl, hf⟩
  · left
    refine ⟨no_bundle s.fin, ?_⟩
    obtain ⟨p', h1, h2⟩ := s.info p hp
    unfold published
    rw [h1, hp]
    exact h2.1
  · right
    obtain ⟨p', h1, h2, -⟩ := hf.pool
    refine ⟨⟨pl.totalBundles, ?_, ?_⟩, ?_⟩
    · cases hb : c.bundle id pl.totalBundles with
      | none => rfl
      | some f =>
        have := ((h.good.bun.chained id pl hpl).dense pl.totalBundles).1 ⟨f, hb⟩
        omega
    · have := hf.fin pl.totalBundles
      rw [if_pos rfl] at this
      show (c.step gov op).bun.finalized.get? (id, pl.totalBundles) ≠ none
      rw [this]
      simp
    · unfold published
      rw [h1, hpl]
      exact h2

theorem Idle.reachable {gov a : Addr} {d : Denom} {c x : Chain} (h : Reachable gov c) (hx : Idle gov a d c x) :
    Reachable gov x := by
  induction hx with
  | refl => exact h
  | step op _ _ _ _ hs ih => exact .step op ih hs
  | outside b gd gs gf _ hc _ ih => exact reachable_external ih hc b gd gs gf

theorem Idle.pool {gov a : Addr} {d : Denom} {c x : Chain} (h : Reachable gov c) (hx : Idle gov a d c x) {id : Nat}
    {p : Pool.Pool} (hp : c.pool.pools.get? id = some p) :
    (∃ p', x.pool.pools.get? id = some p') ∧ c.published id ≤ x.published id := by
  induction hx with
  | refl => exact ⟨⟨p, hp⟩, Nat.le_refl _⟩
  | step op hx' _ _ _ _ ih =>
    obtain ⟨⟨p', h1⟩, h2⟩ := ih
    refine ⟨pool_stays (Idle.reachable h hx') op h1, ?_⟩
    rcases published_step (Idle.reachable h hx') op h1 with ⟨-, e⟩ | ⟨-, e⟩ <;> rw [e] <;> omega
  | outside b gd gs gf _ _ _ ih => exact ih

/-- one operation of somebody else -/
theorem idle_step {gov : Addr} {x : Chain} (h : Reachable gov x) (op : Op) (ho : op.inner = true) {a : Addr}
    (ha : op.signer ≠ some a) {d : Denom} (hw : Funders.Spec.whitelisted x.fw d) (hs : Sane (x.step gov op)) {id : Nat}
    {p : Pool.Pool} (hp : x.pool.pools.get? id = some p) :
    ((x.step gov op).left id a d =
        x.left id a d - ((x.step gov op).published id - x.published id) * x.promised id a d ∧
      ((x.step gov op).left id a d ≠ 0 → (x.step gov op).promised id a d = x.promised id a d)) ∨
    ((x.step gov op).left id a d = 0 ∧ (x.step gov op).published id = x.published id ∧
      ((x.step gov op).b (.user a)).amt d = (x.b (.user a)).amt d + x.left id a d) := by
  have hact : x.left id a d ≠ 0 → a ∈ Funders.Spec.activeIn x.fw id :=
    (Funders.C33_active gov x.fw h.good.mods.fund.reach id).2.2 a d
  have hpub := published_step h op hp
  rcases C84_fundings gov x h op hs ho id a ha with hu | hb | ⟨m, rfl, -, -, -, -, hr⟩
  · left
    refine ⟨?_, hu.terms d⟩
    rw [hu.coins]
    rcases hpub with ⟨-, e⟩ | ⟨hn, -⟩
    · rw [e]; simp
    · have h0 : x.left id a d = 0 := by
        by_contra hne
        exact hu.idle (hact hne) hn
      rw [h0]; simp
  · left
    obtain ⟨hn, -, hd⟩ := hb
    obtain ⟨h1, -, h3⟩ := hd d
    refine ⟨?_, h3⟩
    have h1 := h1 hw
    rcases hpub with ⟨hn', -⟩ | ⟨-, e⟩
    · exact absurd hn hn'
    · rw [e, Nat.add_sub_cancel_left, Nat.one_mul]
      omega
  · right
    obtain ⟨h1, h2⟩ := hr d
    refine ⟨h1, ?_, h2⟩
    rcases hpub with ⟨-, e⟩ | ⟨hn, -⟩
    · exact e
    · exact absurd hn (no_bundle fun i => by
        have := (plain_step (gov := gov) h (op := .fund m) rfl).fin
        rw [this])

end Chain

/-- C111: as long as the funder signs nothing and the coin is on the whitelist, the funder has paid for every bundle of the
pool that became final exactly what it promised, as far as it had it; or another funder has taken its place and what was left
at that time is back on its account. -/
theorem Chain.C111_lasts (gov : Addr) (c x : Chain) (h : Reachable gov c) (id : Nat) (p : Pool.Pool)
    (hp : c.pool.pools.get? id = some p) (a : Addr) (d : Denom) (hx : Idle gov a d c x) :
    PaidAll id a d c x ∨ PaidBack id a d c x := by
  induction hx with
  | refl =>
    left
    refine ⟨?_, fun _ => rfl, Nat.le_refl _⟩
    unfold atPrice
    simp
  | @step y op hy ho ha hw hs ih =>
    have hr := Idle.reachable h hy
    obtain ⟨⟨p', hp'⟩, hle⟩ := Idle.pool h hy hp
    have hacc := C81_coins gov y hr op ho a d
    rw [if_neg ha, Nat.add_zero] at hacc
    have hpub := published_step hr op hp'
    have hmono : y.published id ≤ (y.step gov op).published id := by
      rcases hpub with ⟨-, e⟩ | ⟨-, e⟩ <;> omega
    have hstep := idle_step hr op ho ha hw hs hp'
    generalize y.step gov op = z at *
    rcases ih with ih | ih
    · rcases hstep with ⟨h1, h2⟩ | ⟨h1, h2, h3⟩
      · left
        refine ⟨?_, fun hz => ?_, le_trans ih.account hacc⟩
        · by_cases h0 : y.left id a d = 0
          · have e := ih.coins
            rw [h0] at e
            rw [h1, h0, Nat.zero_sub]
            unfold atPrice at e ⊢
            have : (y.published id - c.published id) * c.promised id a d ≤
                (z.published id - c.published id) * c.promised id a d := Nat.mul_le_mul_right _ (by omega)
            omega
          · rw [h1, ih.terms h0, ih.coins]
            unfold atPrice
            rw [Nat.sub_sub, ← Nat.add_mul]
            congr 2
            omega
        · have h0 : y.left id a d ≠ 0 := by
            intro h0
            rw [h1, h0, Nat.zero_sub] at hz
            exact hz rfl
          rw [h2 hz, ih.terms h0]
      · right
        refine ⟨h1, y.published id - c.published id, by omega, ?_⟩
        rw [← ih.coins, h3]
        have := ih.account
        omega
    · right
      obtain ⟨n, hn, hn'⟩ := ih.account
      refine ⟨?_, n, by omega, le_trans hn' hacc⟩
      rcases hstep with ⟨h1, -⟩ | ⟨h1, -⟩
      · rw [h1, ih.coins, Nat.zero_sub]
      · exact h1
  | outside b gd gs gf _ _ hd ih =>
    rcases ih with ih | ih
    · exact Or.inl ⟨ih.coins, ih.terms, le_trans ih.account hd⟩
    · obtain ⟨n, hn, hn'⟩ := ih.account
      exact Or.inr ⟨ih.coins, n, hn, le_trans hn' hd⟩

/-- C111: so nobody but the funder can make it pay more than the promised price of the bundles that became final. -/
theorem Chain.C111_price (gov : Addr) (c x : Chain) (h : Reachable gov c) (id : Nat) (p : Pool.Pool)
    (hp : c.pool.pools.get? id = some p) (a : Addr) (d : Denom) (hx : Idle gov a d c x) :
    (c.b (.user a)).amt d + c.left id a d ≤ (x.b (.user a)).amt d + x.left id a d +
      (x.published id - c.published id) * c.promised id a d := by
  rcases C111_lasts gov c x h id p hp a d hx with hx | hx
  · have h1 := hx.coins
    have h2 := hx.account
    unfold atPrice at h1
    omega
  · obtain ⟨n, h1, h2⟩ := hx.account
    unfold atPrice at h2
    have : n * c.promised id a d ≤ (x.published id - c.published id) * c.promised id a d := Nat.mul_le_mul_right _ h1
    omega

/-! ## examples -/

namespace Sample

/-- the side conditions of `Idle` along a run, as a test -/
def okIdle (a : Addr) (d : Denom) (c : Chain) : List Op → Bool
  | [] => true
  | op :: l => op.inner && decide (op.signer ≠ some a) && c.fund.params.listed d &&
      Delegation.dustOk (c.step gov op).del.trace && decide (Delegation.totalAll (c.step gov op).del < 2 ^ 63) &&
      okIdle a d (c.step gov op) l

theorem run_idle {a : Addr} {d : Denom} {c x : Chain} (h : Idle gov a d c x) (l : List Op) (ho : okIdle a d x l = true) :
    Idle gov a d c (run x l) := by
  induction l generalizing x with
  | nil => exact h
  | cons op l ih =>
    simp only [okIdle, Bool.and_eq_true, decide_eq_true_eq] at ho
    obtain ⟨⟨⟨⟨⟨h1, h2⟩, h3⟩, h4⟩, h5⟩, h6⟩ := ho
    exact ih (.step op h h1 h2 ((Funders.listed_iff x.fw d).1 h3) ⟨Delegation.calm_of_dustOk h4, h5⟩) h6

/-- the second bundle is voted on and, with the third submission, becomes final -/
def third : Chain :=
  run second [votes 2 8 .valid, votes 3 8 .valid, votes 4 8 .valid, .beginBlock 60 0 0 false]
def thirdBundle : Chain := run third [.submit (bundle (third.proposal 0).nextUploader.get! 9 20)]

end Sample

/-- funder 50 put 2000 coins into the pool and promised one per bundle: two bundles cost it two coins -/
example : Idle Sample.gov 50 kyve Sample.ready Sample.thirdBundle ∧ Sample.thirdBundle.published 0 = 2 ∧
    Sample.ready.published 0 = 0 ∧ Sample.ready.left 0 50 kyve = 2000000000 ∧
    Sample.ready.promised 0 50 kyve = 1000000 ∧ Sample.thirdBundle.left 0 50 kyve = 1998000000 := by
  refine ⟨Sample.run_idle (Sample.run_idle (Sample.run_idle (Sample.run_idle (Sample.run_idle (Sample.run_idle .refl _ ?_)
    _ ?_) _ ?_) _ ?_) _ ?_) _ ?_, ?_⟩ <;> decide +kernel

/-- the place is taken: all 2000 coins come back -/
example : Idle Sample.gov 50 kyve Sample.ready (Sample.run Sample.crowded [Sample.puts 200 3000000000]) ∧
    (Sample.run Sample.crowded [Sample.puts 200 3000000000]).left 0 50 kyve = 0 ∧
    ((Sample.run Sample.crowded [Sample.puts 200 3000000000]).b (.user 50)).amt kyve =
      (Sample.ready.b (.user 50)).amt kyve + 2000000000 := by
  refine ⟨Sample.run_idle (Sample.run_idle .refl _ ?_) _ ?_, ?_⟩ <;> decide +kernel

end Verif.Chain
