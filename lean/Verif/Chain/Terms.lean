import Verif.Chain.Exits
import Verif.Funders.Terms

/-!
# C88 on the whole chain: when funding and defunding are accepted, and the terms fundings have to meet
-/

set_option linter.dupNamespace false
namespace Verif.Chain
open Verif
open Chain
open Verif.Funders.Spec (Terms Room leftAfter promisedAfter activeIn)

/-- C33: the pools that can be funded are exactly the pools that exist. -/
theorem Chain.C33_every_pool (gov : Addr) (c : Chain) (h : Reachable gov c) (id : Nat) :
    c.fund.active.has id = true ↔ c.pool.pools.has id = true := by
  have hg := (Reachable.good h).mods
  rw [hg.fund.active id, ← hg.pool.inv.dense id, Stakers.has_iff]

/-- C88: funding is accepted exactly from a registered funder, for an existing pool, with something in the message, with
enough coins on the account, if what the funder will have left and promise meets the terms, and if there is room. -/
theorem Chain.C88_fund_accepted (gov : Addr) (c : Chain) (h : Reachable gov c) (m : Funders.FundMsg) :
    (∃ c', exec gov c (.fund m) = .ok c') ↔
      (∃ d, m.amounts.amt d ≠ 0 ∨ m.perBundle.amt d ≠ 0) ∧ c.fund.funders.has m.creator = true ∧
      c.pool.pools.has m.pool = true ∧
      Terms c.fund.params (fun d => c.left m.pool m.creator d + m.amounts.amt d)
        (fun d => if m.perBundle.amt d = 0 then c.promised m.pool m.creator d else m.perBundle.amt d) ∧
      Room c.fw m ∧ ∀ d, m.amounts.amt d ≤ (c.b (.user m.creator)).amt d := by
  have h1 := Funders.C88_fund_accepted gov c.fw (Reachable.good h).mods.fund.reach (c.pool.pools.has m.pool) m
  have e1 : (∃ c', exec gov c (.fund m) = .ok c') ↔
      ∃ r, Funders.fundPool c.fw.s c.fw.b (c.pool.pools.has m.pool) m = .ok r := by
    constructor
    · rintro ⟨c', he⟩
      obtain ⟨w, hr, -⟩ := map_ok he
      exact ⟨w, hr⟩
    · rintro ⟨r, hr⟩
      have hr' : Funders.fundPool c.fund c.b (c.pool.pools.has m.pool) m = .ok r := hr
      refine ⟨{ c with fund := r.1, b := r.2 }, ?_⟩
      show (Funders.fundPool c.fund c.b (c.pool.pools.has m.pool) m).map _ = _
      rw [hr']; rfl
  rw [e1, h1]
  constructor
  · rintro ⟨a1, a2, a3, -, a5, a6, a7⟩
    exact ⟨a1, a2, a3, a5, a6, a7⟩
  · rintro ⟨a1, a2, a3, a5, a6, a7⟩
    exact ⟨a1, a2, a3, (Chain.C33_every_pool gov c h m.pool).2 a3, a5, a6, a7⟩

/-- C88: an accepted funding adds exactly the coins of the message to what is left, the funder promises what the message
says (or what it promised before, for coins the message does not name), is active, and the terms are met. -/
theorem Chain.C88_fund (gov : Addr) (c c' : Chain) (h : Reachable gov c) (m : Funders.FundMsg)
    (he : exec gov c (.fund m) = .ok c') :
    (∀ d, c'.left m.pool m.creator d = c.left m.pool m.creator d + m.amounts.amt d) ∧
    (∀ d, c'.left m.pool m.creator d ≠ 0 → c'.promised m.pool m.creator d =
      if m.perBundle.amt d = 0 then c.promised m.pool m.creator d else m.perBundle.amt d) ∧
    m.creator ∈ activeIn c'.fw m.pool ∧ Terms c'.fund.params (c'.left m.pool m.creator) (c'.promised m.pool m.creator) := by
  obtain ⟨r, hr, rfl⟩ := map_ok he
  obtain ⟨h1, h2, h3, -, h5⟩ := Funders.C88_fund gov c.fw (Reachable.good h).mods.fund.reach _ m r.1 r.2 hr
  exact ⟨h1, h2, h3, h5⟩

/-- C88: defunding is accepted exactly if the funder gets something and what remains meets the terms; one may ask for
more than is left. -/
theorem Chain.C88_defund_accepted (gov : Addr) (c : Chain) (h : Reachable gov c) (m : Funders.DefundMsg) :
    (∃ c', exec gov c (.defund m) = .ok c') ↔
      (∃ d, m.amounts.amt d ≠ 0 ∧ c.left m.pool m.creator d ≠ 0) ∧
      Terms c.fund.params (fun d => c.left m.pool m.creator d - m.amounts.amt d) (c.promised m.pool m.creator) := by
  rw [show (∃ c', exec gov c (.defund m) = .ok c') ↔ ∃ r, Funders.defundPool c.fw.s c.fw.b m = .ok r from ?_]
  · exact Funders.C88_defund_accepted gov c.fw (Reachable.good h).mods.fund.reach m
  · constructor
    · rintro ⟨c', he⟩
      obtain ⟨w, hr, -⟩ := map_ok he
      exact ⟨w, hr⟩
    · rintro ⟨r, hr⟩
      have hr' : Funders.defundPool c.fund c.b m = .ok r := hr
      refine ⟨{ c with fund := r.1, b := r.2 }, ?_⟩
      show (Funders.defundPool c.fund c.b m).map _ = _
      rw [hr']; rfl

/-- C88: an accepted defunding pays, of every coin, what is asked for or all that is left; the rest meets the terms. -/
theorem Chain.C88_defund (gov : Addr) (c c' : Chain) (h : Reachable gov c) (m : Funders.DefundMsg)
    (he : exec gov c (.defund m) = .ok c') :
    Transfers (.mod .funders) (.user m.creator) (fun d => min (c.left m.pool m.creator d) (m.amounts.amt d)) c.b c'.b ∧
    (∀ d, c'.left m.pool m.creator d = c.left m.pool m.creator d - m.amounts.amt d) ∧
    (∀ d, c'.left m.pool m.creator d ≠ 0 → c'.promised m.pool m.creator d = c.promised m.pool m.creator d) ∧
    Terms c'.fund.params (c'.left m.pool m.creator) (c'.promised m.pool m.creator) := by
  obtain ⟨r, hr, rfl⟩ := map_ok he
  have hR := (Reachable.good h).mods.fund.reach
  obtain ⟨h1, h2⟩ := Funders.C88_defund gov c.fw hR m r.1 r.2 hr
  have h3 := (Funders.C36_defund gov c.fw hR m r.1 r.2 hr).1
  refine ⟨?_, fun d => ?_, h1, h2⟩
  · obtain ⟨l, f, f', hf, -, -, -, hsend, -⟩ := Funders.defund_ok (w := c.fw) (s' := r.1) (b' := r.2) hr
    have ht := transfers_of_send (by rintro ⟨⟩) hsend
    have e : (f.amounts.min m.amounts).amt = fun d => min (c.left m.pool m.creator d) (m.amounts.amt d) := by
      funext d
      rw [Coins.amt_min]
      unfold Chain.left
      rw [Funders.left_eq hf]
    rw [e] at ht
    exact ht
  · have h4 := h3 d
    have h4 : _ = c.left m.pool m.creator d - min (c.left m.pool m.creator d) (m.amounts.amt d) := h4
    have h5 : ∀ x y : Nat, x - min x y = x - y := fun x y => by omega
    rw [h5] at h4
    exact h4

/-- the funder of the sample chain may take half of its coins, may not leave less than the minimum, may take all; and it
may not fund with a promise below the minimum -/
example : (∃ c', exec Sample.gov Sample.second (.defund ⟨50, 0, Coins.single kyve 900000000⟩) = .ok c') ∧
    (¬ ∃ c', exec Sample.gov Sample.second (.defund ⟨50, 0, Coins.single kyve 1900000000⟩) = .ok c') ∧
    (∃ c', exec Sample.gov Sample.second (.defund ⟨50, 0, Coins.single kyve 2900000000⟩) = .ok c') ∧
    ¬ ∃ c', exec Sample.gov Sample.second (.fund ⟨50, 0, Coins.single kyve 1, Coins.single kyve 99999⟩) = .ok c' := by
  have ok : ∀ r : Except String Chain, r.isOk = true → ∃ c', r = .ok c' := by
    intro r h; cases r with
    | ok c => exact ⟨c, rfl⟩
    | error e => cases h
  have no : ∀ r : Except String Chain, r.isOk = false → ¬ ∃ c', r = .ok c' := by
    rintro r h ⟨c', rfl⟩; cases h
  exact ⟨ok _ (by decide +kernel), no _ (by decide +kernel), ok _ (by decide +kernel), no _ (by decide +kernel)⟩

/-- the terms are met by the funding of the sample chain -/
example : Terms Sample.ready.fund.params (Sample.ready.left 0 50) (Sample.ready.promised 0 50) :=
  (Chain.C88_fund Sample.gov (Sample.run Sample.start (Sample.setup.take 10)) Sample.ready
    (Sample.run_reachable Sample.reach_start _ (by decide +kernel))
    ⟨50, 0, Coins.single kyve 2000000000, Coins.single kyve 1000000⟩ rfl).2.2.2

end Verif.Chain
