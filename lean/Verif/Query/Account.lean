import Mathlib.Data.List.Sort
import Verif.Query.Answers
import Verif.Delegation.Examples
import Verif.Funders.Properties

/-!
# x/query: what an account owns

`AccountRedelegation`, `AccountAssets`, `AccountDelegationUnbondings` and `AccountFundedList`.  The indices these queries
iterate (delegator by delegation, unbonding by delegator, funding by funder) are written and deleted together with the
entries they point to (x/delegation/keeper/getters_delegator.go:22-35, 67-84, getters_undelegation.go:21-62,
x/funders/keeper/getters_funding.go:91-107), so the model reads the entries.
-/

set_option linter.dupNamespace false

namespace Verif.Delegation
open Verif

/-! ## C60: redelegation slots -/

/-- x/query/keeper/grpc_account_redelegation.go:18-33: (creation, finish) of the entries that are not finished; the sum
is a `uint64` -/
def redelegationEntries (s : State) (now : Nat) (who : Addr) : List (Nat × Nat) :=
  ((s.spellsOf who).filter (fun t => decide (now ≤ u64add t s.params.cooldown))).map
    (fun t => (t, u64add t s.params.cooldown))

/-- x/query/keeper/grpc_account_redelegation.go:36: a `uint64` difference -/
def availableSlots (s : State) (now : Nat) (who : Addr) : Nat :=
  u64sub s.params.maxSpells (redelegationEntries s now who).length

/-- C60: the entries are exactly the redelegations of the account that are still in the cooldown window, oldest first, with
the time at which they free their slot (histories in which the cooldown is never raised). -/
theorem C60_entries {gov : Addr} {y : Sys} (h : Sys.Cool gov y) (who : Addr) :
    redelegationEntries y.w.s y.now who =
      (((redelegations who y.w.s.trace).filter (fun t => decide (y.now ≤ t + y.w.s.params.cooldown))).reverse).map
        (fun t => (t, t + y.w.s.params.cooldown)) := by
  have hs := h.sinv
  obtain ⟨hc, hn⟩ := h.small
  have hadd : ∀ t, t ≤ y.now → u64add t y.w.s.params.cooldown = t + y.w.s.params.cooldown := by
    intro t ht
    unfold u64add twoPow64
    exact Nat.mod_eq_of_lt (by omega)
  have hpast : ∀ t ∈ y.w.s.spellsOf who, t ≤ y.now := fun t ht =>
    hs.past who t (hs.sub who t ((spellsOf_eq _ _ _).mp ht))
  have hl : (y.w.s.spellsOf who).filter (fun t => decide (y.now ≤ u64add t y.w.s.params.cooldown)) =
      ((redelegations who y.w.s.trace).filter (fun t => decide (y.now ≤ t + y.w.s.params.cooldown))).reverse := by
    refine List.Pairwise.eq_of_mem_iff (r := (· < ·)) ((spellsOf_sorted _ _).filter _) ?_ ?_
    · rw [List.pairwise_reverse]
      exact (hs.desc who).filter _
    · intro t
      rw [List.mem_reverse, List.mem_filter, List.mem_filter, decide_eq_true_eq, decide_eq_true_eq]
      constructor
      · rintro ⟨h1, h2⟩
        rw [hadd t (hpast t h1)] at h2
        exact ⟨hs.sub who t ((spellsOf_eq _ _ _).mp h1), h2⟩
      · rintro ⟨h1, h2⟩
        rw [hadd t (hs.past who t h1)]
        exact ⟨(spellsOf_eq _ _ _).mpr (hs.keep who t h1 h2), h2⟩
  unfold redelegationEntries
  rw [hl]
  refine List.map_congr_left ?_
  intro t ht
  rw [List.mem_reverse, List.mem_filter] at ht
  rw [hadd t (hs.past who t ht.1)]

theorem entries_length {gov : Addr} {y : Sys} (h : Sys.Cool gov y) (who : Addr) :
    (redelegationEntries y.w.s y.now who).length =
      ((redelegations who y.w.s.trace).filter (fun t => decide (y.now ≤ t + y.w.s.params.cooldown))).length := by
  rw [C60_entries h]; simp

/-- C60: as long as no more slots are used than governance allows, the available slots are the rest, and if one is
available, a redelegation of an amount the account has is accepted (once per block). -/
theorem C60_available {gov : Addr} {y : Sys} (h : Sys.Cool gov y) (who : Addr) (hm : y.w.s.params.maxSpells < twoPow64)
    (hu : (redelegationEntries y.w.s y.now who).length ≤ y.w.s.params.maxSpells) :
    availableSlots y.w.s y.now who + (redelegationEntries y.w.s y.now who).length = y.w.s.params.maxSpells ∧
    (0 < availableSlots y.w.s y.now who → ∀ m : RedelegateMsg, m.creator = who →
      (y.w.s.at m.src).dels.has who = true → m.amount ≤ curDel (y.w.s.at m.src) who →
      y.now ∉ redelegations who y.w.s.trace → ∃ w', redelegateMsg y.w y.now true true m = .ok w') ∧
    (availableSlots y.w.s y.now who = 0 → ∀ (m : RedelegateMsg) (ex ac : Bool) (w' : World), m.creator = who →
      redelegateMsg y.w y.now ex ac m ≠ .ok w') := by
  have e : availableSlots y.w.s y.now who = y.w.s.params.maxSpells - (redelegationEntries y.w.s y.now who).length :=
    u64sub_of_le hu hm
  refine ⟨by omega, ?_, ?_⟩
  · rintro hpos m rfl hd ha hnow
    refine C09_available h m hd ha ?_ hnow
    rw [← entries_length h]; omega
  · rintro h0 m ex ac w' rfl hok
    obtain ⟨h1, h2, h3⟩ := C09_window h hok
    rw [h1, List.filter_cons_of_pos (by simp), List.length_cons, ← entries_length h] at h2
    omega

/-- C60 is false after governance lowers the number of slots below what an account uses: the difference wraps and the
query shows more than `10^19` free slots although every redelegation is refused. -/
theorem C60_wraps : ∃ y, Sys.Cool 99 y ∧ availableSlots y.w.s y.now 1 = 2 ^ 64 - 1 ∧
    ∀ (m : RedelegateMsg) (ex ac : Bool) (w' : World), m.creator = 1 → redelegateMsg y.w y.now ex ac m ≠ .ok w' := by
  have hc : Sys.Cool 99 (exampleSys.step 99 (.updateParams 99 { maxSpells := some 1 })) :=
    .step _ exampleSys_cool (calm_of_dustOk (by decide +kernel)) (by decide +kernel) (by decide +kernel)
  refine ⟨_, hc, by decide +kernel, ?_⟩
  rintro m ex ac w' hm hok
  obtain ⟨h1, h2, h3⟩ := C09_window hc hok
  rw [h1, List.filter_cons_of_pos (by simp), List.length_cons, hm] at h2
  have : ((redelegations 1 (exampleSys.step 99 (.updateParams 99 { maxSpells := some 1 })).w.s.trace).filter
    (fun t => decide ((exampleSys.step 99 (.updateParams 99 { maxSpells := some 1 })).now ≤
      t + (exampleSys.step 99 (.updateParams 99 { maxSpells := some 1 })).w.s.params.cooldown))).length = 2 := by
    decide +kernel
  rw [this] at h2
  have h4 : (exampleSys.step 99 (.updateParams 99 { maxSpells := some 1 })).w.s.params.maxSpells = 1 := by decide +kernel
  rw [h4] at h2
  omega

example : redelegationEntries exampleSys.w.s exampleSys.now 1 = [(1000, 1020), (1001, 1021)] ∧
    availableSlots exampleSys.w.s exampleSys.now 1 = 0 ∧ availableSlots exampleSys.w.s exampleSys.now 2 = 2 := by
  decide +kernel

end Verif.Delegation

namespace Verif.Chain
open Verif
namespace Chain

/-! ## C61: the assets of an account -/

/-- proto `QueryAccountAssetsResponse` -/
structure Assets where
  balance : Nat
  selfDelegation : Nat
  selfUnbonding : Nat
  delegation : Nat
  unbonding : Nat
  rewards : Coins
  funding : Coins

/-- x/delegation/keeper/getters_undelegation.go:82-97 `GetAllUnbondingDelegationQueueEntriesOfDelegator` -/
def unbondingsOf (c : Chain) (who : Addr) : List Delegation.QEntry :=
  (c.del.queue.toList.map (·.2)).filter (fun e => e.delegator == who)

/-- x/funders/keeper/getters_funding.go:40-54 `GetFundingsOfFunder` -/
def fundingsOf (c : Chain) (who : Addr) : List Funders.Funding :=
  (c.fund.fundings.toList.filter (fun e => e.1.1 == who)).map (·.2)

/-- a `uint64` sum -/
def sum64 (l : List Nat) : Nat := l.sum % twoPow64

/-- x/query/keeper/grpc_account_assets.go:22-84 `AccountAssets`; `none` is the panic of `balance.Amount.Uint64()` -/
def accountAssets (c : Chain) (who : Addr) : Option Assets :=
  if (c.b (.user who)).amt kyve < twoPow64 then
    some
      { balance := (c.b (.user who)).amt kyve
        selfDelegation := Delegation.curDel (c.del.at who) who
        selfUnbonding := sum64 (((c.unbondingsOf who).filter (fun e => e.staker == who)).map (·.amount))
        delegation := sum64 ((c.stakersByDelegator who).map (fun st => Delegation.curDel (c.del.at st) who))
        unbonding := sum64 ((c.unbondingsOf who).map (·.amount))
        rewards := (c.stakersByDelegator who).foldl (fun r st => r.add (Delegation.outstanding (c.del.at st) who)) Coins.zero
        funding := (c.fundingsOf who).foldl (fun r f => r.add f.amounts) Coins.zero }
  else none

/-- x/query/keeper/grpc_account_funded.go:12-48 `AccountFundedList` (pool id and amounts): fails if a pool is missing -/
def accountFunded (c : Chain) (who : Addr) : Option (List (Nat × Coins)) :=
  if ((c.fundingsOf who).filter (fun f => !f.amounts.isZero)).all (fun f => c.pool.pools.has f.pool) then
    some (((c.fundingsOf who).filter (fun f => !f.amounts.isZero)).map (fun f => (f.pool, f.amounts)))
  else none

variable {c c' : Chain} {gov : Addr}

theorem foldl_amt {α : Type} (l : List α) (f : α → Coins) (r : Coins) (d : Denom) :
    (l.foldl (fun r x => r.add (f x)) r).amt d = r.amt d + (l.map (fun x => (f x).amt d)).sum := by
  induction l generalizing r with
  | nil => simp
  | cons a l ih => rw [List.foldl_cons, ih, Coins.amt_add, List.map_cons, List.sum_cons, Nat.add_assoc]

theorem sum_filter_zero {α : Type} (l : List α) (p : α → Bool) (f : α → Nat) (h : ∀ a ∈ l, p a = false → f a = 0) :
    ((l.filter p).map f).sum = (l.map f).sum := by
  induction l with
  | nil => rfl
  | cons a l ih =>
    have ih' := ih (fun b hb => h b (List.mem_cons_of_mem _ hb))
    cases hp : p a with
    | true => rw [List.filter_cons_of_pos hp, List.map_cons, List.sum_cons, ih', List.map_cons, List.sum_cons]
    | false => rw [List.filter_cons_of_neg (by simp [hp]), ih', List.map_cons, List.sum_cons, h a (by simp) hp, Nat.zero_add]

/-- what the account owns with all stakers together -/
def owned (c : Chain) (who : Addr) : Nat := c.del.f1.sum (fun st _ => Delegation.curDel (c.del.at st) who)

theorem owned_eq (c : Chain) (who : Addr) :
    ((c.stakersByDelegator who).map (fun st => Delegation.curDel (c.del.at st) who)).sum = c.owned who := by
  unfold stakersByDelegator owned
  rw [sum_filter_zero _ _ _ (fun a _ h => curDel_none h)]
  unfold Map.sum Map.keys
  rw [List.map_map]; rfl

/-- nobody owns, and no set of accounts together owns, more than is delegated in total -/
theorem owned_total (h : Reachable gov c) (ds : List Addr) (hd : ds.Nodup) :
    (ds.map (fun d => c.owned d)).sum ≤ Delegation.totalAll c.del := by
  have h1 : (ds.map (fun d => c.owned d)).sum =
      c.del.f1.sum (fun st _ => (ds.map (fun d => Delegation.curDel (c.del.at st) d)).sum) := by
    clear hd
    induction ds with
    | nil => simp [Map.sum_zero]
    | cons a l ih => rw [List.map_cons, List.sum_cons, ih]; unfold owned; rw [← Map.sum_add]; rfl
  rw [h1]
  refine Map.sum_le _ _ _ ?_
  intro st f hf
  have e : c.del.at st = f := by unfold Delegation.State.at; rw [hf]; rfl
  have h2 := sum_dels_le (c.del.at st).dels (fun d => Delegation.curDel (c.del.at st) d) (fun d hd => curDel_none hd) ds hd
  have h3 := (Delegation.C02_module (Reachable.good h).mods.del st).1
  have h4 : c.del.amount st = f.d.total := by unfold Delegation.State.amount; rw [e]; rfl
  rw [← h4]
  exact le_trans h2 h3

theorem owned_small (h : Reachable gov c) (who : Addr) : c.owned who < 2 ^ 63 := by
  have := owned_total h [who] (by simp)
  simp only [List.map_cons, List.map_nil, List.sum_cons, List.sum_nil, Nat.add_zero] at this
  exact lt_of_le_of_lt this (Reachable.good h).sane.small

/-- C61: the delegation shown is exactly what the account owns with all stakers, the self delegation is its part with
itself, and the accounts together are never shown more than is delegated in total. -/
theorem C61_delegation (h : Reachable gov c) (who : Addr) {x : Assets} (hx : c.accountAssets who = some x) :
    x.balance = (c.b (.user who)).amt kyve ∧ x.delegation = c.owned who ∧
    x.selfDelegation = Delegation.curDel (c.del.at who) who ∧ x.selfDelegation ≤ x.delegation ∧
    ∀ ds : List Addr, ds.Nodup → (ds.map (fun d => c.owned d)).sum ≤ Delegation.totalAll c.del := by
  unfold accountAssets at hx
  split at hx
  · injection hx with hx
    subst hx
    have e : sum64 ((c.stakersByDelegator who).map (fun st => Delegation.curDel (c.del.at st) who)) = c.owned who := by
      unfold sum64
      rw [owned_eq]
      exact Nat.mod_eq_of_lt (lt_trans (owned_small h who) (by decide))
    refine ⟨rfl, e, rfl, ?_, fun ds hd => owned_total h ds hd⟩
    show Delegation.curDel (c.del.at who) who ≤ sum64 _
    rw [e]
    cases hd : (c.del.at who).dels.has who with
    | false => rw [curDel_none hd]; exact Nat.zero_le _
    | true =>
      obtain ⟨f, hf⟩ := (Map.mem_keys_iff _ _).1 (dels_f1 who who hd)
      exact Map.le_sum c.del.f1 (fun st _ => Delegation.curDel (c.del.at st) who) hf
  · cases hx

/-- C61: the unbondings shown are exactly the account's requests that have not been paid, oldest first, and the amounts
shown are their sums (as `uint64`). -/
theorem C61_unbonding (h : Reachable gov c) (who : Addr) {x : Assets} (hx : c.accountAssets who = some x) :
    (∃ rest, Delegation.requests c.del.trace = Delegation.paids c.del.trace ++ rest ∧
      c.unbondingsOf who = (rest.map (·.2)).filter (fun e => e.delegator == who)) ∧
    x.unbonding = sum64 ((c.unbondingsOf who).map (·.amount)) ∧
    x.selfUnbonding = sum64 (((c.unbondingsOf who).filter (fun e => e.staker == who)).map (·.amount)) := by
  unfold accountAssets at hx
  split at hx
  · injection hx with hx
    subst hx
    exact ⟨⟨c.del.queue.toList, Delegation.C08_once_in_order (Reachable.good h).mods.del, rfl⟩, rfl, rfl⟩
  · cases hx

/-- C61: the rewards shown are what withdrawing from every staker would pay, up to one base unit per staker. -/
theorem C61_rewards (h : Reachable gov c) (who : Addr) {x : Assets} (hx : c.accountAssets who = some x) (dn : Denom) :
    x.rewards.amt dn ≤ ((c.stakersByDelegator who).map (fun st => (Delegation.withdraw (c.del.at st) who).2.amt dn)).sum
      + (c.stakersByDelegator who).length ∧
    ((c.stakersByDelegator who).map (fun st => (Delegation.withdraw (c.del.at st) who).2.amt dn)).sum
      ≤ x.rewards.amt dn + (c.stakersByDelegator who).length := by
  unfold accountAssets at hx
  split at hx
  · injection hx with hx
    subst hx
    show ((c.stakersByDelegator who).foldl (fun r st => r.add (Delegation.outstanding (c.del.at st) who)) Coins.zero).amt dn ≤ _ ∧
      _ ≤ ((c.stakersByDelegator who).foldl (fun r st => r.add (Delegation.outstanding (c.del.at st) who)) Coins.zero).amt dn + _
    rw [foldl_amt (c.stakersByDelegator who) (fun st => Delegation.outstanding (c.del.at st) who)]
    have e0 : Coins.zero.amt dn = 0 := rfl
    rw [e0, Nat.zero_add]
    have key : ∀ st, (Delegation.outstanding (c.del.at st) who).amt dn ≤ (Delegation.withdraw (c.del.at st) who).2.amt dn + 1 ∧
        (Delegation.withdraw (c.del.at st) who).2.amt dn ≤ (Delegation.outstanding (c.del.at st) who).amt dn + 1 := by
      intro st
      obtain ⟨h1, h2⟩ := Delegation.module_ledgers (Reachable.good h).mods.del st
      have h2' : c.del.at st = (Delegation.ledgerOf c.del.trace st).f1 := h2
      rw [h2']
      exact ⟨(Delegation.C06_query h1 who dn).1, (Delegation.C06_query h1 who dn).2.1⟩
    generalize c.stakersByDelegator who = l
    induction l with
    | nil => simp
    | cons a l ih =>
      simp only [List.map_cons, List.sum_cons, List.length_cons]
      have := key a
      omega
  · cases hx

theorem fundingsOf_left (h : Reachable gov c) (who : Addr) (p : Nat) (f : Funders.Funding) :
    f ∈ c.fundingsOf who ∧ f.pool = p ↔ c.fund.fundings.get? (who, p) = some f := by
  have hi : Funders.Inv c.fw := (Reachable.good h).mods.fund.reach.inv
  unfold fundingsOf
  rw [List.mem_map]
  constructor
  · rintro ⟨⟨⟨⟨a, q⟩, g⟩, hm, rfl⟩, hp⟩
    rw [List.mem_filter] at hm
    have h2 : a = who := by simpa using hm.2
    subst h2
    have h1 : c.fund.fundings.get? (a, q) = some g := (Map.mem_iff _ _ _).mp hm.1
    have := hi.key _ _ h1
    injection this with e1 e2
    simp only at hp
    rw [← hp, e2]
    exact h1
  · intro hg
    have := hi.key _ _ hg
    injection this with e1 e2
    refine ⟨⟨((who, p), f), ?_, rfl⟩, e2⟩
    rw [List.mem_filter]
    exact ⟨(Map.mem_iff _ _ _).mpr hg, by simp⟩

/-- C61: the funding shown is what the account has left in all pools; all accounts together are never shown more than the
module account holds. -/
theorem C61_funding (h : Reachable gov c) (who : Addr) {x : Assets} (hx : c.accountAssets who = some x) (dn : Denom) :
    x.funding.amt dn = ((c.fundingsOf who).map (fun f => f.amounts.amt dn)).sum ∧
    (∀ p f, (f ∈ c.fundingsOf who ∧ f.pool = p) ↔ c.fund.fundings.get? (who, p) = some f) ∧
    ∀ ds : List Addr, ds.Nodup →
      (ds.map (fun d => ((c.fundingsOf d).map (fun f => f.amounts.amt dn)).sum)).sum ≤ (c.b (.mod .funders)).amt dn := by
  refine ⟨?_, fun p f => fundingsOf_left h who p f, ?_⟩
  · unfold accountAssets at hx
    split at hx
    · injection hx with hx
      subst hx
      show ((c.fundingsOf who).foldl (fun r f => r.add f.amounts) Coins.zero).amt dn = _
      rw [foldl_amt (c.fundingsOf who) (fun f => f.amounts)]
      have e0 : Coins.zero.amt dn = 0 := rfl
      rw [e0, Nat.zero_add]
    · cases hx
  · intro ds hd
    have hb := Funders.C32_backed gov c.fw (Reachable.good h).mods.fund.reach dn
    refine le_trans ?_ hb
    show _ ≤ (c.fund.fundings.toList.map (fun e => e.2.amounts.amt dn)).sum
    unfold fundingsOf
    generalize c.fund.fundings.toList = l
    induction l with
    | nil =>
      simp only [List.filter_nil, List.map_nil, List.sum_nil]
      clear hd
      induction ds with
      | nil => simp
      | cons a l ih => simp
    | cons e l ih =>
      rw [List.map_cons, List.sum_cons]
      refine le_trans ?_ (Nat.add_le_add_left ih _)
      clear ih
      have key : (ds.map (fun d => ((((e :: l).filter (fun e => e.1.1 == d)).map (·.2)).map (fun f => f.amounts.amt dn)).sum)).sum
          = (if e.1.1 ∈ ds then e.2.amounts.amt dn else 0) +
            (ds.map (fun d => (((l.filter (fun e => e.1.1 == d)).map (·.2)).map (fun f => f.amounts.amt dn)).sum)).sum := by
        induction ds with
        | nil => simp
        | cons a ds ih =>
          obtain ⟨hn1, hn2⟩ := List.nodup_cons.mp hd
          have ih' := ih hn2
          rw [List.map_cons, List.sum_cons, ih', List.map_cons, List.sum_cons]
          by_cases ha : e.1.1 = a
          · have h1 : e.1.1 ∉ ds := by rw [ha]; exact hn1
            rw [List.filter_cons_of_pos (by simp [ha]), if_neg h1, if_pos (by simp [ha]), List.map_cons, List.map_cons,
              List.sum_cons]
            omega
          · rw [List.filter_cons_of_neg (by simp [ha])]
            by_cases hin : e.1.1 ∈ ds
            · rw [if_pos hin, if_pos (List.mem_cons_of_mem _ hin)]; omega
            · rw [if_neg hin, if_neg (by simp only [List.mem_cons, not_or]; exact ⟨ha, hin⟩)]; omega
      rw [key]
      refine Nat.add_le_add_right ?_ _
      split
      · exact le_refl _
      · exact Nat.zero_le _

/-- C61: the list of funded pools never fails and shows exactly the pools in which the account has coins left. -/
theorem C61_funded (h : Reachable gov c) (who : Addr) :
    ∃ l, c.accountFunded who = some l ∧
      ∀ p (a : Coins), (p, a) ∈ l ↔ ∃ f, c.fund.fundings.get? (who, p) = some f ∧ f.amounts = a ∧ ∃ d, a.amt d ≠ 0 := by
  have hg := Reachable.good h
  have hi : Funders.Inv c.fw := hg.mods.fund.reach.inv
  have hall : ((c.fundingsOf who).filter (fun f => !f.amounts.isZero)).all (fun f => c.pool.pools.has f.pool) = true := by
    rw [List.all_eq_true]
    intro f hf
    have h1 := (fundingsOf_left h who f.pool f).mp ⟨(List.mem_filter.mp hf).1, rfl⟩
    obtain ⟨l, hl⟩ := hi.has who f.pool f h1
    have h2 : c.fund.active.has f.pool = true := (Stakers.has_iff _ _).2 ⟨l, hl⟩
    have h3 := (hg.mods.fund.active f.pool).mp h2
    have h4 := (Pool.C40_ids_dense gov c.pool hg.mods.pool f.pool).1.mpr h3
    obtain ⟨p, hp⟩ := Option.isSome_iff_exists.mp h4
    exact (Stakers.has_iff _ _).2 ⟨p, hp⟩
  refine ⟨_, if_pos hall, ?_⟩
  intro p a
  rw [List.mem_map]
  constructor
  · rintro ⟨f, hf, e⟩
    injection e with e1 e2
    obtain ⟨h1, h2⟩ := List.mem_filter.mp hf
    refine ⟨f, (fundingsOf_left h who p f).mp ⟨h1, e1⟩, e2, ?_⟩
    rw [← e2]
    exact Coins.isZero_false_iff.mp (by simpa using h2)
  · rintro ⟨f, hf, rfl, hne⟩
    obtain ⟨h1, h2⟩ := (fundingsOf_left h who p f).mpr hf
    refine ⟨f, List.mem_filter.mpr ⟨h1, ?_⟩, by rw [h2]⟩
    rw [Coins.isZero_false_iff.mpr hne]; rfl

/-! ## witnesses -/

/-- staker 1 asks twice for all of its 100 -/
def twice : List Op := [.undelegate 1 1 100, .undelegate 1 1 100]

/-- C61: the unbonding amount is not a part of what the account owns: requests are only compared with the delegation at
the time of the request, so the same coins can be requested several times, and the query shows 200 unbonding of 100
owned. -/
theorem C61_twice : ∃ c x, Reachable Sample.gov c ∧ c.accountAssets 1 = some x ∧ x.delegation = 100 ∧ x.unbonding = 200 := by
  refine ⟨Sample.run Sample.ready twice, _, Sample.run_reachable Sample.reach_ready _ (by decide +kernel), rfl, ?_, ?_⟩
  · decide +kernel
  · decide +kernel

example : ((Sample.ready.accountAssets 1).map (fun x => (x.delegation, x.selfDelegation, x.unbonding))) = some (100, 100, 0) := by
  decide +kernel
example : ((Sample.ready.accountFunded 50).map (fun l => l.map (fun e => (e.1, e.2.amt kyve)))).isSome = true ∧
    ((Sample.ready.accountFunded 50).getD []).length = 1 := by decide +kernel

end Chain
end Verif.Chain
