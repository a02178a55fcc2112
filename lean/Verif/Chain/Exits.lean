import Verif.Chain.Holdings
import Verif.Chain.Fundings

/-!
# C87: what a user is entitled to is accepted and paid to that user

Withdrawing rewards, asking to undelegate, leaving a pool, changing the commission and taking back a funding: exactly when
the message is accepted on a chain that can be reached, and what an accepted message does.
-/

set_option linter.dupNamespace false
namespace Verif.Chain
open Verif
open Chain
open Verif.Delegation (balance payable curDel f1Step F1Inv)

/-! ## specification -/

/-- `a` is listed as a delegator of `st` -/
def Chain.delegates (c : Chain) (st a : Addr) : Prop := ∃ x, (c.del.at st).dels.get? a = some x

/-- what the query for outstanding rewards answers -/
def Chain.shown (c : Chain) (st a : Addr) (d : Denom) : Nat := (Delegation.outstanding (c.del.at st) a).amt d

/-- `x` coins of each denomination went from account `s` to account `t`, and no other account changed -/
def Transfers (s t : Acct) (x : Denom → Nat) (b b' : Bank) : Prop :=
  s ≠ t ∧ ∀ d, x d ≤ (b s).amt d ∧ (b' s).amt d + x d = (b s).amt d ∧ (b' t).amt d = (b t).amt d + x d ∧
    ∀ a, a ≠ s → a ≠ t → (b' a).amt d = (b a).amt d

namespace Chain

/-! ## proofs -/

theorem transfers_of_send {b b' : Bank} {s t : Acct} {x : Coins} (hne : s ≠ t) (h : b.send s t x = .ok b') :
    Transfers s t x.amt b b' := by
  obtain ⟨h1, h2⟩ := Bank.send_ok h
  refine ⟨hne, fun d => ⟨h1 d, ?_, ?_, fun a ha hb => ?_⟩⟩
  · have := h2 s d
    rw [if_pos rfl, if_neg hne] at this
    have := h1 d
    omega
  · have := h2 t d
    rw [if_neg hne.symm, if_pos rfl] at this
    omega
  · have := h2 a d
    rw [if_neg ha, if_neg hb] at this
    omega

theorem payable_self {s : Delegation.F1} (hi : F1Inv s) (w : Addr) (dn : Denom) :
    payable (Delegation.withdraw s w).1 w dn = 0 := by
  cases hw : s.dels.get? w with
  | none => exact Delegation.payable_none (by rw [Delegation.withdraw_absent hw]; exact hw) dn
  | some x =>
    obtain ⟨d, hd⟩ := hi.data_of_del hw
    have hD := hi.dsome d hd
    have hi' := hi.withdraw w
    have hd' : (Delegation.withdraw s w).1.data = some (Delegation.newData d) := by
      unfold Delegation.withdraw; rw [hw]; simp only [hd, Option.getD_some, Delegation.withdrawFound]
    have hx' : (Delegation.withdraw s w).1.dels.get? w
        = some ⟨Dec.trunc (Delegation.balUpTo s.slashes x (d.latest + 1)), d.latest + 1⟩ := by
      unfold Delegation.withdraw; rw [hw]
      simp only [hd, Option.getD_some, Delegation.withdrawFound]
      exact (Map.get?_set _ _ _ _).trans (if_pos rfl)
    have hs' : (Delegation.withdraw s w).1.slashes = s.slashes := by
      unfold Delegation.withdraw; rw [hw]; simp only [Delegation.withdrawFound]
    rw [Delegation.payable_eq hd' (hi'.dsome _ hd') hx']
    have e : Delegation.slashesBetween (Delegation.withdraw s w).1.slashes (d.latest + 1) (Delegation.newData d).latest = [] := by
      rw [hs']
      refine Delegation.slashesBetween_empty ?_
      intro j q hj
      have := hD.slash_le j q hj
      omega
    rw [e]
    have e2 : Delegation.topN (Delegation.withdraw s w).1 (Delegation.newData d) dn
        = Delegation.entN (Delegation.withdraw s w).1.entries dn (d.latest + 1) := by
      unfold Delegation.topN
      have : (Delegation.newData d).cur = Coins.zero := rfl
      rw [this, Delegation.periodQuo_zero]
      simp [Delegation.newData]
    simp only [Delegation.evalN, e2, Nat.sub_self]
    simp [Dec.mul, Dec.trunc, Dec.chop]

end Chain

/-- C87: a withdrawal is accepted exactly from a delegator, as long as the module account has the coins. -/
theorem Chain.C87_withdraw_accepted (gov : Addr) (c : Chain) (a st : Addr) :
    (∃ c', exec gov c (.withdraw a st) = .ok c') ↔
      c.delegates st a ∧ ∀ d, c.earned st a d ≤ (c.b (.mod .delegation)).amt d := by
  have hd : c.delegates st a ↔ (c.del.at st).dels.has a = true := (Stakers.has_iff _ _).symm
  constructor
  · rintro ⟨c', he⟩
    obtain ⟨w, hr, -⟩ := map_ok he
    unfold Delegation.withdrawMsg at hr
    split at hr
    · cases hr
    · rename_i h1
      split at hr
      · cases hr
      · rename_i b hb
        exact ⟨hd.2 (Bool.not_eq_false _ ▸ fun e => h1 (by have e : (c.dw.s.at st).dels.has a = false := e; rw [e]; rfl)), (Bank.send_ok hb).1⟩
  · rintro ⟨h1, h2⟩
    obtain ⟨b, hb⟩ := Bank.send_succeeds (b := c.b) (s := .mod .delegation) (t := .user a)
      (c := Delegation.f1Reward (c.del.at st) (.withdraw a)) h2
    refine ⟨c.withDel ⟨c.del.apply st (.withdraw a), b⟩, ?_⟩
    show (Delegation.withdrawMsg c.dw a st).map c.withDel = _
    have e : Delegation.withdrawMsg c.dw a st = .ok ⟨c.del.apply st (.withdraw a), b⟩ := by
      unfold Delegation.withdrawMsg
      have h3 : (c.dw.s.at st).dels.has a = true := hd.1 h1
      have h4 : Delegation.rewardTransfer c.dw st (.withdraw a) a = .ok b := hb
      rw [h3, h4]; rfl
    rw [e]; rfl

/-- C87: an accepted withdrawal pays the delegator exactly what it has earned out of the module account and touches no
other account; afterwards nothing is left to withdraw, the delegation is what the queries showed before, and nobody
else's delegation or reward, and nothing of any other staker, changes. -/
theorem Chain.C87_withdraw (gov : Addr) (c c' : Chain) (h : Reachable gov c) (a st : Addr)
    (he : exec gov c (.withdraw a st) = .ok c') :
    Transfers (.mod .delegation) (.user a) (c.earned st a) c.b c'.b ∧
      (∀ d, c'.earned st a d = 0) ∧ c'.owns st a = Dec.ofNat (Dec.trunc (c.owns st a)) ∧
      (∀ x, x ≠ a → c'.owns st x = c.owns st x ∧ ∀ d, c'.earned st x d = c.earned st x d) ∧
      (∀ s, s ≠ st → c'.del.at s = c.del.at s) ∧ c'.del.amount st = c.del.amount st := by
  obtain ⟨w, hr, rfl⟩ := map_ok he
  have hw := Delegation.withdrawMsg_s hr
  have hi := (sound1 h st).2
  have hat : ∀ s, (c.withDel w).del.at s
      = if s = st then (Delegation.withdraw (c.del.at st) a).1 else c.del.at s := by
    intro s
    show w.s.at s = _
    rw [hw]
    exact Delegation.at_apply _ _ _ _
  have hst : (c.withDel w).del.at st = (Delegation.withdraw (c.del.at st) a).1 := (hat st).trans (if_pos rfl)
  refine ⟨?_, fun d => ?_, ?_, fun x hx => ⟨?_, fun d => ?_⟩, fun s hs => (hat s).trans (if_neg hs), ?_⟩
  · unfold Delegation.withdrawMsg at hr
    split at hr
    · cases hr
    · split at hr
      · cases hr
      · rename_i b hb
        injection hr with hr
        have e : (c.withDel w).b = b := by rw [← hr]; rfl
        rw [e]
        exact transfers_of_send (by rintro ⟨⟩) hb
  · unfold earned; rw [hst]; exact payable_self hi a d
  · unfold owns; rw [hst, Delegation.balance_withdraw hi, if_pos rfl]
  · unfold owns; rw [hst, Delegation.balance_withdraw hi, if_neg hx]
  · unfold earned; rw [hst]; exact Delegation.payable_withdraw hi hx d
  · have e : ∀ s : Delegation.State, s.amount st = (s.at st).d.total := fun _ => rfl
    rw [e, e, hst, Delegation.total_withdraw hi]

/-- C87: what the query for outstanding rewards shows is what a withdrawal pays, up to one base unit. -/
theorem Chain.C87_shown (gov : Addr) (c : Chain) (h : Reachable gov c) (a st : Addr) (d : Denom) :
    c.shown st a d ≤ c.earned st a d + 1 ∧ c.earned st a d ≤ c.shown st a d + 1 := by
  obtain ⟨h1, h2⟩ := Delegation.module_ledgers (Reachable.good h).mods.del st
  have h2 : c.del.at st = _ := h2
  have h3 := Delegation.C06_query h1 a d
  unfold shown earned payable
  rw [h2]
  exact ⟨h3.1, h3.2.1⟩

/-- C87: a request to undelegate is accepted exactly if the delegator owns that much (in whole base units). -/
theorem Chain.C87_undelegate_accepted (gov : Addr) (c : Chain) (a st : Addr) (n : Nat) :
    (∃ c', exec gov c (.undelegate a st n) = .ok c') ↔ n * 10 ^ 18 ≤ c.owns st a := by
  have hn : n * 10 ^ 18 ≤ c.owns st a ↔ n ≤ curDel (c.del.at st) a := by
    rw [Delegation.curDel_eq]
    exact (Nat.le_div_iff_mul_le (by decide)).symm
  rw [hn]
  constructor
  · rintro ⟨c', he⟩
    obtain ⟨w, hr, -⟩ := map_ok he
    exact (Delegation.undelegateMsg_ok hr).2
  · intro h
    refine ⟨c.withDel ⟨Delegation.startUnbonding c.del c.now st a n, c.b⟩, ?_⟩
    show (Delegation.undelegateMsg c.dw c.now a st n).map c.withDel = _
    have e : Delegation.undelegateMsg c.dw c.now a st n = .ok ⟨Delegation.startUnbonding c.del c.now st a n, c.b⟩ := by
      unfold Delegation.undelegateMsg
      exact if_neg (Nat.not_lt.2 h)
    rw [e]; rfl

/-- C87: an accepted request to undelegate is queued as one new entry; nothing else changes. -/
theorem Chain.C87_undelegate (gov : Addr) (c c' : Chain) (a st : Addr) (n : Nat)
    (he : exec gov c (.undelegate a st n) = .ok c') :
    c'.del.queue.get? (c.del.high + 1) = some ⟨st, a, c.now, n⟩ ∧ c'.del.high = c.del.high + 1 ∧
      c'.del.low = c.del.low ∧ (∀ i, i ≠ c.del.high + 1 → c'.del.queue.get? i = c.del.queue.get? i) ∧
      c'.b = c.b ∧ ∀ s, c'.del.at s = c.del.at s := by
  obtain ⟨w, hr, rfl⟩ := map_ok he
  obtain ⟨e, -⟩ := Delegation.undelegateMsg_ok hr
  subst e
  exact ⟨(Map.get?_set _ _ _ _).trans (if_pos rfl), rfl, rfl, fun i hi => Map.get?_set_ne _ _ hi, rfl, fun _ => rfl⟩

/-- C87: leaving a pool is accepted exactly from a member that has not announced it already. -/
theorem Chain.C87_leave_accepted (gov : Addr) (c : Chain) (h : Reachable gov c) (a : Addr) (id : Nat) :
    (∃ c', exec gov c (.leave a id) = .ok c') ↔ c.member id a = true ∧ c.st.announcement a id = none := by
  have h1 := Stakers.C17_announce gov ⟨c.sw, c.now⟩ (Reachable.good h).mods.st id a
  constructor
  · rintro ⟨c', he⟩
    obtain ⟨s, hr, -⟩ := map_ok he
    by_contra hn
    obtain ⟨e, he'⟩ := h1.2 hn
    have he' : Stakers.leavePool c.st c.now id a = .error e := he'
    rw [hr] at he'; cases he'
  · intro hc
    obtain ⟨s, hs, -⟩ := h1.1 hc
    refine ⟨{ c with st := s }, ?_⟩
    show (Stakers.leavePool c.st c.now id a).map _ = _
    have hs' : Stakers.leavePool c.st c.now id a = .ok s := hs
    rw [hs']; rfl

/-- C87: a commission change is accepted exactly from a staker, for a commission of at most 1. -/
theorem Chain.C87_commission_accepted (gov : Addr) (c : Chain) (a : Addr) (k : Dec) :
    (∃ c', exec gov c (.updateCommission a k) = .ok c') ↔ k ≤ 10 ^ 18 ∧ c.st.stakers.has a = true := by
  constructor
  · rintro ⟨c', he⟩
    obtain ⟨s, hr, -⟩ := map_ok he
    unfold Stakers.updateCommission at hr
    split at hr
    · cases hr
    · rename_i h1
      split at hr
      · cases hr
      · rename_i h2
        exact ⟨Nat.not_lt.1 h1, by simpa using h2⟩
  · rintro ⟨h1, h2⟩
    refine ⟨{ c with st := c.st.orderChange c.now a k }, ?_⟩
    show (Stakers.updateCommission c.st c.now a k).map _ = _
    have e : Stakers.updateCommission c.st c.now a k = .ok (c.st.orderChange c.now a k) := by
      unfold Stakers.updateCommission
      have h3 : ¬ k > Dec.one := Nat.not_lt.2 h1
      rw [if_neg h3, h2]; rfl
    rw [e]; rfl

/-- C87: a funder can always take back everything that is left of its funding; it is paid exactly that. -/
theorem Chain.C87_defund (gov : Addr) (c : Chain) (h : Reachable gov c) (a : Addr) (id : Nat) (x : Coins)
    (hx : ∀ d, x.amt d = c.left id a d) (hne : ∃ d, c.left id a d ≠ 0) :
    ∃ c', exec gov c (.defund ⟨a, id, x⟩) = .ok c' ∧
      Transfers (.mod .funders) (.user a) x.amt c.b c'.b ∧ ∀ d, c'.left id a d = 0 := by
  have hr := (Reachable.good h).mods.fund.reach
  have ex : x = Funders.Spec.left c.fw a id := Coins.ext hx
  subst ex
  obtain ⟨s, b, h1, h2, h3, -⟩ := Funders.C36_withdraw_all gov c.fw hr a id hne
  have h1' : Funders.defundPool c.fund c.b ⟨a, id, Funders.Spec.left c.fw a id⟩ = .ok (s, b) := h1
  refine ⟨{ c with fund := s, b := b }, ?_, ?_, h3⟩
  · show (Funders.defundPool c.fund c.b ⟨a, id, Funders.Spec.left c.fw a id⟩).map _ = _
    rw [h1']; rfl
  · obtain ⟨l, f, f', hf, -, -, -, hsend, -⟩ := Funders.defund_ok h1
    have e : Funders.Spec.left c.fw a id = f.amounts := Funders.left_eq hf
    have hmin : f.amounts.min (Funders.Spec.left c.fw a id) = Funders.Spec.left c.fw a id := by
      rw [e]; ext d; rw [Coins.amt_min]; exact Nat.min_self _
    have hs : c.fw.b.send (.mod .funders) (.user a) (f.amounts.min (Funders.Spec.left c.fw a id)) = .ok b := hsend
    rw [hmin] at hs
    exact transfers_of_send (by rintro ⟨⟩) hs

/-- the first bundle became final: staker 1 has earned something as its own delegator and withdraws it -/
example : 0 < Sample.second.earned 1 1 kyve ∧
    ∃ c', exec Sample.gov Sample.second (.withdraw 1 1) = .ok c' ∧ c'.earned 1 1 kyve = 0 := by
  refine ⟨by decide +kernel, ?_⟩
  obtain ⟨c', h⟩ := (Chain.C87_withdraw_accepted Sample.gov Sample.second 1 1).2
    ⟨(Stakers.has_iff _ _).1 (by decide +kernel),
      (Coins.le_iff (a := Delegation.f1Reward (Sample.second.del.at 1) (.withdraw 1))).1 (by decide +kernel)⟩
  exact ⟨c', h, (Chain.C87_withdraw Sample.gov _ c' Sample.reach_second 1 1 h).2.1 kyve⟩
/-- staker 2 asks for half of its stake, twice -/
example : (∃ c', exec Sample.gov Sample.second (.undelegate 2 2 50) = .ok c') ∧
    ¬ ∃ c', exec Sample.gov Sample.second (.undelegate 2 2 101) = .ok c' :=
  ⟨(Chain.C87_undelegate_accepted _ _ _ _ _).2 (by decide +kernel),
   fun h => absurd ((Chain.C87_undelegate_accepted _ _ _ _ _).1 h) (by decide +kernel)⟩

end Verif.Chain
