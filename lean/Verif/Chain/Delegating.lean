import Verif.Chain.Queues

/-!
# C07, C87: delegating, redelegating and becoming a staker, for the chain
-/

set_option linter.dupNamespace false
namespace Verif.Chain
open Verif
open Chain

/-- C07: an accepted delegation adds exactly the given amount to that delegation and to the delegation of that staker, and to
nothing else.  The delegator pays the amount and gets the rewards it had earned with that staker. -/
theorem Chain.C07_delegate (gov : Addr) (c c' : Chain) (h : Reachable gov c) (a st : Addr) (n : Nat)
    (he : exec gov c (.delegate a st n) = .ok c') :
    c.st.stakers.has st = true ∧
    (∀ s x, c'.whole s x = c.whole s x + (if s = st ∧ x = a then n else 0)) ∧
    (∀ s, c'.del.amount s = c.del.amount s + (if s = st then n else 0)) ∧
    (c'.del.halted = false → ∀ d,
      (c'.b (.user a)).amt d + (if d = kyve then n else 0) = (c.b (.user a)).amt d + c.earned st a d ∧
      (c'.b (.mod .delegation)).amt d + c.earned st a d = (c.b (.mod .delegation)).amt d + (if d = kyve then n else 0) ∧
      ∀ x, x ≠ .mod .delegation → x ≠ .user a → (c'.b x).amt d = (c.b x).amt d) := by
  obtain ⟨w, hr, rfl⟩ := map_ok he
  obtain ⟨h1, h2, h3, h4⟩ := Delegation.C07_delegate (Reachable.good h).mods.del hr
  refine ⟨h1, fun s x => ?_, h3, fun hh d => ?_⟩
  · rw [whole_eq, whole_eq]; exact h2 s x
  · obtain ⟨h5, h6, h7⟩ := h4 hh d
    exact ⟨h6, h5, h7⟩

/-- when a delegation goes through -/
theorem Chain.delegateMsg_iff (c : Chain) (ex : Bool) (a st : Addr) (n : Nat)
    (hp : ∀ d, c.earned st a d ≤ (c.b (.mod .delegation)).amt d) :
    (∃ w, Delegation.delegateMsg c.dw ex a st n = .ok w) ↔
      ex = true ∧ n < 2 ^ 63 ∧ n ≤ (c.b (.user a)).amt kyve + c.earned st a kyve := by
  have hrw : ∀ d, (Delegation.f1Reward (c.del.at st) (.delegate a n)).amt d = c.earned st a d := fun d =>
    congrArg (fun x => Coins.amt x d) (Delegation.delegate_snd _ _ _)
  have hpay : ∃ b, Delegation.rewardTransfer c.dw st (.delegate a n) a = .ok b :=
    Bank.send_succeeds (b := c.b) (s := .mod .delegation) (t := .user a)
      (c := Delegation.f1Reward (c.del.at st) (.delegate a n)) (fun d => by rw [hrw]; exact hp d)
  obtain ⟨b, hb⟩ := hpay
  have hb' := (Bank.send_ok hb).2 (.user a) kyve
  have hbk : (Delegation.performDelegation c.dw st a n).b = b := by
    show c.b.orKeep (Delegation.rewardTransfer c.dw st (.delegate a n) a) = b
    rw [hb]; rfl
  have hbal : (b (.user a)).amt kyve = (c.b (.user a)).amt kyve + c.earned st a kyve := by
    rw [if_pos rfl, if_neg (by rintro ⟨⟩)] at hb'
    have e : (Delegation.f1Reward (c.dw.s.at st) (.delegate a n)).amt kyve = c.earned st a kyve := hrw kyve
    have e2 : (c.dw.b (.user a)).amt kyve = (c.b (.user a)).amt kyve := rfl
    rw [e, e2] at hb'
    omega
  constructor
  · rintro ⟨w, hr⟩
    unfold Delegation.delegateMsg at hr
    split at hr
    · cases hr
    · rename_i h1
      split at hr
      · cases hr
      · rename_i b' hb2
        rw [hbk] at hb2
        unfold Delegation.transferUser at hb2
        split at hb2
        · rename_i h2
          have h3 := (Bank.send_ok hb2).1 kyve
          rw [Coins.amt_single, if_pos rfl, hbal] at h3
          exact ⟨by simpa using h1, h2, h3⟩
        · cases hb2
  · rintro ⟨h1, h2, h3⟩
    obtain ⟨b2, hb2⟩ := Bank.send_succeeds (b := b) (s := .user a) (t := .mod .delegation) (c := Coins.single kyve n)
      (fun d => by
        rw [Coins.amt_single]
        split
        · rename_i e; rw [e, hbal]; exact h3
        · exact Nat.zero_le _)
    refine ⟨⟨(Delegation.performDelegation c.dw st a n).s, b2⟩, ?_⟩
    unfold Delegation.delegateMsg
    rw [h1, hbk]
    unfold Delegation.transferUser
    rw [if_pos h2, hb2]
    rfl

/-- C87: delegating is accepted exactly to a staker, for less than `2^63` base units, from an account that has the coins
once the rewards earned with that staker are paid (which the module account can pay). -/
theorem Chain.C87_delegate_accepted (gov : Addr) (c : Chain) (a st : Addr) (n : Nat)
    (hp : ∀ d, c.earned st a d ≤ (c.b (.mod .delegation)).amt d) :
    (∃ c', exec gov c (.delegate a st n) = .ok c') ↔
      c.st.stakers.has st = true ∧ n < 2 ^ 63 ∧ n ≤ (c.b (.user a)).amt kyve + c.earned st a kyve := by
  rw [← Chain.delegateMsg_iff c (c.st.stakers.has st) a st n hp]
  constructor
  · rintro ⟨c', he⟩
    obtain ⟨w, hr, -⟩ := map_ok he
    exact ⟨w, hr⟩
  · rintro ⟨w, hr⟩
    refine ⟨c.withDel w, ?_⟩
    show (Delegation.delegateMsg c.dw (c.st.stakers.has st) a st n).map c.withDel = _
    rw [hr]; rfl

/-- C87: becoming a staker is accepted exactly from an account that is none yet, for a commission of at most 1 and a
self-delegation it can pay. -/
theorem Chain.C87_create_accepted (gov : Addr) (c : Chain) (a : Addr) (k : Dec) (n : Nat)
    (hp : ∀ d, c.earned a a d ≤ (c.b (.mod .delegation)).amt d) :
    (∃ c', exec gov c (.createStaker a k n) = .ok c') ↔
      k ≤ 10 ^ 18 ∧ c.st.stakers.has a = false ∧ n < 2 ^ 63 ∧ n ≤ (c.b (.user a)).amt kyve + c.earned a a kyve := by
  have hd := Chain.delegateMsg_iff c true a a n hp
  constructor
  · rintro ⟨c', he⟩
    have he : c.createStaker a k n = .ok c' := he
    unfold createStaker at he
    split at he
    · cases he
    · rename_i s hs
      split at he
      · cases he
      · rename_i w hr
        unfold Stakers.createStaker at hs
        split at hs
        · cases hs
        · rename_i h1
          split at hs
          · cases hs
          · rename_i h2
            obtain ⟨-, h3, h4⟩ := hd.1 ⟨w, hr⟩
            exact ⟨Nat.not_lt.1 h1, by simpa using h2, h3, h4⟩
  · rintro ⟨h1, h2, h3, h4⟩
    obtain ⟨w, hr⟩ := hd.2 ⟨rfl, h3, h4⟩
    have hs : Stakers.createStaker c.st a k true
        = .ok { c.st with stakers := c.st.stakers.set a ⟨k, Coins.zero, 0⟩ } := by
      unfold Stakers.createStaker
      have : ¬ k > Dec.one := Nat.not_lt.2 h1
      rw [if_neg this, h2]
      rfl
    refine ⟨{ c.withDel w with st := { c.st with stakers := c.st.stakers.set a ⟨k, Coins.zero, 0⟩ } }, ?_⟩
    show c.createStaker a k n = _
    unfold createStaker
    rw [hs]
    simp only
    rw [hr]

/-- C07: an accepted redelegation moves exactly the given amount of the delegator from one staker to the other; the delegator
gets the rewards it had earned with both, and pays nothing. -/
theorem Chain.C07_redelegate (gov : Addr) (c c' : Chain) (h : Reachable gov c) (m : Delegation.RedelegateMsg)
    (he : exec gov c (.redelegate m) = .ok c') :
    m.amount ≤ c.whole m.src m.creator ∧ c.st.stakers.has m.dst = true ∧ (∃ id, c.member id m.dst = true) ∧
    (∀ s x, c'.whole s x = c.whole s x - (if s = m.src ∧ x = m.creator then m.amount else 0)
      + (if s = m.dst ∧ x = m.creator then m.amount else 0)) ∧
    (∀ s, c'.del.amount s = c.del.amount s - (if s = m.src then m.amount else 0) + (if s = m.dst then m.amount else 0)) ∧
    (c'.del.halted = false → ∃ reward : Denom → Nat,
      (m.src ≠ m.dst → ∀ d, reward d = c.earned m.src m.creator d + c.earned m.dst m.creator d) ∧
      Transfers (.mod .delegation) (.user m.creator) reward c.b c'.b) := by
  have hw : ∀ c : Chain, ∀ s x, c.whole s x = Delegation.curDel (c.del.at s) x := whole_eq
  obtain ⟨w, hr, rfl⟩ := map_ok he
  obtain ⟨h1, h2, h3, h4, h5, h6⟩ := Delegation.C07_redelegate (Reachable.good h).mods.del hr
  refine ⟨by rw [hw]; exact h1, h2, ?_, fun s x => by rw [hw, hw]; exact h4 s x, h5, fun hh => ?_⟩
  · have hne : c.st.valsOf m.dst ≠ [] := by
      intro e
      rw [e] at h3
      cases h3
    obtain ⟨v, hv⟩ := List.exists_mem_of_ne_nil _ hne
    obtain ⟨id, hid⟩ := (Stakers.mem_valsOf (Reachable.good h).mods.st.inv.mem).1 hv
    exact ⟨id, (Stakers.has_iff _ _).2 ⟨v, hid⟩⟩
  · obtain ⟨rw', e1, e2⟩ := h6 hh
    refine ⟨rw'.amt, fun hne d => ?_, by rintro ⟨⟩, fun d => ?_⟩
    · rw [e1 hne, Coins.amt_add]; rfl
    · obtain ⟨h7, h8, h9⟩ := e2 d
      have h7 : ((c.withDel w).b (.mod .delegation)).amt d + rw'.amt d = (c.b (.mod .delegation)).amt d := h7
      exact ⟨by omega, h7, h8, fun a x y => h9 a x y⟩

/-- C07: who becomes a staker has exactly the given self-delegation more, pays exactly for it, and is a staker with the given
commission. -/
theorem Chain.C07_create (gov : Addr) (c c' : Chain) (h : Reachable gov c) (a : Addr) (k : Dec) (n : Nat)
    (he : exec gov c (.createStaker a k n) = .ok c') :
    c.st.stakers.has a = false ∧ k ≤ 10 ^ 18 ∧ c'.st.rate a = some k ∧
    (∀ x, c'.st.stakers.has x = true ↔ x = a ∨ c.st.stakers.has x = true) ∧
    (∀ s x, c'.whole s x = c.whole s x + (if s = a ∧ x = a then n else 0)) ∧
    (∀ s, c'.del.amount s = c.del.amount s + (if s = a then n else 0)) ∧
    (c'.del.halted = false → ∀ d,
      (c'.b (.user a)).amt d + (if d = kyve then n else 0) = (c.b (.user a)).amt d + c.earned a a d) := by
  have he : c.createStaker a k n = .ok c' := he
  unfold createStaker at he
  split at he
  · cases he
  · rename_i s hs
    split at he
    · cases he
    · rename_i w hr
      injection he with he
      subst he
      obtain ⟨h1, h2, h3, h4⟩ := Delegation.C07_delegate (Reachable.good h).mods.del hr
      unfold Stakers.createStaker at hs
      split at hs
      · cases hs
      · rename_i hk
        split at hs
        · cases hs
        · rename_i hn
          have hs : Except.ok { c.st with stakers := c.st.stakers.set a ⟨k, Coins.zero, 0⟩ } = Except.ok s := hs
          injection hs with hs
          subst hs
          refine ⟨by simpa using hn, Nat.not_lt.1 hk, ?_, fun x => ?_, fun s x => ?_, h3, fun hh d => (h4 hh d).2.1⟩
          · show ((c.st.stakers.set a ⟨k, Coins.zero, 0⟩).get? a).map _ = _
            rw [Map.get?_set, if_pos rfl]; rfl
          · show ((c.st.stakers.set a ⟨k, Coins.zero, 0⟩).get? x).isSome = true ↔ _
            rw [Map.get?_set]
            split
            · rename_i e; simp [e]
            · rename_i e
              have e : ¬ x = a := fun y => e y
              simp [e]; rfl
          · rw [whole_eq, whole_eq]; exact h2 s x

/-- in the sample, user 60 delegates to staker 1 and moves half of it to staker 2 -/
example : let c := Sample.run Sample.later [.external (fun a => if a = .user 60 then Coins.single kyve 500 else Sample.later.b a) Coins.zero Coins.zero Coins.zero]
    let c1 := Sample.run c [.delegate 60 1 400]
    let c2 := Sample.run c1 [.redelegate ⟨60, 1, 2, 200⟩]
    c1.whole 1 60 = 400 ∧ (c1.b (.user 60)).amt kyve = 100 ∧ c2.whole 1 60 = 200 ∧ c2.whole 2 60 = 200 := by
  decide +kernel

/-- somebody new becomes a staker -/
example : let c := Sample.run Sample.later [.external (fun a => if a = .user 60 then Coins.single kyve 500 else Sample.later.b a) Coins.zero Coins.zero Coins.zero]
    let c1 := Sample.run c [.createStaker 60 (10 ^ 17) 500]
    c.st.stakers.has 60 = false ∧ c1.st.rate 60 = some (10 ^ 17) ∧ c1.whole 60 60 = 500 ∧ (c1.b (.user 60)).amt kyve = 0 := by
  decide +kernel

end Verif.Chain
