import Verif.Team.Lemmas

/-! Invariants of x/team over histories (helper lemmas). -/

namespace Verif.Team
open Verif Spec

/-- invariant of one account at block time `now` -/
structure AccInv (a : Account) (now : Nat) : Prop where
  sane : Sane a
  last : a.lastClaimedTime ≤ now
  claimed : ∀ t, a.lastClaimedTime ≤ t → a.unlockedClaimed ≤ unlocked a t
  rewards : a.rewardsClaimed ≤ a.totalRewards

def AllInv (w : World) : Prop := ∀ id a, w.team.accounts.get? id = some a → AccInv a w.now

theorem forall_set {P : Account → Prop} {m : Map Nat Account} {id : Nat} {a : Account}
    (h : ∀ j b, m.get? j = some b → P b) (ha : P a) : ∀ j b, (m.set id a).get? j = some b → P b := by
  intro j b hb
  rw [Map.get?_set] at hb
  split at hb
  · cases hb; exact ha
  · exact h j b hb

theorem credit_forall {P : Account → Prop} {now r : Nat}
    (hP : ∀ a x, P a → P { a with totalRewards := a.totalRewards + x }) (l : List (Nat × Account)) :
    ∀ (accs : Map Nat Account), (∀ j b, accs.get? j = some b → P b) → (∀ p ∈ l, P p.2) →
    ∀ j b, (creditAccounts accs now r l).2.get? j = some b → P b := by
  induction l with
  | nil => intro accs h _; exact h
  | cons p t ih =>
    obtain ⟨id, a⟩ := p
    intro accs h hl
    simp only [creditAccounts]
    exact ih _ (forall_set h (hP a _ (hl (id, a) (by simp)))) (fun q hq => hl q (by simp [hq]))

/-- quantities not depending on `totalRewards` are unchanged by crediting -/
theorem credit_sum {f : Account → Nat} {now r : Nat}
    (hf : ∀ a x, f { a with totalRewards := x } = f a) (l : List (Nat × Account)) :
    ∀ (accs : Map Nat Account), (∀ p ∈ l, accs.get? p.1 = some p.2) → (l.map (·.1)).Nodup →
    (creditAccounts accs now r l).2.sum (fun _ a => f a) = accs.sum (fun _ a => f a) := by
  induction l with
  | nil => intro accs _ _; rfl
  | cons p t ih =>
    obtain ⟨id, a⟩ := p
    intro accs h hn
    simp only [creditAccounts]
    simp only [List.map_cons, List.nodup_cons] at hn
    rw [ih]
    · have := accs.sum_set (fun _ a => f a) id { a with totalRewards := a.totalRewards + accountReward a now r }
      have h0 := h (id, a) (by simp)
      simp only [Map.at', h0, hf] at this
      omega
    · intro q hq
      rw [Map.get?_set_ne]
      · exact h q (by simp [hq])
      · intro e
        exact hn.1 (by rw [← e]; exact List.mem_map_of_mem hq)
    · exact hn.2

theorem credit_total {now r : Nat} (l : List (Nat × Account)) :
    ∀ (accs : Map Nat Account), (∀ p ∈ l, accs.get? p.1 = some p.2) → (l.map (·.1)).Nodup →
    (creditAccounts accs now r l).2.sum (fun _ a => a.totalRewards)
      = accs.sum (fun _ a => a.totalRewards) + (creditAccounts accs now r l).1 := by
  induction l with
  | nil => intro accs _ _; rfl
  | cons p t ih =>
    obtain ⟨id, a⟩ := p
    intro accs h hn
    simp only [creditAccounts]
    simp only [List.map_cons, List.nodup_cons] at hn
    rw [ih]
    · have := accs.sum_set (fun _ a => a.totalRewards) id
        { a with totalRewards := a.totalRewards + accountReward a now r }
      have h0 := h (id, a) (by simp)
      simp only [Map.at', h0] at this
      omega
    · intro q hq
      rw [Map.get?_set_ne]
      · exact h q (by simp [hq])
      · intro e
        exact hn.1 (by rw [← e]; exact List.mem_map_of_mem hq)
    · exact hn.2

theorem credit_fst {now r : Nat} (l : List (Nat × Account)) :
    ∀ (accs : Map Nat Account),
    (creditAccounts accs now r l).1 = (l.map (fun p => accountReward p.2 now r)).sum := by
  induction l with
  | nil => intro accs; rfl
  | cons p t ih =>
    obtain ⟨id, a⟩ := p
    intro accs
    simp only [creditAccounts, List.map_cons, List.sum_cons]
    rw [ih]

theorem entries_ok (m : Map Nat Account) : ∀ p ∈ m.toList, m.get? p.1 = some p.2 :=
  fun p hp => (m.mem_iff p.1 p.2).1 hp

theorem u64sub_le {a b : Nat} (h : b ≤ a) : u64sub a b ≤ a - b := by
  unfold u64sub
  have : a + twoPow64 - b = (a - b) + twoPow64 := by omega
  rw [this, Nat.add_mod_right]
  exact Nat.mod_le _ _

theorem payOut_ok {w : World} {r : Addr} {amount : Nat} {b : Bank} (h : payOut w r amount = .ok b) :
    amount ≤ (w.bank (.mod .team)).amt kyve ∧
    (b (.mod .team)).amt kyve = (w.bank (.mod .team)).amt kyve - amount ∧
    (b (.user r)).amt kyve = (w.bank (.user r)).amt kyve + amount ∧
    ∀ a d, a ≠ .mod .team → a ≠ .user r → (b a).amt d = (w.bank a).amt d := by
  unfold payOut at h
  split at h
  · have := Bank.send_ok h
    obtain ⟨h1, h2⟩ := this
    have := h1 kyve
    simp at this
    refine ⟨this, ?_, ?_, ?_⟩
    · rw [h2]; simp
    · rw [h2]; simp
    · intro a d ha hb; rw [h2]; simp [ha, hb]
  · cases h

theorem AccInv.later {a : Account} {s t : Nat} (h : AccInv a s) (hst : s ≤ t) : AccInv a t :=
  ⟨h.sane, Nat.le_trans h.last hst, h.claimed, h.rewards⟩

theorem vested_congr {a b : Account} (h1 : a.totalAllocation = b.totalAllocation)
    (h2 : a.commencement = b.commencement) (h3 : a.clawback = b.clawback) (t : Nat) :
    vested a t = vested b t := by
  unfold vested; rw [h1, h2, h3]

theorem unlocked_congr {a b : Account} (h1 : a.totalAllocation = b.totalAllocation)
    (h2 : a.commencement = b.commencement) (h3 : a.clawback = b.clawback) (t : Nat) :
    unlocked a t = unlocked b t := by
  unfold unlocked unlockStart; rw [vested_congr h1 h2 h3, h2]

theorem AccInv.credit {a : Account} {now : Nat} (h : AccInv a now) (x : Nat) :
    AccInv { a with totalRewards := a.totalRewards + x } now := by
  refine ⟨⟨h.sane.total, h.sane.comm, h.sane.cb, h.sane.cb64⟩, h.last, ?_, ?_⟩
  · intro t ht
    have e : unlocked { a with totalRewards := a.totalRewards + x } t = unlocked a t :=
      unlocked_congr rfl rfl rfl t
    rw [e]
    exact h.claimed t ht
  · have := h.rewards; simp; omega

theorem distribute_accounts (w : World) (p s : Nat) :
    (distribute w p s).team.accounts
      = (creditAccounts w.team.accounts w.now (blockProvision w.team p s).1 w.team.accounts.toList).2 := by
  rfl

theorem distribute_auth (w : World) (p s : Nat) :
    (distribute w p s).team.authTotal = w.team.authTotal + u64sub (blockProvision w.team p s).1
      (creditAccounts w.team.accounts w.now (blockProvision w.team p s).1 w.team.accounts.toList).1 := by
  rfl

theorem distribute_claimed (w : World) (p s : Nat) :
    (distribute w p s).team.authClaimed = w.team.authClaimed := by
  rfl

theorem distribute_now (w : World) (p s : Nat) : (distribute w p s).now = w.now := by
  rfl

theorem distribute_halted (w : World) (p s : Nat) : (distribute w p s).halted =
  (w.halted || (blockProvision w.team p s).2
    || decide ((creditAccounts w.team.accounts w.now (blockProvision w.team p s).1 w.team.accounts.toList).1
        > (blockProvision w.team p s).1)
    || Bank.failed (w.bank.send (.mod .feeCollector) (.mod .team)
        (Coins.single kyve (blockProvision w.team p s).1))) := rfl

theorem distribute_bank (w : World) (p s : Nat) : (distribute w p s).bank =
    w.bank.orKeep (w.bank.send (.mod .feeCollector) (.mod .team)
      (Coins.single kyve (blockProvision w.team p s).1)) := rfl

theorem or4 {a b c d : Bool} (h : (a || b || c || d) = false) :
    a = false ∧ b = false ∧ c = false ∧ d = false := by
  revert a b c d; decide

theorem AllInv.distribute {w : World} (h : AllInv w) (p s : Nat) : AllInv (distribute w p s) := by
  unfold AllInv
  rw [distribute_accounts, distribute_now]
  exact credit_forall (fun a x ha => ha.credit x) _ _ h (fun q hq => h q.1 q.2 (entries_ok _ q hq))

theorem AllInv.step {w : World} (h : AllInv w) {op : Op} (ho : SaneOp op) : AllInv (step w op) := by
  cases op with
  | create auth total c =>
    simp only [Team.step, create]
    split_ifs with h1 h2 h3 <;> try exact h
    refine forall_set h ?_
    refine ⟨⟨ho.1, ho.2, Or.inl rfl, by simp⟩, Nat.zero_le _, ?_, Nat.le_refl _⟩
    intro t _; exact Nat.zero_le _
  | claimUnlocked auth id amount r =>
    simp only [Team.step, claimUnlocked]
    split
    · exact h
    · split
      · exact h
      · rename_i acc hacc
        split
        · exact h
        · rename_i hle
          split
          · exact h
          · rename_i b hb
            have ha := h id acc hacc
            refine forall_set h ?_
            refine ⟨⟨ha.sane.total, ha.sane.comm, ha.sane.cb, ha.sane.cb64⟩, Nat.le_refl _, ?_, ha.rewards⟩
            intro t ht
            have e : unlocked { acc with unlockedClaimed := acc.unlockedClaimed + amount, lastClaimedTime := w.now } t = unlocked acc t :=
              unlocked_congr rfl rfl rfl t
            rw [e]
            simp only at ht ⊢
            have h1 := ha.claimed w.now ha.last
            have h2 := unlocked_mono acc ht
            unfold claimable at hle
            rw [unlockedAmount_eq ha.sane] at hle
            split at hle <;> omega
  | clawback auth id cb =>
    simp only [Team.step, clawback]
    split
    · exact h
    · split
      · exact h
      · rename_i acc hacc
        split
        · exact h
        · rename_i hc1
          split
          · exact h
          · rename_i hc2
            have ha := h id acc hacc
            refine forall_set h ?_
            refine ⟨⟨ha.sane.total, ha.sane.comm, ?_, ho⟩, ha.last, ?_, ha.rewards⟩
            · simp only; omega
            · intro t ht
              simp only at ht ⊢
              have h1 := ha.claimed _ (Nat.le_refl _)
              have h2 := unlocked_le_noCb acc acc.lastClaimedTime
              have h3 := noCb_le_unlocked (a := { acc with clawback := cb }) (s := acc.lastClaimedTime) (t := t)
                (by simp only; omega) ht
              have h4 : unlocked (noCb { acc with clawback := cb }) acc.lastClaimedTime
                  = unlocked (noCb acc) acc.lastClaimedTime := unlocked_congr rfl rfl rfl _
              omega
  | claimAccountRewards auth id amount r =>
    simp only [Team.step, claimAccountRewards]
    split
    · exact h
    · split
      · exact h
      · rename_i acc hacc
        split
        · exact h
        · rename_i hle
          split
          · exact h
          · rename_i b hb
            have ha := h id acc hacc
            refine forall_set h ?_
            refine ⟨⟨ha.sane.total, ha.sane.comm, ha.sane.cb, ha.sane.cb64⟩, ha.last, ?_, ?_⟩
            · intro t ht
              have e : unlocked { acc with rewardsClaimed := acc.rewardsClaimed + amount } t = unlocked acc t :=
                unlocked_congr rfl rfl rfl t
              rw [e]
              exact ha.claimed t ht
            · have := u64sub_le ha.rewards
              have := ha.rewards
              simp only
              omega
  | claimAuthorityRewards auth amount r =>
    simp only [Team.step, claimAuthorityRewards]
    split
    · exact h
    · split
      · exact h
      · split <;> exact h
  | block dt p s =>
    simp only [Team.step]
    apply AllInv.distribute
    intro id a ha
    exact (h id a ha).later (by simp [tick])
  | external b gift => exact h

theorem AllInv.run {w : World} (h : AllInv w) {ops : List Op} (ho : ∀ op ∈ ops, SaneOp op) :
    AllInv (run w ops) := by
  induction ops generalizing w with
  | nil => exact h
  | cons op t ih =>
    exact ih (h.step (ho op (by simp))) (fun o hm => ho o (by simp [hm]))

theorem AllInv.init (bank : Bank) (now : Nat) : AllInv (World.init bank now) := by
  intro id a h; simp [World.init, State.init] at h

/-! ### solvency -/

/-- the solvency invariant for an initial module balance `B` -/
structure Solv (B : Nat) (w : World) : Prop where
  auth : w.team.authClaimed ≤ w.team.authTotal
  bal : B + credited w.team ≤ balance w + paid w.team

theorem halted_step {w : World} {op : Op} (h : (step w op).halted = false) : w.halted = false := by
  cases op with
  | create auth total c =>
    simp only [step, create] at h
    split_ifs at h <;> exact h
  | claimUnlocked auth id amount r =>
    simp only [step, claimUnlocked] at h
    split at h
    · exact h
    · split at h
      · exact h
      · split at h
        · exact h
        · split at h <;> exact h
  | clawback auth id cb =>
    simp only [step, clawback] at h
    split at h
    · exact h
    · split at h
      · exact h
      · split at h
        · exact h
        · split at h <;> exact h
  | claimAccountRewards auth id amount r =>
    simp only [step, claimAccountRewards] at h
    split at h
    · exact h
    · split at h
      · exact h
      · split at h
        · exact h
        · split at h <;> exact h
  | claimAuthorityRewards auth amount r =>
    simp only [step, claimAuthorityRewards] at h
    split at h
    · exact h
    · split at h
      · exact h
      · split at h <;> exact h
  | block dt p s =>
    unfold step at h
    rw [distribute_halted] at h
    exact (or4 h).1
  | external b gift => exact h

theorem halted_run {w : World} {ops : List Op} (h : (run w ops).halted = false) : w.halted = false := by
  induction ops generalizing w with
  | nil => exact h
  | cons op t ih => exact halted_step (ih h)

theorem credited_set {s : State} {id : Nat} {acc acc' : Account} (h : s.accounts.get? id = some acc)
    (e : acc'.totalRewards = acc.totalRewards) :
    credited { s with accounts := s.accounts.set id acc' } = credited s := by
  unfold credited
  have := s.accounts.sum_set (fun _ a => a.totalRewards) id acc'
  simp only [Map.at', h] at this
  simp only
  omega

theorem paid_set {s : State} {id : Nat} {acc acc' : Account} (h : s.accounts.get? id = some acc) :
    paid { s with accounts := s.accounts.set id acc' } + (acc.unlockedClaimed + acc.rewardsClaimed)
      = paid s + (acc'.unlockedClaimed + acc'.rewardsClaimed) := by
  unfold paid
  have := s.accounts.sum_set (fun _ a => a.unlockedClaimed + a.rewardsClaimed) id acc'
  simp only [Map.at', h] at this
  simp only
  omega

theorem Solv.step {B : Nat} {w : World} (h : Solv B w) (hs : AllInv w) (hid : ∀ j, w.team.count ≤ j → w.team.accounts.get? j = none)
    {op : Op} (hh : (step w op).halted = false) : Solv B (step w op) := by
  cases op with
  | create auth total c =>
    simp only [Team.step, create]
    split_ifs with h1 h2 h3 <;> try exact h
    refine ⟨h.auth, ?_⟩
    have hn := hid w.team.count (Nat.le_refl _)
    have e1 := w.team.accounts.sum_set_absent (fun _ a => a.totalRewards)
      (⟨w.team.count, total, c, 0, 0, 0, 0, 0⟩ : Account) hn
    have e2 := w.team.accounts.sum_set_absent (fun _ a => a.unlockedClaimed + a.rewardsClaimed)
      (⟨w.team.count, total, c, 0, 0, 0, 0, 0⟩ : Account) hn
    have := h.bal
    unfold credited paid balance orElse at *
    simp only at *
    rw [e1, e2]
    omega
  | claimUnlocked auth id amount r =>
    simp only [Team.step, claimUnlocked]
    split
    · exact h
    · split
      · exact h
      · rename_i acc hacc
        split
        · exact h
        · split
          · exact h
          · rename_i b hb
            refine ⟨h.auth, ?_⟩
            obtain ⟨p1, p2, p3, p4⟩ := payOut_ok hb
            have e1 := credited_set (acc' := { acc with unlockedClaimed := acc.unlockedClaimed + amount, lastClaimedTime := w.now }) hacc rfl
            have e2 := paid_set (acc' := { acc with unlockedClaimed := acc.unlockedClaimed + amount, lastClaimedTime := w.now }) hacc
            have := h.bal
            simp only [orElse, balance] at *
            rw [e1]
            omega
  | clawback auth id cb =>
    simp only [Team.step, clawback]
    split
    · exact h
    · split
      · exact h
      · rename_i acc hacc
        split
        · exact h
        · split
          · exact h
          · refine ⟨h.auth, ?_⟩
            have e1 := credited_set (acc' := { acc with clawback := cb }) hacc rfl
            have e2 := paid_set (acc' := { acc with clawback := cb }) hacc
            have := h.bal
            simp only [orElse, balance] at *
            rw [e1]
            omega
  | claimAccountRewards auth id amount r =>
    simp only [Team.step, claimAccountRewards]
    split
    · exact h
    · split
      · exact h
      · rename_i acc hacc
        split
        · exact h
        · split
          · exact h
          · rename_i b hb
            refine ⟨h.auth, ?_⟩
            obtain ⟨p1, p2, p3, p4⟩ := payOut_ok hb
            have e1 := credited_set (acc' := { acc with rewardsClaimed := acc.rewardsClaimed + amount }) hacc rfl
            have e2 := paid_set (acc' := { acc with rewardsClaimed := acc.rewardsClaimed + amount }) hacc
            have := h.bal
            simp only [orElse, balance] at *
            rw [e1]
            omega
  | claimAuthorityRewards auth amount r =>
    simp only [Team.step, claimAuthorityRewards]
    split
    · exact h
    · split
      · exact h
      · rename_i hle
        split
        · exact h
        · rename_i b hb
          obtain ⟨p1, p2, p3, p4⟩ := payOut_ok hb
          have := u64sub_le h.auth
          have := h.auth
          have := h.bal
          refine ⟨?_, ?_⟩
          · simp only [orElse]; omega
          · simp only [orElse, balance, credited, paid] at *
            omega
  | block dt p s =>
    simp only [Team.step] at hh ⊢
    set w' : World := tick w dt p with hw'
    have hb' : balance w' = balance w := by simp [balance, hw', tick, Bank.upd]
    have hteam : w'.team = w.team := rfl
    set r := (blockProvision w'.team p s).1 with hr
    have hall : AllInv w' := by
      intro id a ha
      exact (hs id a ha).later (by simp [hw', tick])
    -- not halted: the transfer succeeded and the sum is within the reward
    have key : (creditAccounts w'.team.accounts w'.now r w'.team.accounts.toList).1 ≤ r
        ∧ balance (distribute w' p s) = balance w' + r := by
      rw [distribute_halted, ← hr] at hh
      obtain ⟨_, _, hh3, hh4⟩ := or4 hh
      refine ⟨Nat.le_of_not_lt (of_decide_eq_false hh3), ?_⟩
      unfold balance
      rw [distribute_bank, ← hr]
      cases hb : w'.bank.send (.mod .feeCollector) (.mod .team) (Coins.single kyve r) with
      | error e => rw [hb] at hh4; cases hh4
      | ok b =>
        have := (Bank.send_ok hb).2 (.mod .team) kyve
        simp [Bank.orKeep] at this ⊢
        exact this
    obtain ⟨k1, k2⟩ := key
    have e1 := credit_total (now := w'.now) (r := r) w'.team.accounts.toList w'.team.accounts (entries_ok _) w'.team.accounts.keys_nodup
    have e2 := credit_sum (f := fun a => a.unlockedClaimed + a.rewardsClaimed) (now := w'.now) (r := r)
      (fun _ _ => rfl) w'.team.accounts.toList w'.team.accounts (entries_ok _) w'.team.accounts.keys_nodup
    have e3 := u64sub_le k1
    have h0 := h.bal
    have h1 := h.auth
    refine ⟨?_, ?_⟩
    · rw [distribute_auth, distribute_claimed]
      rw [hteam]; omega
    · rw [k2, hb']
      unfold credited paid at *
      rw [distribute_accounts, distribute_auth, distribute_claimed]
      rw [← hr, e1, e2, hteam]
      rw [hteam] at k1 e3
      omega
  | external b gift =>
    simp only [Team.step]
    refine ⟨h.auth, ?_⟩
    have h0 := h.bal
    simp only [balance, if_true, Coins.amt_add] at *
    omega

/-- ids at or above the counter are unused -/
def Fresh (s : State) : Prop := ∀ j, s.count ≤ j → s.accounts.get? j = none

theorem Fresh.set {s : State} (h : Fresh s) {id : Nat} {a acc : Account} (hacc : s.accounts.get? id = some acc) :
    Fresh { s with accounts := s.accounts.set id a } := by
  intro j hj
  simp only at hj ⊢
  rw [Map.get?_set_ne]
  · exact h j hj
  · rintro rfl
    rw [h j hj] at hacc; cases hacc

theorem credit_fresh {now r n : Nat} (l : List (Nat × Account)) :
    ∀ (accs : Map Nat Account), (∀ j, n ≤ j → accs.get? j = none) → (∀ p ∈ l, p.1 < n) →
    ∀ j, n ≤ j → (creditAccounts accs now r l).2.get? j = none := by
  induction l with
  | nil => intro accs h _; exact h
  | cons p t ih =>
    obtain ⟨id, a⟩ := p
    intro accs h hl
    simp only [creditAccounts]
    apply ih
    · intro j hj
      rw [Map.get?_set_ne]
      · exact h j hj
      · have := hl (id, a) (by simp)
        simp only at this
        omega
    · exact fun q hq => hl q (by simp [hq])

theorem Fresh.step {w : World} (h : Fresh w.team) (op : Op) : Fresh (step w op).team := by
  cases op with
  | create auth total c =>
    simp only [Team.step, create]
    split_ifs <;> try exact h
    intro j hj
    simp only [orElse] at hj ⊢
    rw [Map.get?_set_ne]
    · exact h j (by omega)
    · omega
  | claimUnlocked auth id amount r =>
    simp only [Team.step, claimUnlocked]
    split
    · exact h
    · split
      · exact h
      · rename_i hacc
        split
        · exact h
        · split
          · exact h
          · exact h.set hacc
  | clawback auth id cb =>
    simp only [Team.step, clawback]
    split
    · exact h
    · split
      · exact h
      · rename_i hacc
        split
        · exact h
        · split
          · exact h
          · exact h.set hacc
  | claimAccountRewards auth id amount r =>
    simp only [Team.step, claimAccountRewards]
    split
    · exact h
    · split
      · exact h
      · rename_i hacc
        split
        · exact h
        · split
          · exact h
          · exact h.set hacc
  | claimAuthorityRewards auth amount r =>
    simp only [Team.step, claimAuthorityRewards]
    split
    · exact h
    · split
      · exact h
      · split <;> exact h
  | block dt p s =>
    simp only [Team.step]
    unfold Fresh
    rw [distribute_accounts]
    intro j hj
    apply credit_fresh (n := w.team.count)
    · exact h
    · intro q hq
      by_contra hcon
      have := entries_ok _ q hq
      have h2 : w.team.accounts.get? q.1 = none := h q.1 (by omega)
      have h3 : w.team.accounts.get? q.1 = some q.2 := this
      rw [h2] at h3
      cases h3
    · exact hj
  | external b gift => exact h

theorem Fresh.init (bank : Bank) (now : Nat) : Fresh (World.init bank now).team := by
  intro j _; rfl

theorem Solv.run {B : Nat} {w : World} (h : Solv B w) (hs : AllInv w) (hf : Fresh w.team) {ops : List Op}
    (ho : ∀ op ∈ ops, SaneOp op) (hh : (run w ops).halted = false) : Solv B (run w ops) := by
  induction ops generalizing w with
  | nil => exact h
  | cons op t ih =>
    exact ih (h.step hs hf (halted_run hh)) (hs.step (ho op (by simp))) (hf.step op)
      (fun o hm => ho o (by simp [hm])) hh

end Verif.Team
