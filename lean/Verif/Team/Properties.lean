import Verif.Team.Issue

/-!
# Properties of x/team (C41 - C45, C52 for team messages)
-/

namespace Verif.Team
open Verif Spec

/-- an account used in the examples: 3 KYVE vesting from the token generation event -/
def exAcc : Account := ⟨0, 3000000, TGE, 0, 0, 0, 0, 0⟩

def exBank : Bank := fun _ => Coins.single kyve ALLOCATION

theorem exAcc_sane : Sane exAcc := ⟨by decide, by decide, Or.inl rfl, by decide⟩

/-! ## C41 the vesting curve -/

/-- C41: the vested amount is exactly the specified curve (no rounding error beyond one integer division). -/
theorem C41_vested_exact (a : Account) (h : Sane a) (t : Nat) : vestedAmount a t = vested a t :=
  vestedAmount_eq h t

/-- C41: the unlocked amount is exactly the specified curve. -/
theorem C41_unlocked_exact (a : Account) (h : Sane a) (t : Nat) : unlockedAmount a t = unlocked a t :=
  unlockedAmount_eq h t

/-- C41: unlocked ≤ vested ≤ what the account can maximally vest ≤ its allocation, at every time. -/
theorem C41_bounds (a : Account) (h : Sane a) (t : Nat) :
    unlockedAmount a t ≤ vestedAmount a t ∧ vestedAmount a t ≤ maxAmount a ∧ maxAmount a ≤ a.totalAllocation := by
  rw [unlockedAmount_eq h, vestedAmount_eq h]
  exact ⟨unlocked_le_vested a t, vested_le_max h t, maxAmount_le h⟩

/-- C41: vested and unlocked amounts never decrease. -/
theorem C41_monotone (a : Account) (h : Sane a) {s t : Nat} (hst : s ≤ t) :
    vestedAmount a s ≤ vestedAmount a t ∧ unlockedAmount a s ≤ unlockedAmount a t := by
  rw [unlockedAmount_eq h, vestedAmount_eq h, unlockedAmount_eq h, vestedAmount_eq h]
  exact ⟨vested_mono a hst, unlocked_mono a hst⟩

/-- C41: a clawback date freezes vesting: after it the vested amount stays what it was on that date. -/
theorem C41_clawback_freezes (a : Account) (h : Sane a) (hc : a.clawback ≠ 0) {t : Nat} (ht : a.clawback ≤ t) :
    vestedAmount a t = vestedAmount a a.clawback := by
  rw [vestedAmount_eq h, vestedAmount_eq h]
  unfold vested elapsed
  rw [if_neg hc, if_neg hc, Nat.min_eq_right ht, Nat.min_self]

/-- C41: nothing vests in the first year, everything has unlocked three years after commencement and TGE if there
is no clawback. -/
theorem C41_endpoints (a : Account) (h : Sane a) (hc : a.clawback = 0) (t : Nat) :
    (t < a.commencement + year → vestedAmount a t = 0) ∧
    (max a.commencement TGE + 3 * year ≤ t → unlockedAmount a t = a.totalAllocation) := by
  constructor
  · intro ht
    rw [vestedAmount_eq h]
    unfold vested vestedAfter elapsed
    rw [if_pos hc, if_pos (by have := year_pos; omega)]
  · intro ht
    rw [unlockedAmount_eq h]
    unfold unlocked unlockStart
    have := year_pos
    rw [if_neg (by omega), if_neg (by omega)]
    unfold vested vestedAfter elapsed
    rw [if_pos hc, if_neg (by omega), if_neg (by omega)]

example : vestedAmount exAcc (TGE + 2 * year) = 2000000 ∧ unlockedAmount exAcc (TGE + 2 * year) = 1000000
    ∧ unlockedAmount { exAcc with clawback := TGE + 2 * year } (TGE + 3 * year) = 2000000 := by
  refine ⟨?_, ?_, ?_⟩
  · rw [C41_vested_exact _ exAcc_sane]; decide
  · rw [C41_unlocked_exact _ exAcc_sane]; decide
  · rw [C41_unlocked_exact _ ⟨by decide, by decide, by decide, by decide⟩]; decide

theorem isAuthority_iff {a : Addr} (h : isAuthority a = true) : a = FOUNDATION ∨ a = BCP := by
  simpa [isAuthority] using h

/-! ## C42 claims and clawbacks -/

/-- C42: at every point of every history, for every account and every present or future time, what was claimed is at
most what is unlocked and at most what is vested. In particular no clawback takes back claimed coins. -/
theorem C42_claimed_is_unlocked (bank : Bank) (now : Nat) (ops : List Op) (ho : ∀ op ∈ ops, SaneOp op)
    (id : Nat) (acc : Account) (h : (run (World.init bank now) ops).team.accounts.get? id = some acc)
    (t : Nat) (ht : (run (World.init bank now) ops).now ≤ t) :
    acc.unlockedClaimed ≤ unlockedAmount acc t ∧ acc.unlockedClaimed ≤ vestedAmount acc t := by
  have hI := ((AllInv.init bank now).run ho) id acc h
  rw [unlockedAmount_eq hI.sane, vestedAmount_eq hI.sane]
  have h1 := hI.claimed t (Nat.le_trans hI.last ht)
  exact ⟨h1, Nat.le_trans h1 (unlocked_le_vested acc t)⟩

/-- C42: a successful claim pays exactly the requested amount to the recipient and that amount was unlocked and not
yet claimed. -/
theorem C42_claim_pays (w w' : World) (auth : Addr) (id amount : Nat) (r : Addr)
    (h : claimUnlocked w auth id amount r = .ok w') :
    (auth = FOUNDATION ∨ auth = BCP) ∧
    ∃ acc, w.team.accounts.get? id = some acc ∧
      (amount = 0 ∨ acc.unlockedClaimed + amount ≤ unlockedAmount acc w.now) ∧
      (w'.bank (.user r)).amt kyve = (w.bank (.user r)).amt kyve + amount ∧
      balance w = balance w' + amount ∧
      w'.team.accounts.get? id
        = some { acc with unlockedClaimed := acc.unlockedClaimed + amount, lastClaimedTime := w.now } ∧
      ∀ j, j ≠ id → w'.team.accounts.get? j = w.team.accounts.get? j := by
  unfold claimUnlocked at h
  split at h
  · cases h
  · rename_i ha
    split at h
    · cases h
    · rename_i acc hacc
      split at h
      · cases h
      · rename_i hle
        split at h
        · cases h
        · rename_i b hb
          cases h
          obtain ⟨p1, p2, p3, p4⟩ := payOut_ok hb
          refine ⟨isAuthority_iff (by simpa using ha), acc, hacc, ?_, p3, ?_, by simp, ?_⟩
          · unfold claimable at hle
            split at hle <;> omega
          · simp only [balance]; omega
          · intro j hj; simp only; rw [Map.get?_set_ne _ _ hj]

/-- the hypotheses are met: an account is created, two years pass, half of the vested tokens are claimed -/
def exOps : List Op :=
  [.create FOUNDATION 3000000 TGE, .block (2 * year) 1000000 (10 * ALLOCATION), .claimUnlocked BCP 0 1000000 7]

theorem exOps_sane : ∀ op ∈ exOps, SaneOp op := by
  intro op hop
  simp only [exOps, List.mem_cons, List.not_mem_nil, or_false] at hop
  rcases hop with rfl | rfl | rfl <;> simp only [SaneOp] <;> decide

example : (run (World.init exBank TGE) exOps).halted = false ∧
    ((run (World.init exBank TGE) exOps).team.accounts.get? 0).map (·.unlockedClaimed) = some 1000000 ∧
    (run (World.init exBank TGE) exOps).team.authTotal > 0 ∧
    requiredModuleBalance (run (World.init exBank TGE) exOps).team ≤ 10 * ALLOCATION - 1000000 := by
  decide +kernel

example : OnlyTighten (World.init exBank TGE) exOps := ⟨trivial, trivial, trivial, trivial⟩

/-! ## C43 the issued allocation -/

/-- C43 is false of the code (1): claw back an account, reuse its allocation for another one, then remove the
clawback. Two full team allocations are issued. -/
theorem C43_false_unclawback :
    ∃ ops : List Op, (∀ op ∈ ops, SaneOp op) ∧
      totalIssued (run (World.init exBank TGE) ops).team = 2 * ALLOCATION := by
  refine ⟨[.create FOUNDATION ALLOCATION TGE, .clawback FOUNDATION 0 TGE, .create FOUNDATION ALLOCATION TGE,
    .clawback FOUNDATION 0 0], ?_, ?_⟩
  · intro op hop
    simp only [List.mem_cons, List.not_mem_nil, or_false] at hop
    rcases hop with rfl | rfl | rfl | rfl <;> simp only [SaneOp] <;> decide
  · decide +kernel

/-- C43 is false of the code (2): the check `issued + total > allocation` wraps around in `uint64`. -/
theorem C43_false_overflow :
    ∃ ops : List Op, totalIssued (run (World.init exBank TGE) ops).team = 2 ^ 64 ∧
      issued (run (World.init exBank TGE) ops).team = 0 :=
  ⟨[.create FOUNDATION 1 TGE, .create FOUNDATION (2 ^ 64 - 1) TGE], by decide +kernel, by decide +kernel⟩

/-- C43, partial: if a clawback date is only ever moved earlier and the numbers are in range, the accounts together can
never vest more than the team allocation. Missing: histories that move a clawback date later or remove it, and
allocations of 2^63 or more (both false, see above). -/
theorem C43_issued_bounded_partial (bank : Bank) (now : Nat) (ops : List Op) (ho : ∀ op ∈ ops, SaneOp op)
    (ht : OnlyTighten (World.init bank now) ops) :
    totalIssued (run (World.init bank now) ops).team ≤ 165000000000000000 :=
  issued_run (Nat.zero_le _) (AllInv.init bank now) (Fresh.init bank now) ho ht

example : OnlyTighten (World.init exBank TGE)
    [.create FOUNDATION ALLOCATION TGE, .clawback FOUNDATION 0 (TGE + 2 * year), .clawback FOUNDATION 0 (TGE + year)] := by
  refine ⟨trivial, ?_, ?_, trivial⟩
  · intro acc h
    have e : (step (World.init exBank TGE) (.create FOUNDATION ALLOCATION TGE)).team.accounts.get? 0
        = some ⟨0, ALLOCATION, TGE, 0, 0, 0, 0, 0⟩ := by decide +kernel
    rw [e] at h; cases h; decide
  · intro acc h
    have e : (step (step (World.init exBank TGE) (.create FOUNDATION ALLOCATION TGE))
        (.clawback FOUNDATION 0 (TGE + 2 * year))).team.accounts.get? 0
        = some ⟨0, ALLOCATION, TGE, TGE + 2 * year, 0, 0, 0, 0⟩ := by decide +kernel
    rw [e] at h; cases h; decide

/-! ## C44 the module account -/

/-- C44: as long as no emergency halt happened, the team module account holds at least everything it still owes:
the unclaimed part of its initial funds plus all credited but unclaimed rewards; and nobody has claimed more rewards
than credited. `B` is the initial balance (the team allocation at genesis). -/
theorem C44_solvent (bank : Bank) (now : Nat) (ops : List Op) (ho : ∀ op ∈ ops, SaneOp op)
    (hh : (run (World.init bank now) ops).halted = false) :
    (bank (.mod .team)).amt kyve + credited (run (World.init bank now) ops).team
      ≤ balance (run (World.init bank now) ops) + paid (run (World.init bank now) ops).team ∧
    (run (World.init bank now) ops).team.authClaimed ≤ (run (World.init bank now) ops).team.authTotal ∧
    ∀ id acc, (run (World.init bank now) ops).team.accounts.get? id = some acc →
      acc.rewardsClaimed ≤ acc.totalRewards := by
  have h0 : Solv ((bank (.mod .team)).amt kyve) (World.init bank now) :=
    ⟨Nat.le_refl _, by simp [credited, paid, balance, World.init, State.init]⟩
  have hs := h0.run (AllInv.init bank now) (Fresh.init bank now) ho hh
  exact ⟨hs.bal, hs.auth, fun id acc h => ((AllInv.init bank now).run ho id acc h).rewards⟩

/-- C44: claiming account rewards pays exactly the amount, which was available. -/
theorem C44_claim_account_rewards (w w' : World) (auth : Addr) (id amount : Nat) (r : Addr)
    (h : claimAccountRewards w auth id amount r = .ok w') :
    (auth = FOUNDATION ∨ auth = BCP) ∧
    ∃ acc, w.team.accounts.get? id = some acc ∧
      (acc.rewardsClaimed ≤ acc.totalRewards → acc.rewardsClaimed + amount ≤ acc.totalRewards) ∧
      (w'.bank (.user r)).amt kyve = (w.bank (.user r)).amt kyve + amount ∧
      balance w = balance w' + amount ∧
      w'.team.accounts.get? id = some { acc with rewardsClaimed := acc.rewardsClaimed + amount } := by
  unfold claimAccountRewards at h
  split at h
  · cases h
  · rename_i ha
    split at h
    · cases h
    · rename_i acc hacc
      split at h
      · cases h
      · rename_i hle
        split at h
        · cases h
        · rename_i b hb
          cases h
          obtain ⟨p1, p2, p3, p4⟩ := payOut_ok hb
          refine ⟨isAuthority_iff (by simpa using ha), acc, hacc, ?_, p3, ?_, by simp⟩
          · intro hr
            have := u64sub_le hr
            omega
          · simp only [balance]; omega

/-- C44: authority rewards can only be claimed by the foundation, and only what is available. -/
theorem C44_claim_authority_rewards (w w' : World) (auth : Addr) (amount : Nat) (r : Addr)
    (h : claimAuthorityRewards w auth amount r = .ok w') :
    auth = FOUNDATION ∧
    (w.team.authClaimed ≤ w.team.authTotal → w.team.authClaimed + amount ≤ w.team.authTotal) ∧
    w'.team.authClaimed = w.team.authClaimed + amount ∧
    (w'.bank (.user r)).amt kyve = (w.bank (.user r)).amt kyve + amount ∧
    balance w = balance w' + amount := by
  unfold claimAuthorityRewards at h
  split at h
  · cases h
  · rename_i ha
    split at h
    · cases h
    · rename_i hle
      split at h
      · cases h
      · rename_i b hb
        cases h
        obtain ⟨p1, p2, p3, p4⟩ := payOut_ok hb
        refine ⟨by simpa using ha, ?_, rfl, p3, ?_⟩
        · intro hr
          have := u64sub_le hr
          omega
        · simp only [balance]; omega

/-! ## C45 the inflation split -/

/-- C45: in every reachable state (numbers in range) whose issued amounts are within the allocation, a block distributes
the team's reward completely: the credited rewards grow by exactly the reward, nothing halts the chain - provided the team
does not own more than the supply, the reward is a 63-bit number and the number of accounts times the reward is below
2*10^18 (otherwise the rounding of the shares can add up to a whole unit, `C45_false_rounding`). -/
theorem C45_split_exact (bank : Bank) (now : Nat) (ops : List Op) (ho : ∀ op ∈ ops, SaneOp op)
    (dt provision supply : Nat) (w : World) (hw : w = run (World.init bank now) ops)
    (hi : totalIssued w.team ≤ ALLOCATION)
    (hbal : requiredModuleBalance w.team ≤ supply - provision)
    (hn : provision * w.team.accounts.size < 2 * Dec.one) (hp : provision < 2 ^ 63) :
    (step w (.block dt provision supply)).halted = w.halted ∧
    ∃ r, r ≤ provision ∧
      credited (step w (.block dt provision supply)).team = credited w.team + r ∧
      balance (step w (.block dt provision supply)) = balance w + r := by
  have hs : AllInv w := by rw [hw]; exact (AllInv.init bank now).run ho
  rw [show step w (.block dt provision supply) = distribute (tick w dt provision) provision supply from rfl]
  set w' : World := tick w dt provision with hw'
  have hteam : w'.team = w.team := rfl
  have hhalt : w'.halted = w.halted := rfl
  have hbal' : balance w' = balance w := by simp [balance, hw', tick, Bank.upd]
  have hfee : provision ≤ (w'.bank (.mod .feeCollector)).amt kyve := by simp [hw', tick, Bank.upd]
  have hall : AllInv w' := fun id a ha => (hs id a ha).later (by simp [hw', tick])
  clear_value w'
  -- the share is at most one
  have hshare : Dec.quo (Dec.ofNat (requiredModuleBalance w'.team)) (Dec.ofNat (supply - provision)) ≤ Dec.one := by
    rw [hteam]
    unfold Dec.quo Dec.ofNat
    apply Dec.chop_le_of_le
    apply Nat.div_le_of_le_mul
    calc requiredModuleBalance w.team * Dec.one * Dec.one * Dec.one
        ≤ (supply - provision) * Dec.one * Dec.one * Dec.one := by gcongr
      _ = (supply - provision) * Dec.one * (Dec.one * Dec.one) := by ring
  have hbad : (blockProvision w'.team provision supply).2 = false :=
    decide_eq_false (Nat.not_lt_of_le hshare)
  have hrle : (blockProvision w'.team provision supply).1 ≤ provision := by
    unfold blockProvision
    simp only
    rw [Dec.mul_ofNat]
    apply Dec.trunc_le
    rw [Nat.mul_comm provision]
    exact Nat.mul_le_mul_right _ hshare
  have hsz : (blockProvision w'.team provision supply).1 * w'.team.accounts.size < 2 * Dec.one := by
    rw [hteam] at hrle ⊢
    exact Nat.lt_of_le_of_lt (Nat.mul_le_mul_right _ hrle) hn
  have hcr := credit_le hall (by rw [hteam]; exact hi) _ hsz
  set r := (blockProvision w'.team provision supply).1 with hr
  obtain ⟨b, hb⟩ := Bank.send_succeeds (b := w'.bank) (s := .mod .feeCollector) (t := .mod .team)
    (c := Coins.single kyve r) (by
      intro d
      rw [Coins.amt_single]
      split
      · rename_i e; subst e; omega
      · exact Nat.zero_le _)
  have hb2 := (Bank.send_ok hb).2 (.mod .team) kyve
  refine ⟨?_, r, hrle, ?_, ?_⟩
  · rw [distribute_halted, hbad, hhalt, ← hr, hb, decide_eq_false (Nat.not_lt_of_le hcr)]
    simp [Bank.failed]
  · unfold credited
    rw [distribute_accounts, distribute_auth, ← hr,
      credit_total _ _ (entries_ok _) (Map.keys_nodup _),
      u64sub_of_le hcr (by unfold twoPow64; omega)]
    rw [hteam] at hcr ⊢
    omega
  · rw [← hbal']
    unfold balance
    rw [distribute_bank, ← hr, hb]
    simp at hb2
    exact hb2

/-- C45: the condition on the issued amounts holds of every history that never moves a clawback date later (C43). -/
theorem C45_tightened (bank : Bank) (now : Nat) (ops : List Op) (ho : ∀ op ∈ ops, SaneOp op)
    (ht : OnlyTighten (World.init bank now) ops) (dt provision supply : Nat)
    (w : World) (hw : w = run (World.init bank now) ops)
    (hbal : requiredModuleBalance w.team ≤ supply - provision)
    (hn : provision * w.team.accounts.size < 2 * Dec.one) (hp : provision < 2 ^ 63) :
    (step w (.block dt provision supply)).halted = w.halted :=
  (C45_split_exact bank now ops ho dt provision supply w hw (by rw [hw]; exact C43_issued_bounded_partial bank now ops ho ht)
    hbal hn hp).1

/-- a block of 1000000 ukyve with one account vesting the whole allocation -/
example : let w := run (World.init exBank TGE) [.create FOUNDATION ALLOCATION TGE]
    totalIssued w.team ≤ ALLOCATION ∧ requiredModuleBalance w.team ≤ (10 * ALLOCATION + 1000000) - 1000000 ∧
    1000000 * w.team.accounts.size < 2 * Dec.one ∧
    balance (step w (.block (2 * year) 1000000 (10 * ALLOCATION + 1000000))) = balance w + 100000 ∧
    credited (step w (.block (2 * year) 1000000 (10 * ALLOCATION + 1000000))).team = credited w.team + 100000 := by decide +kernel

/-- C45 without the bound on the reward is false of the code: three accounts whose shares are rounded up get more than
the whole reward, and the chain halts. -/
theorem C45_false_rounding :
    ∃ ops : List Op, (∀ op ∈ ops, SaneOp op) ∧ ∃ dt provision supply : Nat,
      totalIssued (run (World.init exBank TGE) ops).team ≤ ALLOCATION ∧ provision < 2 ^ 63 ∧
      requiredModuleBalance (run (World.init exBank TGE) ops).team ≤ supply - provision ∧
      (run (World.init exBank TGE) ops).halted = false ∧
      (step (run (World.init exBank TGE) ops) (.block dt provision supply)).halted = true := by
  refine ⟨[.create FOUNDATION (ALLOCATION / 3 + 22) TGE, .create FOUNDATION (ALLOCATION / 3 - 11) TGE,
    .create FOUNDATION (ALLOCATION / 3 - 11) TGE], ?_, 10 * year, 9 * 10 ^ 18, ALLOCATION + 9 * 10 ^ 18, ?_, ?_, ?_, ?_, ?_⟩
  · intro op hop
    simp only [List.mem_cons, List.not_mem_nil, or_false] at hop
    rcases hop with rfl | rfl | rfl <;> simp only [SaneOp] <;> decide
  all_goals decide +kernel

/-- C45 without the bound on the issued amounts is false of the code: accounts that together vest twice the allocation
(`C43_false_unclawback`) get more than the whole reward, and the chain halts. -/
theorem C45_false_issued :
    ∃ ops : List Op, (∀ op ∈ ops, SaneOp op) ∧ ∃ dt provision supply : Nat,
      provision * (run (World.init exBank TGE) ops).team.accounts.size < 2 * Dec.one ∧
      requiredModuleBalance (run (World.init exBank TGE) ops).team ≤ supply - provision ∧
      (run (World.init exBank TGE) ops).halted = false ∧
      (step (run (World.init exBank TGE) ops) (.block dt provision supply)).halted = true := by
  refine ⟨[.create FOUNDATION ALLOCATION TGE, .clawback FOUNDATION 0 TGE, .create FOUNDATION ALLOCATION TGE,
    .clawback FOUNDATION 0 0], ?_, 10 * year, 10 ^ 9, 10 * ALLOCATION + 10 ^ 9, ?_, ?_, ?_, ?_⟩
  · intro op hop
    simp only [List.mem_cons, List.not_mem_nil, or_false] at hop
    rcases hop with rfl | rfl | rfl | rfl <;> simp only [SaneOp] <;> decide
  all_goals decide +kernel

/-! ## C52 (team): only the team authorities -/

/-- C52: team messages by anybody but the team authorities change nothing. -/
theorem C52_team_authority (w : World) (auth : Addr) (h1 : auth ≠ FOUNDATION) (h2 : auth ≠ BCP)
    (id amount total c cb : Nat) (r : Addr) :
    step w (.create auth total c) = w ∧ step w (.claimUnlocked auth id amount r) = w ∧
    step w (.clawback auth id cb) = w ∧ step w (.claimAccountRewards auth id amount r) = w ∧
    step w (.claimAuthorityRewards auth amount r) = w := by
  have hA : isAuthority auth = false := by simp [isAuthority, h1, h2]
  simp [step, create, claimUnlocked, clawback, claimAccountRewards, claimAuthorityRewards, hA, h1, orElse]

example : (7 : Addr) ≠ FOUNDATION ∧ (7 : Addr) ≠ BCP := by decide

/-- C52: the rewards of the authority are claimed by the foundation only (the second team authority cannot). -/
theorem C52_team_foundation (w : World) (auth : Addr) (h : auth ≠ FOUNDATION) (amount : Nat) (r : Addr) :
    step w (.claimAuthorityRewards auth amount r) = w := by
  simp [step, claimAuthorityRewards, h, orElse]

example : BCP ≠ FOUNDATION := by decide

end Verif.Team
