import Verif.Team.Issue
import Verif.Team.Properties
import Mathlib.Data.Int.ModEq

/-!
# C69: the queries of x/team

Model of `GetVestingStatus`, `GetVestingPlan` and `GetTeamInfo` (/repo/x/team/keeper/logic_team.go) as the queries
`TeamVestingStatus`, `TeamVestingStatusByTime` and `TeamInfo` show them, and what they promise: the amounts shown add up
and are what the claim messages accept.
-/

namespace Verif.Team
open Verif Spec

/-! ## model -/

/-- proto `QueryVestingStatus` -/
structure VestingStatus where
  vested : Nat
  unlocked : Nat
  claimable : Nat
  locked : Nat
  remaining : Nat
  claimed : Nat
  totalRewards : Nat
  claimedRewards : Nat
  availableRewards : Nat
deriving DecidableEq, Repr

/-- logic_team.go:51-65 `GetVestingStatus`, grpc_query_vesting_status_by_time.go:25-35; `uint64` differences -/
def vestingStatus (a : Account) (time : Nat) : VestingStatus where
  vested := vestedAmount a time
  unlocked := unlockedAmount a time
  claimable := claimable a time
  locked := u64sub (vestedAmount a time) (unlockedAmount a time)
  remaining := u64sub (maxAmount a) (vestedAmount a time)
  claimed := a.unlockedClaimed
  totalRewards := a.totalRewards
  claimedRewards := a.rewardsClaimed
  availableRewards := u64sub a.totalRewards a.rewardsClaimed

/-- proto `QueryVestingPlan` (times as Unix seconds) -/
structure VestingPlan where
  vestingStart : Nat
  vestingFinished : Nat
  unlockStart : Nat
  unlockFinished : Nat
  clawback : Nat
  clawbackAmount : Nat
  maximum : Nat
deriving DecidableEq, Repr

/-- logic_team.go:68-81 `GetVestingPlan`, grpc_query_vesting_status_by_time.go:37-48 -/
def vestingPlan (a : Account) : VestingPlan where
  vestingStart := u64add a.commencement CLIFF
  vestingFinished := u64add a.commencement VESTING
  unlockStart := lockUpReferenceDate a
  unlockFinished := u64add (lockUpReferenceDate a) UNLOCK
  clawback := a.clawback
  clawbackAmount := u64sub a.totalAllocation (maxAmount a)
  maximum := maxAmount a

/-- proto `QueryTeamInfoResponse`, the numbers that are not constants -/
structure TeamInfo where
  issued : Nat
  available : Nat
  totalAuthority : Nat
  claimedAuthority : Nat
  availableAuthority : Nat
  totalAccounts : Nat
  claimedAccounts : Nat
  availableAccounts : Nat
  required : Nat
  balance : Nat
deriving DecidableEq, Repr

/-- a `uint64` sum over the accounts -/
def sumAccounts (s : State) (f : Account → Nat) : Nat := s.accounts.vals.foldl (fun r a => u64add r (f a)) 0

/-- logic_team.go:95-125 `GetTeamInfo`; `uint64(coins.Amount.Int64())` panics from `2^63` on, which is left out -/
def teamInfo (w : World) : TeamInfo where
  issued := issued w.team
  available := u64sub ALLOCATION (issued w.team)
  totalAuthority := w.team.authTotal
  claimedAuthority := w.team.authClaimed
  availableAuthority := u64sub w.team.authTotal w.team.authClaimed
  totalAccounts := sumAccounts w.team (·.totalRewards)
  claimedAccounts := sumAccounts w.team (·.rewardsClaimed)
  availableAccounts := sumAccounts w.team (fun a => u64sub a.totalRewards a.rewardsClaimed)
  required := requiredModuleBalance w.team
  balance := Spec.balance w

theorem vestingStatus_vested (a : Account) (t : Nat) : (vestingStatus a t).vested = vestedAmount a t := by
  rw [vestingStatus]

theorem vestingStatus_unlocked (a : Account) (t : Nat) : (vestingStatus a t).unlocked = unlockedAmount a t := by
  rw [vestingStatus]

theorem vestingStatus_claimable (a : Account) (t : Nat) : (vestingStatus a t).claimable = claimable a t := by
  rw [vestingStatus]

theorem vestingStatus_locked (a : Account) (t : Nat) :
    (vestingStatus a t).locked = u64sub (vestedAmount a t) (unlockedAmount a t) := by
  rw [vestingStatus]

theorem vestingStatus_claimed (a : Account) (t : Nat) : (vestingStatus a t).claimed = a.unlockedClaimed := by
  rw [vestingStatus]

/-! ## the status adds up -/

/-- C69: in every history, for every account and every time from now on, the amounts shown by the status and plan queries
are the ones of the vesting curves, and they add up: locked + unlocked = vested, vested + remaining = maximum, maximum +
clawed back = allocation, claimed + claimable = unlocked; and the dates are those of the vesting plan. -/
theorem C69_status (bank : Bank) (now : Nat) (ops : List Op) (ho : ∀ op ∈ ops, SaneOp op) (id : Nat) (a : Account)
    (h : (run (World.init bank now) ops).team.accounts.get? id = some a) (t : Nat)
    (ht : (run (World.init bank now) ops).now ≤ t) :
    ((vestingStatus a t).vested = Spec.vested a t ∧ (vestingStatus a t).unlocked = Spec.unlocked a t) ∧
    (vestingStatus a t).unlocked + (vestingStatus a t).locked = (vestingStatus a t).vested ∧
    (vestingStatus a t).vested + (vestingStatus a t).remaining = (vestingPlan a).maximum ∧
    (vestingPlan a).maximum + (vestingPlan a).clawbackAmount = a.totalAllocation ∧
    (vestingStatus a t).claimed + (vestingStatus a t).claimable = (vestingStatus a t).unlocked ∧
    (a.totalRewards < 2 ^ 64 →
      (vestingStatus a t).claimedRewards + (vestingStatus a t).availableRewards = (vestingStatus a t).totalRewards) ∧
    (vestingPlan a).vestingStart = a.commencement + year ∧
    (vestingPlan a).vestingFinished = a.commencement + 3 * year ∧
    (vestingPlan a).unlockStart = max a.commencement TGE + year ∧
    (vestingPlan a).unlockFinished = max a.commencement TGE + 3 * year := by
  have hI := ((AllInv.init bank now).run ho) id a h
  have hs := hI.sane
  have hc := C42_claimed_is_unlocked bank now ops ho id a h t ht
  obtain ⟨b1, b2, b3⟩ := C41_bounds a hs t
  have htot : a.totalAllocation < twoPow64 := Nat.lt_of_lt_of_le hs.total (by unfold twoPow64; omega)
  have hu : lockUpReferenceDate a = max a.commencement TGE + year := lockUp_eq hs
  have hy : 3 * year < 2 ^ 30 := year_small
  have hT : TGE < 2 ^ 31 := TGE_small
  have hcm := hs.comm
  have hmx : max a.commencement TGE < 2 ^ 62 := Nat.max_lt.mpr ⟨hcm, Nat.lt_trans hT (by decide)⟩
  have hlt : ∀ x, x < 2 ^ 63 → x % twoPow64 = x := fun x hx => Nat.mod_eq_of_lt (by unfold twoPow64; omega)
  refine ⟨⟨(vestingStatus_vested a t).trans (C41_vested_exact a hs t),
    (vestingStatus_unlocked a t).trans (C41_unlocked_exact a hs t)⟩, ?_, ?_, ?_, ?_, ?_, ?_, ?_, hu, ?_⟩
  · rw [vestingStatus_unlocked, vestingStatus_locked, vestingStatus_vested, u64sub_of_le b1 (by omega)]
    omega
  · show vestedAmount a t + u64sub (maxAmount a) (vestedAmount a t) = maxAmount a
    rw [u64sub_of_le b2 (by omega)]
    omega
  · show maxAmount a + u64sub a.totalAllocation (maxAmount a) = a.totalAllocation
    rw [u64sub_of_le b3 htot]
    omega
  · rw [vestingStatus_claimed, vestingStatus_claimable, vestingStatus_unlocked]
    unfold claimable
    have := hc.1
    split <;> omega
  · intro hr
    show a.rewardsClaimed + u64sub a.totalRewards a.rewardsClaimed = a.totalRewards
    have := hI.rewards
    rw [u64sub_of_le this (by unfold twoPow64; omega)]
    omega
  · show u64add a.commencement CLIFF = a.commencement + year
    unfold u64add
    rw [CLIFF_eq, hlt _ (by omega)]
  · show u64add a.commencement VESTING = a.commencement + 3 * year
    unfold u64add
    rw [VESTING_eq, hlt _ (by omega)]
  · show u64add (lockUpReferenceDate a) UNLOCK = max a.commencement TGE + 3 * year
    unfold u64add
    rw [hu, UNLOCK_eq, hlt _ (by omega)]
    omega

/-! ## what is shown can be claimed -/

/-- everything that is still owed fits into the module account: `x` more can be paid if the account it is for has it -/
theorem owed_le {w : World} (hall : AllInv w) (hs : Solv ALLOCATION w) (hi : totalIssued w.team ≤ ALLOCATION)
    {id : Nat} {a : Account} (ha : w.team.accounts.get? id = some a) {x y z : Nat}
    (hx : a.unlockedClaimed + x ≤ maxAmount a) (hy : a.rewardsClaimed + y ≤ a.totalRewards)
    (hz : w.team.authClaimed + z ≤ w.team.authTotal) : x + y + z ≤ balance w := by
  have h1 := w.team.accounts.sum_le (fun k v => (v.unlockedClaimed + v.rewardsClaimed) + (if k = id then x + y else 0))
    (fun _ v => maxAmount v + v.totalRewards) (by
      intro k v hv
      have hI := hall k v hv
      by_cases e : k = id
      · subst e
        rw [ha] at hv
        cases hv
        rw [if_pos rfl]
        omega
      · rw [if_neg e]
        have h1 := hI.rewards
        have h2 := hI.claimed _ (Nat.le_refl _)
        have h3 := unlocked_le_vested v v.lastClaimedTime
        have h4 := vested_le_max hI.sane v.lastClaimedTime
        omega)
  rw [w.team.accounts.sum_add (fun _ v => v.unlockedClaimed + v.rewardsClaimed) (fun k _ => if k = id then x + y else 0),
    w.team.accounts.sum_add (fun _ v => maxAmount v) (fun _ v => v.totalRewards)] at h1
  have h2 := w.team.accounts.le_sum (fun k _ => if k = id then x + y else 0) ha
  simp only [if_true] at h2
  have h3 := hs.bal
  have h4 := hs.auth
  unfold credited paid at h3
  unfold totalIssued at hi
  omega

theorem payOut_succeeds {w : World} {r : Addr} {amount : Nat} (h : amount ≤ balance w) (hs : amount < 2 ^ 63) :
    ∃ b, payOut w r amount = .ok b := by
  obtain ⟨b, hb⟩ := Bank.send_succeeds (b := w.bank) (s := .mod .team) (t := .user r)
    (c := Coins.single kyve amount) (by
      intro d
      rw [Coins.amt_single]
      split
      · rename_i e; subst e; exact h
      · exact Nat.zero_le _)
  exact ⟨b, by unfold payOut; rw [if_pos hs, hb]⟩

/-- The histories of C69: the module account holds the team allocation at genesis, create messages are in range, the chain
was not halted, and no more than the allocation is issued now (C43). -/
structure Sound (bank : Bank) (now : Nat) (ops : List Op) : Prop where
  genesis : (bank (.mod .team)).amt kyve = ALLOCATION
  sane : ∀ op ∈ ops, SaneOp op
  running : (run (World.init bank now) ops).halted = false
  issued : totalIssued (run (World.init bank now) ops).team ≤ ALLOCATION

theorem Sound.solv {bank : Bank} {now : Nat} {ops : List Op} (h : Sound bank now ops) :
    Solv ALLOCATION (run (World.init bank now) ops) := by
  have h0 : Solv ALLOCATION (World.init bank now) :=
    ⟨Nat.le_refl _, by
      have := h.genesis
      simp [credited, paid, balance, World.init, State.init, this]⟩
  exact h0.run (AllInv.init bank now) (Fresh.init bank now) h.sane h.running

theorem authority_iff (a : Addr) : isAuthority a = true ↔ a = FOUNDATION ∨ a = BCP := by
  unfold isAuthority
  rw [Bool.or_eq_true, decide_eq_true_eq, decide_eq_true_eq]

/-- C69: a claim of unlocked coins is accepted exactly if it comes from an authority, for an existing account, and is not
more than the claimable amount the status query shows.  In particular the module account always has the coins. -/
theorem C69_claim (bank : Bank) (now : Nat) (ops : List Op) (hs : Sound bank now ops) (w : World)
    (hw : w = run (World.init bank now) ops) (auth : Addr) (id amount : Nat) (r : Addr) :
    (∃ w', claimUnlocked w auth id amount r = .ok w') ↔
      (auth = FOUNDATION ∨ auth = BCP) ∧
        ∃ a, w.team.accounts.get? id = some a ∧ amount ≤ (vestingStatus a w.now).claimable := by
  have hall : AllInv w := by rw [hw]; exact (AllInv.init bank now).run hs.sane
  have hsolv : Solv ALLOCATION w := by rw [hw]; exact hs.solv
  have hi : totalIssued w.team ≤ ALLOCATION := by rw [hw]; exact hs.issued
  constructor
  · rintro ⟨w', h⟩
    unfold claimUnlocked at h
    split at h
    · cases h
    · rename_i ha
      refine ⟨isAuthority_iff (by simpa using ha), ?_⟩
      split at h
      · cases h
      · rename_i a hacc
        refine ⟨a, hacc, ?_⟩
        split at h
        · cases h
        · rename_i hle
          rw [vestingStatus_claimable]
          exact Nat.le_of_not_lt hle
  · rintro ⟨hauth, a, hacc, hle⟩
    rw [vestingStatus_claimable] at hle
    have hI := hall id a hacc
    have hmax : a.unlockedClaimed + amount ≤ maxAmount a := by
      have h1 := C41_bounds a hI.sane w.now
      have h2 := hI.claimed _ hI.last
      rw [← unlockedAmount_eq hI.sane] at h2
      unfold claimable at hle
      split at hle <;> omega
    have hb : amount + 0 + 0 ≤ balance w :=
      owed_le hall hsolv hi hacc hmax hI.rewards hsolv.auth
    have hsm : amount < 2 ^ 63 := by
      have h1 := maxAmount_le hI.sane
      have h2 := hI.sane.total
      omega
    obtain ⟨b, hpay⟩ := payOut_succeeds (r := r) (Nat.le_trans (by omega) hb) hsm
    unfold claimUnlocked
    rw [if_neg (by simp [(authority_iff auth).mpr hauth]), hacc]
    dsimp only
    rw [if_neg (Nat.not_lt.mpr hle), hpay]
    exact ⟨_, rfl⟩

/-- C69: a claim of an account's rewards (below `2^63`) is accepted exactly if it comes from an authority, for an existing
account, and is not more than the available rewards the status query shows. -/
theorem C69_rewards (bank : Bank) (now : Nat) (ops : List Op) (hs : Sound bank now ops) (w : World)
    (hw : w = run (World.init bank now) ops) (auth : Addr) (id amount : Nat) (hsm : amount < 2 ^ 63) (r : Addr) :
    (∃ w', claimAccountRewards w auth id amount r = .ok w') ↔
      (auth = FOUNDATION ∨ auth = BCP) ∧
        ∃ a, w.team.accounts.get? id = some a ∧ amount ≤ (vestingStatus a w.now).availableRewards := by
  have hall : AllInv w := by rw [hw]; exact (AllInv.init bank now).run hs.sane
  have hsolv : Solv ALLOCATION w := by rw [hw]; exact hs.solv
  have hi : totalIssued w.team ≤ ALLOCATION := by rw [hw]; exact hs.issued
  constructor
  · rintro ⟨w', h⟩
    unfold claimAccountRewards at h
    split at h
    · cases h
    · rename_i ha
      refine ⟨isAuthority_iff (by simpa using ha), ?_⟩
      split at h
      · cases h
      · rename_i a hacc
        refine ⟨a, hacc, ?_⟩
        split at h
        · cases h
        · rename_i hle
          exact Nat.le_of_not_lt hle
  · rintro ⟨hauth, a, hacc, hle⟩
    have hle : amount ≤ u64sub a.totalRewards a.rewardsClaimed := hle
    have hI := hall id a hacc
    have h1 := hI.rewards
    have h2 := u64sub_le h1
    have hmax : a.unlockedClaimed + 0 ≤ maxAmount a := by
      have h3 := hI.claimed _ (Nat.le_refl _)
      have h4 := unlocked_le_vested a a.lastClaimedTime
      have h5 := vested_le_max hI.sane a.lastClaimedTime
      omega
    have hb : 0 + amount + 0 ≤ balance w := owed_le hall hsolv hi hacc hmax (by omega) hsolv.auth
    obtain ⟨b, hpay⟩ := payOut_succeeds (r := r) (Nat.le_trans (by omega) hb) hsm
    unfold claimAccountRewards
    rw [if_neg (by simp [(authority_iff auth).mpr hauth]), hacc]
    dsimp only
    rw [if_neg (Nat.not_lt.mpr hle), hpay]
    exact ⟨_, rfl⟩

/-- everything owed in the absence of a special account -/
theorem owed_auth {w : World} (hall : AllInv w) (hs : Solv ALLOCATION w) (hi : totalIssued w.team ≤ ALLOCATION) :
    ALLOCATION + credited w.team ≤ balance w + paid w.team ∧
    w.team.authClaimed + paid w.team - w.team.authClaimed ≤ ALLOCATION + credited w.team ∧
    w.team.authTotal - w.team.authClaimed ≤ balance w := by
  have h1 := w.team.accounts.sum_le (fun _ v => v.unlockedClaimed + v.rewardsClaimed)
    (fun _ v => maxAmount v + v.totalRewards) (by
      intro k v hv
      have hI := hall k v hv
      have h1 := hI.rewards
      have h2 := hI.claimed _ (Nat.le_refl _)
      have h3 := unlocked_le_vested v v.lastClaimedTime
      have h4 := vested_le_max hI.sane v.lastClaimedTime
      omega)
  rw [w.team.accounts.sum_add (fun _ v => maxAmount v) (fun _ v => v.totalRewards)] at h1
  have h3 := hs.bal
  have h4 := hs.auth
  unfold credited paid at *
  unfold totalIssued at hi
  refine ⟨h3, ?_, ?_⟩ <;> omega

/-- C69: a claim of authority rewards (below `2^63`) is accepted exactly if it comes from the foundation and is not more
than the available authority rewards the info query shows. -/
theorem C69_authority (bank : Bank) (now : Nat) (ops : List Op) (hs : Sound bank now ops) (w : World)
    (hw : w = run (World.init bank now) ops) (auth : Addr) (amount : Nat) (hsm : amount < 2 ^ 63) (r : Addr) :
    (∃ w', claimAuthorityRewards w auth amount r = .ok w') ↔
      auth = FOUNDATION ∧ amount ≤ (teamInfo w).availableAuthority := by
  have hall : AllInv w := by rw [hw]; exact (AllInv.init bank now).run hs.sane
  have hsolv : Solv ALLOCATION w := by rw [hw]; exact hs.solv
  have hi : totalIssued w.team ≤ ALLOCATION := by rw [hw]; exact hs.issued
  constructor
  · rintro ⟨w', h⟩
    unfold claimAuthorityRewards at h
    split at h
    · cases h
    · rename_i ha
      refine ⟨by simpa using ha, ?_⟩
      split at h
      · cases h
      · rename_i hle
        exact Nat.le_of_not_lt hle
  · rintro ⟨hauth, hle⟩
    have hle : amount ≤ u64sub w.team.authTotal w.team.authClaimed := hle
    have h2 := u64sub_le hsolv.auth
    have hb := (owed_auth hall hsolv hi).2.2
    obtain ⟨b, hpay⟩ := payOut_succeeds (w := w) (r := r) (amount := amount) (by omega) hsm
    unfold claimAuthorityRewards
    rw [if_neg (by simp [hauth]), if_neg (Nat.not_lt.mpr hle), hpay]
    exact ⟨_, rfl⟩

/-! ## the info query -/

theorem u64add_mod (a b : Nat) : (u64add a b : Int) ≡ (a : Int) + b [ZMOD (twoPow64 : Int)] := by
  unfold u64add
  have : ((a + b) % twoPow64 : Nat) = ((a : Int) + b) % (twoPow64 : Int) := by push_cast; rfl
  rw [this]
  exact Int.mod_modEq _ _

theorem u64sub_mod {a b : Nat} (h : b ≤ twoPow64) : (u64sub a b : Int) ≡ (a : Int) - b [ZMOD (twoPow64 : Int)] := by
  unfold u64sub
  have e : ((a + twoPow64 - b) % twoPow64 : Nat) = ((a : Int) - b + twoPow64) % (twoPow64 : Int) := by
    push_cast [Nat.cast_sub (show b ≤ a + twoPow64 by omega)]
    congr 1
    ring
  rw [e]
  refine (Int.mod_modEq _ _).trans ?_
  exact Int.add_modEq_right

/-- numbers of an account that fit into `uint64` -/
def Small (a : Account) : Prop := a.totalRewards < twoPow64 ∧ a.rewardsClaimed < twoPow64 ∧ a.unlockedClaimed < twoPow64

theorem required_foldl (l : List Account) (h : ∀ a ∈ l, Small a) : ∀ r : Nat,
    ((l.foldl (fun r a => u64sub (u64add r (u64sub a.totalRewards a.rewardsClaimed)) a.unlockedClaimed) r : Nat) : Int) ≡
      (r : Int) + ((l.map (fun a => a.totalRewards)).sum : Nat) - ((l.map (fun a => a.unlockedClaimed + a.rewardsClaimed)).sum : Nat)
      [ZMOD (twoPow64 : Int)] := by
  induction l with
  | nil => intro r; simp
  | cons a t ih =>
    intro r
    have ha := h a (by simp)
    rw [List.foldl_cons]
    refine (ih (fun b hb => h b (by simp [hb])) _).trans ?_
    have h1 := u64sub_mod (a := u64add r (u64sub a.totalRewards a.rewardsClaimed)) (Nat.le_of_lt ha.2.2)
    have h2 := u64add_mod r (u64sub a.totalRewards a.rewardsClaimed)
    have h3 := u64sub_mod (a := a.totalRewards) (Nat.le_of_lt ha.2.1)
    have h4 := h1.trans ((h2.trans (h3.add_left (r : Int))).sub_right (a.unlockedClaimed : Int))
    have h5 := (h4.add_right (((t.map (fun a => a.totalRewards)).sum : Nat) : Int)).sub_right
      (((t.map (fun a => a.unlockedClaimed + a.rewardsClaimed)).sum : Nat) : Int)
    refine h5.trans ?_
    rw [List.map_cons, List.sum_cons, List.map_cons, List.sum_cons]
    push_cast
    unfold Int.ModEq
    congr 1
    ring

/-- C69: the info query reports as required exactly the allocation plus all rewards ever credited minus everything ever
paid out, and the module account holds at least that; the issued amount and the available one add up to the allocation. -/
theorem C69_info (bank : Bank) (now : Nat) (ops : List Op) (hs : Sound bank now ops) (w : World)
    (hw : w = run (World.init bank now) ops) (hb : ALLOCATION + credited w.team < 2 ^ 64) :
    (teamInfo w).required + paid w.team = ALLOCATION + credited w.team ∧
    (teamInfo w).required ≤ (teamInfo w).balance ∧
    (teamInfo w).issued = totalIssued w.team ∧
    (teamInfo w).issued + (teamInfo w).available = ALLOCATION := by
  have hall : AllInv w := by rw [hw]; exact (AllInv.init bank now).run hs.sane
  have hsolv : Solv ALLOCATION w := by rw [hw]; exact hs.solv
  have hi : totalIssued w.team ≤ ALLOCATION := by rw [hw]; exact hs.issued
  obtain ⟨h1, h2, -⟩ := owed_auth hall hsolv hi
  have hpc : paid w.team ≤ ALLOCATION + credited w.team := by omega
  have hsmall : ∀ a ∈ w.team.accounts.vals, Small a := by
    intro a ha
    obtain ⟨⟨k, v⟩, hp, e⟩ := List.mem_map.mp ha
    simp only at e
    subst e
    have hg := entries_ok w.team.accounts _ hp
    have hI := hall k v hg
    have e1 := w.team.accounts.le_sum (fun _ a => a.totalRewards) hg
    have e2 := hI.rewards
    have e3 := hI.claimed _ (Nat.le_refl _)
    have e4 := unlocked_le_vested v v.lastClaimedTime
    have e5 := vested_lt hI.sane v.lastClaimedTime
    unfold credited at hb
    unfold Small twoPow64
    simp only at e1
    refine ⟨?_, ?_, ?_⟩ <;> omega
  have hreq : (requiredModuleBalance w.team : Int) ≡ (ALLOCATION : Int) + credited w.team - paid w.team
      [ZMOD (twoPow64 : Int)] := by
    unfold requiredModuleBalance
    refine (required_foldl _ hsmall _).trans ?_
    have a1 := u64add_mod ALLOCATION (u64sub w.team.authTotal w.team.authClaimed)
    have hac : w.team.authClaimed ≤ twoPow64 := by
      have := hsolv.auth
      unfold credited at hb
      unfold twoPow64
      omega
    have a2 := u64sub_mod (a := w.team.authTotal) hac
    have a3 := a1.trans (a2.add_left (ALLOCATION : Int))
    have e1 : (w.team.accounts.vals.map (fun a => a.totalRewards)).sum = w.team.accounts.sum (fun _ a => a.totalRewards) := by
      unfold Map.sum Map.vals
      rw [List.map_map]; rfl
    have e2 : (w.team.accounts.vals.map (fun a => a.unlockedClaimed + a.rewardsClaimed)).sum =
        w.team.accounts.sum (fun _ a => a.unlockedClaimed + a.rewardsClaimed) := by
      unfold Map.sum Map.vals
      rw [List.map_map]; rfl
    rw [e1, e2]
    refine ((a3.add_right _).sub_right _).trans ?_
    unfold credited paid
    push_cast
    unfold Int.ModEq
    congr 1
    ring
  have hlt : requiredModuleBalance w.team < twoPow64 := by
    unfold requiredModuleBalance
    have key : ∀ (l : List Account) (r : Nat), r < twoPow64 →
        l.foldl (fun r a => u64sub (u64add r (u64sub a.totalRewards a.rewardsClaimed)) a.unlockedClaimed) r < twoPow64 := by
      intro l
      induction l with
      | nil => intro r hr; exact hr
      | cons a t ih => intro r _; exact ih _ (Nat.mod_lt _ (by decide))
    exact key _ _ (Nat.mod_lt _ (by decide))
  have hfin : (requiredModuleBalance w.team : Int) = (ALLOCATION : Int) + credited w.team - paid w.team := by
    have b1 := Int.emod_eq_of_lt (a := (requiredModuleBalance w.team : Int)) (b := (twoPow64 : Int)) (by omega) (by omega)
    have b2 := Int.emod_eq_of_lt (a := (ALLOCATION : Int) + credited w.team - paid w.team) (b := (twoPow64 : Int))
      (by omega) (by unfold twoPow64; omega)
    unfold Int.ModEq at hreq
    rw [b1, b2] at hreq
    exact hreq
  have hr : (teamInfo w).required = requiredModuleBalance w.team := rfl
  have hbal : (teamInfo w).balance = balance w := rfl
  have his : (teamInfo w).issued = issued w.team := rfl
  have hav : (teamInfo w).available = u64sub ALLOCATION (issued w.team) := rfl
  rw [hr, hbal, hav, his, issued_eq hi, u64sub_of_le hi (by decide)]
  refine ⟨?_, ?_, rfl, ?_⟩ <;> omega

theorem sum_foldl (m : Nat) (f : Account → Nat) (l : List Account) : ∀ r : Nat, r + (l.map f).sum < m →
    l.foldl (fun r a => (r + f a) % m) r = r + (l.map f).sum := by
  induction l with
  | nil => intro r _; rfl
  | cons a t ih =>
    intro r hr
    rw [List.map_cons, List.sum_cons] at hr
    rw [List.foldl_cons, List.map_cons, List.sum_cons, Nat.mod_eq_of_lt (by omega), ih _ (by omega)]
    omega

theorem sumAccounts_eq {s : State} {f : Account → Nat} (h : s.accounts.sum (fun _ a => f a) < 2 ^ 64) :
    sumAccounts s f = s.accounts.sum (fun _ a => f a) := by
  have e1 : (s.accounts.vals.map f).sum = s.accounts.sum (fun _ a => f a) := by
    unfold Map.sum Map.vals
    rw [List.map_map]; rfl
  have h1 := sum_foldl (2 ^ 64) f s.accounts.vals 0 (by rw [e1]; omega)
  rw [e1, Nat.zero_add] at h1
  exact h1

/-- C69: the info query splits the rewards ever credited into those of the authority and those of the accounts, and each
of them into the part already claimed and the part still available. -/
theorem C69_info_rewards (bank : Bank) (now : Nat) (ops : List Op) (hs : Sound bank now ops) (w : World)
    (hw : w = run (World.init bank now) ops) (hb : ALLOCATION + credited w.team < 2 ^ 64) :
    (teamInfo w).totalAuthority + (teamInfo w).totalAccounts = credited w.team ∧
    (teamInfo w).claimedAuthority = w.team.authClaimed ∧
    (teamInfo w).claimedAccounts = w.team.accounts.sum (fun _ a => a.rewardsClaimed) ∧
    (teamInfo w).availableAuthority + (teamInfo w).claimedAuthority = (teamInfo w).totalAuthority ∧
    (teamInfo w).availableAccounts + (teamInfo w).claimedAccounts = (teamInfo w).totalAccounts := by
  have hall : AllInv w := by rw [hw]; exact (AllInv.init bank now).run hs.sane
  have hsolv : Solv ALLOCATION w := by rw [hw]; exact hs.solv
  have hT : w.team.accounts.sum (fun _ a => a.totalRewards) < 2 ^ 64 := by unfold credited at hb; omega
  have hA : w.team.authTotal < 2 ^ 64 := by unfold credited at hb; omega
  have hle : ∀ k a, w.team.accounts.get? k = some a → a.rewardsClaimed ≤ a.totalRewards := fun k a ha => (hall k a ha).rewards
  have hC : w.team.accounts.sum (fun _ a => a.rewardsClaimed) < 2 ^ 64 :=
    lt_of_le_of_lt (w.team.accounts.sum_le (fun _ a => a.rewardsClaimed) (fun _ a => a.totalRewards) hle) hT
  have hv : ∀ a ∈ w.team.accounts.vals,
      u64sub a.totalRewards a.rewardsClaimed = a.totalRewards - a.rewardsClaimed := by
    intro a ha
    obtain ⟨⟨k, v⟩, hp, e⟩ := List.mem_map.mp ha
    simp only at e
    subst e
    have hg := entries_ok w.team.accounts _ hp
    have e1 := w.team.accounts.le_sum (fun _ a => a.totalRewards) hg
    exact u64sub_of_le (hle _ _ hg) (lt_of_le_of_lt e1 hT)
  have eV : w.team.accounts.sum (fun _ a => u64sub a.totalRewards a.rewardsClaimed) =
      w.team.accounts.sum (fun _ a => a.totalRewards - a.rewardsClaimed) := by
    have q : ∀ f : Account → Nat, w.team.accounts.sum (fun _ a => f a) = (w.team.accounts.vals.map f).sum := by
      intro f
      unfold Map.sum Map.vals
      rw [List.map_map]; rfl
    rw [q, q]
    exact congrArg List.sum (List.map_congr_left hv)
  have hV : w.team.accounts.sum (fun _ a => a.totalRewards - a.rewardsClaimed) +
      w.team.accounts.sum (fun _ a => a.rewardsClaimed) = w.team.accounts.sum (fun _ a => a.totalRewards) := by
    rw [← Map.sum_add w.team.accounts (fun _ a => a.totalRewards - a.rewardsClaimed) (fun _ a => a.rewardsClaimed)]
    refine le_antisymm (w.team.accounts.sum_le _ _ ?_) (w.team.accounts.sum_le _ _ ?_)
    · intro k a ha; have := hle k a ha; omega
    · intro k a ha; have := hle k a ha; omega
  have t1 : (teamInfo w).totalAccounts = w.team.accounts.sum (fun _ a => a.totalRewards) := sumAccounts_eq hT
  have t2 : (teamInfo w).claimedAccounts = w.team.accounts.sum (fun _ a => a.rewardsClaimed) := sumAccounts_eq hC
  have t3 : (teamInfo w).availableAccounts = w.team.accounts.sum (fun _ a => a.totalRewards - a.rewardsClaimed) := by
    rw [← eV]
    exact sumAccounts_eq (by rw [eV]; omega)
  have t4 : (teamInfo w).availableAuthority = w.team.authTotal - w.team.authClaimed := u64sub_of_le hsolv.auth hA
  refine ⟨?_, rfl, t2, ?_, ?_⟩
  · rw [t1]; rfl
  · rw [t4]
    exact Nat.sub_add_cancel hsolv.auth
  · rw [t1, t2, t3]; exact hV

/-- the hypotheses are met: an account vests for two years, some of it and of its rewards is claimed -/
def queryOps : List Op :=
  [.create FOUNDATION ALLOCATION TGE, .block (2 * year) 1000000 (10 * ALLOCATION + 1000000),
   .claimUnlocked BCP 0 1000000 7, .claimAccountRewards FOUNDATION 0 60000 7]

example : Sound exBank TGE queryOps ∧
    ALLOCATION + credited (run (World.init exBank TGE) queryOps).team < 2 ^ 64 ∧
    (((run (World.init exBank TGE) queryOps).team.accounts.get? 0).map
      (fun a => ((vestingStatus a (TGE + 2 * year)).claimable, (vestingStatus a (TGE + 2 * year)).availableRewards))) =
      some (54999999999000000, 6666) := by
  refine ⟨⟨by decide +kernel, ?_, by decide +kernel, by decide +kernel⟩, by decide +kernel, by decide +kernel⟩
  intro op hop
  simp only [queryOps, List.mem_cons, List.not_mem_nil, or_false] at hop
  rcases hop with rfl | rfl | rfl | rfl <;> simp only [SaneOp] <;> decide

end Verif.Team
