import Verif.Team.Properties
import Verif.Lib.Genesis

/-!
# x/team genesis: validation (C51) and export/import (C55, C68)

Models /repo/x/team/genesis.go and /repo/x/team/types/genesis.go.
-/

namespace Verif.Team
open Verif

/-- `GenesisState` -/
structure Genesis where
  authTotal : Nat
  authClaimed : Nat
  accounts : List Account
  count : Nat

/-- types/genesis.go:11-32 `Validate` -/
def Genesis.validate (g : Genesis) : Bool :=
  dupFree [] (g.accounts.map (·.id)) && g.accounts.all (fun a => decide (a.id < g.count)) &&
    decide (g.authClaimed ≤ g.authTotal)

/-- genesis.go:20-28 `ExportGenesis` -/
def exportGenesis (s : State) : Genesis := ⟨s.authTotal, s.authClaimed, s.accounts.vals, s.count⟩

/-- genesis.go:9-17 `InitGenesis` into an empty store -/
def initGenesis (g : Genesis) : State :=
  ⟨g.accounts.foldl (fun m a => m.set a.id a) ∅, g.count, g.authTotal, g.authClaimed⟩

/-- C51 (team): two accounts with the same id, an id that will be given away again and rewards claimed beyond the
total are refused. -/
theorem C51_team (g : Genesis) (h : g.validate = true) :
    (g.accounts.map (·.id)).Nodup ∧ (∀ a ∈ g.accounts, a.id < g.count) ∧ g.authClaimed ≤ g.authTotal := by
  simpa only [Genesis.validate, Bool.and_eq_true, dupFree_nil, List.all_eq_true, decide_eq_true_eq, and_assoc] using h

example : (⟨5, 3, [⟨0, 1, 1, 0, 0, 0, 0, 0⟩, ⟨1, 1, 1, 0, 0, 0, 0, 0⟩], 2⟩ : Genesis).validate = true ∧
    (⟨5, 3, [⟨0, 1, 1, 0, 0, 0, 0, 0⟩, ⟨0, 2, 1, 0, 0, 0, 0, 0⟩], 2⟩ : Genesis).validate = false := by decide

/-! ## C55, C68 -/

/-- an account is stored under its id -/
def Keyed (s : State) : Prop := ∀ k a, s.accounts.get? k = some a → a.id = k

theorem Keyed.set {s : State} (h : Keyed s) {id : Nat} {a acc : Account} (hacc : s.accounts.get? id = some acc)
    (e : a.id = acc.id) : Keyed { s with accounts := s.accounts.set id a } := by
  intro k b hb
  have hb : (s.accounts.set id a).get? k = some b := hb
  rw [Map.get?_set] at hb
  split at hb
  · rename_i hk
    injection hb with hb
    rw [← hb, e, hk]
    exact h _ _ hacc
  · exact h k b hb

theorem credit_keyed {now r : Nat} (l : List (Nat × Account)) :
    ∀ (accs : Map Nat Account), (∀ k a, accs.get? k = some a → a.id = k) → (∀ p ∈ l, p.2.id = p.1) →
    ∀ k a, (creditAccounts accs now r l).2.get? k = some a → a.id = k := by
  induction l with
  | nil => intro accs h _; exact h
  | cons p t ih =>
    obtain ⟨id, a⟩ := p
    intro accs h hl
    simp only [creditAccounts]
    refine ih _ ?_ (fun q hq => hl q (by simp [hq]))
    intro k b hb
    rw [Map.get?_set] at hb
    split at hb
    · rename_i hk
      injection hb with hb
      rw [← hb, hk]
      exact hl (id, a) (by simp)
    · exact h k b hb

/-- what an exported genesis needs -/
structure GenInv (s : State) : Prop where
  keyed : Keyed s
  auth : s.authClaimed ≤ s.authTotal
  fresh : Fresh s

theorem GenInv.step {w : World} (h : GenInv w.team) (op : Op) : GenInv (step w op).team := by
  refine ⟨?_, ?_, h.fresh.step op⟩
  · have hk := h.keyed
    cases op with
    | create auth total c =>
      simp only [Team.step, create]
      split_ifs <;> try exact hk
      intro k a ha
      have ha : (w.team.accounts.set w.team.count ⟨w.team.count, total, c, 0, 0, 0, 0, 0⟩).get? k = some a := ha
      rw [Map.get?_set] at ha
      split at ha
      · rename_i e
        injection ha with ha
        rw [← ha, e]
      · exact hk k a ha
    | claimUnlocked auth id amount r =>
      simp only [Team.step, claimUnlocked]
      split
      · exact hk
      · split
        · exact hk
        · rename_i hacc
          split
          · exact hk
          · split
            · exact hk
            · exact hk.set hacc rfl
    | clawback auth id cb =>
      simp only [Team.step, clawback]
      split
      · exact hk
      · split
        · exact hk
        · rename_i hacc
          split
          · exact hk
          · split
            · exact hk
            · exact hk.set hacc rfl
    | claimAccountRewards auth id amount r =>
      simp only [Team.step, claimAccountRewards]
      split
      · exact hk
      · split
        · exact hk
        · rename_i hacc
          split
          · exact hk
          · split
            · exact hk
            · exact hk.set hacc rfl
    | claimAuthorityRewards auth amount r =>
      simp only [Team.step, claimAuthorityRewards]
      split
      · exact hk
      · split
        · exact hk
        · split <;> exact hk
    | block dt p s =>
      show Keyed (distribute (tick w dt p) p s).team
      unfold Keyed
      rw [distribute_accounts]
      exact credit_keyed _ _ hk (fun q hq => hk q.1 q.2 (entries_ok _ q hq))
    | external b gift => exact hk
  · have ha := h.auth
    cases op with
    | create auth total c =>
      simp only [Team.step, create]
      split_ifs <;> exact ha
    | claimUnlocked auth id amount r =>
      simp only [Team.step, claimUnlocked]
      repeat' split
      all_goals exact ha
    | clawback auth id cb =>
      simp only [Team.step, clawback]
      repeat' split
      all_goals exact ha
    | claimAccountRewards auth id amount r =>
      simp only [Team.step, claimAccountRewards]
      repeat' split
      all_goals exact ha
    | claimAuthorityRewards auth amount r =>
      simp only [Team.step, claimAuthorityRewards]
      split
      · exact ha
      · split
        · exact ha
        · rename_i hu
          split
          · exact ha
          · show w.team.authClaimed + amount ≤ w.team.authTotal
            have := u64sub_le ha
            omega
    | block dt p s =>
      show (distribute (tick w dt p) p s).team.authClaimed ≤ (distribute (tick w dt p) p s).team.authTotal
      show w.team.authClaimed ≤ w.team.authTotal + _
      omega
    | external b gift => exact ha

theorem GenInv.run {w : World} (h : GenInv w.team) (ops : List Op) : GenInv (run w ops).team := by
  induction ops generalizing w with
  | nil => exact h
  | cons op t ih => exact ih (h.step op)

theorem vals_foldl {s : State} (h : Keyed s) : s.accounts.vals.foldl (fun m a => m.set a.id a) ∅ = s.accounts := by
  have e : ∀ (l : List (Nat × Account)) (m : Map Nat Account), (∀ p ∈ l, p.2.id = p.1) →
      (l.map (·.2)).foldl (fun m a => m.set a.id a) m = l.foldl (fun m p => m.set p.1 p.2) m := by
    intro l
    induction l with
    | nil => intro m _; rfl
    | cons p l ih =>
      intro m hl
      rw [List.map_cons, List.foldl_cons, List.foldl_cons, hl p (by simp)]
      exact ih _ (fun q hq => hl q (by simp [hq]))
  have h1 := e s.accounts.toList ∅ (fun p hp => h p.1 p.2 ((Map.mem_iff _ _ _).1 hp))
  exact h1.trans (Map.ofList_toList _)

/-- C55 (team): after any history, the exported state imports to the same state. -/
theorem C55_team (bank : Bank) (now : Nat) (ops : List Op) :
    initGenesis (exportGenesis (run (World.init bank now) ops).team) = (run (World.init bank now) ops).team := by
  have h : GenInv (run (World.init bank now) ops).team :=
    GenInv.run ⟨(fun k a hk => by cases hk), Nat.le_refl _, Fresh.init bank now⟩ ops
  unfold initGenesis exportGenesis
  rw [vals_foldl h.keyed]

/-- C68 (team): after any history, the exported genesis passes validation. -/
theorem C68_team (bank : Bank) (now : Nat) (ops : List Op) :
    (exportGenesis (run (World.init bank now) ops).team).validate = true := by
  have h : GenInv (run (World.init bank now) ops).team :=
    GenInv.run ⟨(fun k a hk => by cases hk), Nat.le_refl _, Fresh.init bank now⟩ ops
  generalize (run (World.init bank now) ops).team = s at h
  have e : s.accounts.vals.map (·.id) = s.accounts.keys := by
    show (s.accounts.toList.map (·.2)).map (·.id) = s.accounts.toList.map (·.1)
    rw [List.map_map]
    exact List.map_congr_left (fun p hp => h.keyed p.1 p.2 ((Map.mem_iff _ _ _).1 hp))
  simp only [Genesis.validate, exportGenesis, Bool.and_eq_true, dupFree_nil, List.all_eq_true]
  refine ⟨⟨?_, ?_⟩, decide_eq_true h.auth⟩
  · rw [e]; exact s.accounts.keys_nodup
  · intro a ha
    have ha : a ∈ s.accounts.toList.map (·.2) := ha
    obtain ⟨⟨k, a'⟩, hp, rfl⟩ := List.mem_map.1 ha
    have hg := (Map.mem_iff _ _ _).1 hp
    refine decide_eq_true ?_
    show a'.id < s.count
    rw [h.keyed k a' hg]
    by_contra hc
    rw [h.fresh k (by omega)] at hg; cases hg

/-- a non-trivial case: two accounts were created -/
example : (run (World.init (fun _ => Coins.zero) TGE) [.create FOUNDATION 1000 TGE, .create BCP 2000 TGE]).team.count = 2 := by
  decide +kernel

end Verif.Team
