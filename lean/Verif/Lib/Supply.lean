import Verif.Lib.Coins
import Mathlib.Algebra.BigOperators.Group.Finset.Basic
import Mathlib.Algebra.Order.BigOperators.Group.Finset

/-!
# Moving coins between accounts

`Conserved b b'`: the balances `b'` differ from `b` only by coins moved between accounts: outside of a finite set of
accounts nothing changed, and inside of it the total of every coin is the same.
-/

namespace Verif
open Finset

/-- no coin was created or destroyed between the balances `b` and `b'` -/
def Conserved (b b' : Bank) : Prop :=
  ∃ S : Finset Acct, (∀ a, a ∉ S → b' a = b a) ∧ ∀ d, ∑ a ∈ S, (b' a).amt d = ∑ a ∈ S, (b a).amt d

namespace Conserved

theorem refl (b : Bank) : Conserved b b := ⟨∅, fun _ _ => rfl, fun _ => rfl⟩

theorem of_eq {b b' : Bank} (h : b' = b) : Conserved b b' := h ▸ refl b

/-- any larger set of accounts will do -/
theorem widen {b b' : Bank} {S T : Finset Acct} (hST : S ⊆ T) (h1 : ∀ a, a ∉ S → b' a = b a) (d : Denom)
    (h2 : ∑ a ∈ S, (b' a).amt d = ∑ a ∈ S, (b a).amt d) : ∑ a ∈ T, (b' a).amt d = ∑ a ∈ T, (b a).amt d := by
  rw [← sum_sdiff hST, ← sum_sdiff hST, h2]
  congr 1
  refine sum_congr rfl fun a ha => ?_
  rw [h1 a (mem_sdiff.1 ha).2]

theorem trans {b b' b'' : Bank} (h : Conserved b b') (h' : Conserved b' b'') : Conserved b b'' := by
  obtain ⟨S, s1, s2⟩ := h
  obtain ⟨T, t1, t2⟩ := h'
  refine ⟨S ∪ T, fun a ha => ?_, fun d => ?_⟩
  · rw [mem_union, not_or] at ha
    rw [t1 a ha.2, s1 a ha.1]
  · rw [widen subset_union_right t1 d (t2 d), widen subset_union_left s1 d (s2 d)]

/-- on every set of accounts that holds all coins before and after, the totals are the same -/
theorem total {b b' : Bank} (h : Conserved b b') (T : Finset Acct) (hb : ∀ a, a ∉ T → b a = Coins.zero)
    (hb' : ∀ a, a ∉ T → b' a = Coins.zero) (d : Denom) : ∑ a ∈ T, (b' a).amt d = ∑ a ∈ T, (b a).amt d := by
  obtain ⟨S, s1, s2⟩ := h
  have := widen (T := S ∪ T) subset_union_left s1 d (s2 d)
  have e : ∀ x : Bank, (∀ a, a ∉ T → x a = Coins.zero) →
      ∑ a ∈ S ∪ T, (x a).amt d = ∑ a ∈ T, (x a).amt d := by
    intro x hx
    refine (sum_subset subset_union_right fun a _ ha => ?_).symm
    rw [hx a ha]; rfl
  rwa [e b' hb', e b hb] at this

theorem send {b b' : Bank} {s t : Acct} {x : Coins} (h : b.send s t x = .ok b') : Conserved b b' := by
  refine ⟨{s, t}, fun a ha => ?_, fun d => ?_⟩
  · rw [mem_insert, mem_singleton, not_or] at ha
    ext d
    rw [(Bank.send_ok h).2, if_neg ha.1, if_neg ha.2]; rfl
  · obtain ⟨h1, h2⟩ := Bank.send_ok h
    have := h1 d
    by_cases e : s = t
    · subst e
      rw [pair_eq_singleton, sum_singleton, sum_singleton, h2, if_pos rfl]
      omega
    · rw [sum_pair e, sum_pair e, h2, h2, if_pos rfl, if_neg e, if_neg (Ne.symm e), if_pos rfl]
      omega

theorem orKeep {b : Bank} {s t : Acct} {x : Coins} : Conserved b (b.orKeep (b.send s t x)) := by
  cases h : b.send s t x with
  | error e => exact refl b
  | ok b' => exact send h

end Conserved

/-- nobody but the accounts in `S` has lost coins -/
def OnlySpends (S : Acct → Prop) (b b' : Bank) : Prop := ∀ a, ¬ S a → ∀ d, (b a).amt d ≤ (b' a).amt d

namespace OnlySpends

theorem refl (S : Acct → Prop) (b : Bank) : OnlySpends S b b := fun _ _ _ => Nat.le_refl _

theorem of_eq {S : Acct → Prop} {b b' : Bank} (h : b' = b) : OnlySpends S b b' := h ▸ refl S b

theorem mono {S T : Acct → Prop} {b b' : Bank} (h : OnlySpends S b b') (hST : ∀ a, S a → T a) : OnlySpends T b b' :=
  fun a ha d => h a (fun hs => ha (hST a hs)) d

theorem trans {S : Acct → Prop} {b b' b'' : Bank} (h : OnlySpends S b b') (h' : OnlySpends S b' b'') : OnlySpends S b b'' :=
  fun a ha d => Nat.le_trans (h a ha d) (h' a ha d)

theorem send {S : Acct → Prop} {b b' : Bank} {s t : Acct} {x : Coins} (h : b.send s t x = .ok b') (hs : S s) :
    OnlySpends S b b' := by
  intro a ha d
  have e : a ≠ s := fun e => ha (e ▸ hs)
  rw [(Bank.send_ok h).2, if_neg e]
  omega

theorem orKeep {S : Acct → Prop} {b : Bank} {s t : Acct} {x : Coins} (hs : S s) :
    OnlySpends S b (b.orKeep (b.send s t x)) := by
  cases h : b.send s t x with
  | error e => exact refl S b
  | ok b' => exact send h hs

end OnlySpends
end Verif
