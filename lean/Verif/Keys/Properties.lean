import Verif.Keys.Model
import Mathlib.Tactic.Ring

/-!
# C50: store keys never collide and iterate in the intended order
-/

namespace Verif.Keys

namespace Spec

/-- "kyve1" -/
def hrp : Bytes := [107, 121, 118, 101, 49]

/-- A bech32 account address: "kyve1" followed by characters other than "1" (of any length, e.g. 38 for user accounts
and 58 for module-derived accounts). -/
def IsAddr (b : Bytes) : Prop := ∃ data, b = hrp ++ data ∧ 49 ∉ data

/-- in-range key parts -/
def DelegationKey.Ok : DelegationKey → Prop
  | .params | .queue => True
  | .delegator s d | .delegatorIdx2 d s => IsAddr s ∧ IsAddr d
  | .entry s k | .slash s k | .undelegationIdx2 s k | .redelegation s k => IsAddr s ∧ k < 2 ^ 64
  | .data s => IsAddr s
  | .undelegation k => k < 2 ^ 64

def StakersKey.Ok : StakersKey → Prop
  | .params | .queueCommission | .queueLeave => True
  | .staker s | .commissionIdx2 s | .active s => IsAddr s
  | .valaccount p s | .valaccountIdx2 s p | .leaveIdx2 s p => IsAddr s ∧ p < 2 ^ 64
  | .commission k | .leave k | .count k => k < 2 ^ 64

def BundlesKey.Ok : BundlesKey → Prop
  | .params | .versionMap => True
  | .proposal p | .roundRobin p => p < 2 ^ 64
  | .finalized p i | .byIndex p i => p < 2 ^ 64 ∧ i < 2 ^ 64

def FundersKey.Ok : FundersKey → Prop
  | .params => True
  | .funder f => IsAddr f
  | .byFunder f p | .byPool f p => IsAddr f ∧ p < 2 ^ 64
  | .state p => p < 2 ^ 64

def PoolKey.Ok : PoolKey → Prop
  | .params | .count => True
  | .pool id => id < 2 ^ 64

def TeamKey.Ok : TeamKey → Prop
  | .params | .count | .authority => True
  | .account id => id < 2 ^ 64

end Spec
open Spec

/-! ## big endian -/

theorem be_length (k n : Nat) : (be k n).length = k := by
  induction k with
  | zero => rfl
  | succ k ih => simp [be, ih]

theorem be_mod (k n : Nat) : be k (n % 256 ^ k) = be k n := by
  induction k generalizing n with
  | zero => rfl
  | succ k ih =>
    have h1 : be k (n % 256 ^ (k + 1)) = be k n := by
      rw [← ih (n % 256 ^ (k + 1)), ← ih n]
      congr 1
      exact Nat.mod_mod_of_dvd _ ⟨256, by rw [pow_succ]⟩
    have h2 : n % 256 ^ (k + 1) / 256 ^ k % 256 = n / 256 ^ k % 256 := by
      rw [pow_succ, Nat.mod_mul_right_div_self, Nat.mod_mod]
    simp only [be, h1, h2]

/-- byte order of equally long big-endian numbers is numeric order -/
theorem be_lt_iff (k : Nat) : ∀ {a b : Nat}, a < 256 ^ k → b < 256 ^ k → (be k a < be k b ↔ a < b) := by
  induction k with
  | zero => intro a b ha hb; simp at ha hb; subst ha; subst hb; simp
  | succ k ih =>
    intro a b ha hb
    have hp : 0 < 256 ^ k := Nat.pow_pos (by decide)
    have hda : a / 256 ^ k < 256 := by
      apply Nat.div_lt_of_lt_mul; rw [pow_succ] at ha; exact ha
    have hdb : b / 256 ^ k < 256 := by
      apply Nat.div_lt_of_lt_mul; rw [pow_succ] at hb; exact hb
    simp only [be, List.cons_lt_cons_iff, Nat.mod_eq_of_lt hda, Nat.mod_eq_of_lt hdb]
    rw [← be_mod k a, ← be_mod k b, ih (Nat.mod_lt _ hp) (Nat.mod_lt _ hp)]
    have ea := Nat.div_add_mod a (256 ^ k)
    have eb := Nat.div_add_mod b (256 ^ k)
    have la := Nat.mod_lt a hp
    have lb := Nat.mod_lt b hp
    constructor
    · rintro (h | ⟨h, h'⟩)
      · calc a < 256 ^ k * (a / 256 ^ k) + 256 ^ k := by omega
          _ = 256 ^ k * (a / 256 ^ k + 1) := by ring
          _ ≤ 256 ^ k * (b / 256 ^ k) := Nat.mul_le_mul_left _ h
          _ ≤ b := by omega
      · rw [h] at ea; omega
    · intro h
      rcases Nat.lt_trichotomy (a / 256 ^ k) (b / 256 ^ k) with h1 | h1 | h1
      · exact Or.inl h1
      · refine Or.inr ⟨h1, ?_⟩
        rw [h1] at ea; omega
      · exfalso
        have : b < a := by
          calc b < 256 ^ k * (b / 256 ^ k) + 256 ^ k := by omega
            _ = 256 ^ k * (b / 256 ^ k + 1) := by ring
            _ ≤ 256 ^ k * (a / 256 ^ k) := Nat.mul_le_mul_left _ h1
            _ ≤ a := by omega
        omega

theorem u64_length (n : Nat) : (u64 n).length = 8 := be_length 8 n

theorem u64_lt_iff {a b : Nat} (ha : a < 2 ^ 64) (hb : b < 2 ^ 64) : u64 a < u64 b ↔ a < b :=
  be_lt_iff 8 (by simpa using ha) (by simpa using hb)

theorem u64_inj {a b : Nat} (ha : a < 2 ^ 64) (hb : b < 2 ^ 64) (h : u64 a = u64 b) : a = b := by
  rcases Nat.lt_trichotomy a b with h1 | h1 | h1
  · have := (u64_lt_iff ha hb).2 h1; rw [h] at this; exact absurd this (List.lt_irrefl _)
  · exact h1
  · have := (u64_lt_iff hb ha).2 h1; rw [h] at this; exact absurd this (List.lt_irrefl _)

/-! ## concatenations -/

/-- two concatenated addresses can be told apart whatever their lengths -/
theorem addr_addr_inj {a b a' b' : Bytes} (ha : IsAddr a) (hb : IsAddr b) (ha' : IsAddr a') (hb' : IsAddr b')
    (h : a ++ b = a' ++ b') : a = a' ∧ b = b' := by
  obtain ⟨d1, rfl, h1⟩ := ha
  obtain ⟨d2, rfl, h2⟩ := hb
  obtain ⟨d1', rfl, h1'⟩ := ha'
  obtain ⟨d2', rfl, h2'⟩ := hb'
  simp only [List.append_assoc, List.append_cancel_left_eq] at h
  have key : ∀ (x y u v : Bytes), 49 ∉ x → 49 ∉ y → x ++ (hrp ++ u) = y ++ (hrp ++ v) → x.length = y.length := by
    intro x y u v hx hy e
    have := congrArg (List.idxOf 49) e
    rw [List.idxOf_append_of_notMem hx, List.idxOf_append_of_notMem hy] at this
    simp only [hrp, List.cons_append, List.nil_append, List.idxOf_cons] at this
    simp at this
    exact this
  have hl := key d1 d1' d2 d2' h1 h1' h
  obtain ⟨e1, e2⟩ := List.append_inj h hl
  rw [e1]
  exact ⟨rfl, e2⟩

theorem addr_u64_inj {a a' : Bytes} {n n' : Nat} (hn : n < 2 ^ 64) (hn' : n' < 2 ^ 64)
    (h : a ++ u64 n = a' ++ u64 n') : a = a' ∧ n = n' := by
  obtain ⟨e1, e2⟩ := List.append_inj' h (by rw [u64_length, u64_length])
  exact ⟨e1, u64_inj hn hn' e2⟩

theorem u64_addr_inj {a a' : Bytes} {n n' : Nat} (hn : n < 2 ^ 64) (hn' : n' < 2 ^ 64)
    (h : u64 n ++ a = u64 n' ++ a') : n = n' ∧ a = a' := by
  obtain ⟨e1, e2⟩ := List.append_inj h (by rw [u64_length, u64_length])
  exact ⟨u64_inj hn hn' e1, e2⟩

theorem u64_u64_inj {m n m' n' : Nat} (hm : m < 2 ^ 64) (hm' : m' < 2 ^ 64) (hn : n < 2 ^ 64) (hn' : n' < 2 ^ 64)
    (h : u64 m ++ u64 n = u64 m' ++ u64 n') : m = m' ∧ n = n' := by
  obtain ⟨e1, e2⟩ := u64_addr_inj hm hm' h
  exact ⟨e1, u64_inj hn hn' e2⟩

/-! ## C50 no collisions -/

/-- C50: two different logical keys of x/delegation never share a store key (addresses of any length). -/
theorem C50_delegation_keys (a b : DelegationKey) (ha : DelegationKey.Ok a) (hb : DelegationKey.Ok b)
    (h : a.encode = b.encode) : a = b := by
  cases a <;> cases b <;> simp [DelegationKey.encode, byteKey] at h <;> simp only [DelegationKey.Ok] at ha hb <;>
    first
    | rfl
    | (have hh := addr_addr_inj ha.1 ha.2 hb.1 hb.2 h; obtain ⟨h1, h2⟩ := hh; subst h1; subst h2; rfl)
    | (have hh := addr_addr_inj ha.2 ha.1 hb.2 hb.1 h; obtain ⟨h1, h2⟩ := hh; subst h1; subst h2; rfl)
    | (obtain ⟨h1, h2⟩ := addr_u64_inj ha.2 hb.2 h; subst h1; subst h2; rfl)
    | (have h1 := u64_inj ha hb h; subst h1; rfl)
    | (subst h; rfl)

/-- C50: two different logical keys of x/stakers never share a store key. -/
theorem C50_stakers_keys (a b : StakersKey) (ha : StakersKey.Ok a) (hb : StakersKey.Ok b)
    (h : a.encode = b.encode) : a = b := by
  cases a <;> cases b <;> simp [StakersKey.encode, byteKey, totalStakers] at h <;>
    simp only [StakersKey.Ok] at ha hb <;>
    first
    | rfl
    | (obtain ⟨h1, h2⟩ := u64_addr_inj ha.2 hb.2 h; subst h1; subst h2; rfl)
    | (obtain ⟨h1, h2⟩ := addr_u64_inj ha.2 hb.2 h; subst h1; subst h2; rfl)
    | (have h1 := u64_inj ha hb h; subst h1; rfl)
    | (subst h; rfl)

/-- C50: two different logical keys of x/bundles never share a store key. -/
theorem C50_bundles_keys (a b : BundlesKey) (ha : BundlesKey.Ok a) (hb : BundlesKey.Ok b)
    (h : a.encode = b.encode) : a = b := by
  cases a <;> cases b <;> simp [BundlesKey.encode, byteKey] at h <;> simp only [BundlesKey.Ok] at ha hb <;>
    first
    | rfl
    | (obtain ⟨h1, h2⟩ := u64_u64_inj ha.1 hb.1 ha.2 hb.2 h; subst h1; subst h2; rfl)
    | (have h1 := u64_inj ha hb h; subst h1; rfl)

/-- C50: two different logical keys of x/funders never share a store key. -/
theorem C50_funders_keys (a b : FundersKey) (ha : FundersKey.Ok a) (hb : FundersKey.Ok b)
    (h : a.encode = b.encode) : a = b := by
  cases a <;> cases b <;> simp [FundersKey.encode, byteKey] at h <;> simp only [FundersKey.Ok] at ha hb <;>
    first
    | rfl
    | (obtain ⟨h1, h2⟩ := u64_addr_inj ha.2 hb.2 h; subst h1; subst h2; rfl)
    | (obtain ⟨h1, h2⟩ := addr_u64_inj ha.2 hb.2 h; subst h1; subst h2; rfl)
    | (have h1 := u64_inj ha hb h; subst h1; rfl)
    | (subst h; rfl)

/-- C50: two different logical keys of x/pool, and of x/team, never share a store key. -/
theorem C50_pool_keys (a b : PoolKey) (ha : PoolKey.Ok a) (hb : PoolKey.Ok b) (h : a.encode = b.encode) : a = b := by
  cases a <;> cases b <;> simp [PoolKey.encode, byteKey] at h <;> simp only [PoolKey.Ok] at ha hb <;>
    first
    | rfl
    | (have h1 := u64_inj ha hb h; subst h1; rfl)

theorem C50_team_keys (a b : TeamKey) (ha : TeamKey.Ok a) (hb : TeamKey.Ok b) (h : a.encode = b.encode) : a = b := by
  cases a <;> cases b <;> simp [TeamKey.encode, byteKey] at h <;> simp only [TeamKey.Ok] at ha hb <;>
    first
    | rfl
    | (have h1 := u64_inj ha hb h; subst h1; rfl)

/-- "kyve1q" and "kyve1qq" -/
example : DelegationKey.Ok (.delegator (hrp ++ [113]) (hrp ++ [113, 113])) ∧
    DelegationKey.encode (.delegator (hrp ++ [113]) (hrp ++ [113, 113]))
      ≠ DelegationKey.encode (.delegator (hrp ++ [113, 113]) (hrp ++ [113])) :=
  ⟨⟨⟨[113], rfl, by decide⟩, ⟨[113, 113], rfl, by decide⟩⟩, by decide⟩

/-! ## C50 order -/

theorem append_lt_append_left (p : Bytes) {a b : Bytes} : p ++ a < p ++ b ↔ a < b := by
  induction p with
  | nil => rfl
  | cons x t ih => simp [ih]

/-- comparing two concatenations with equally long heads -/
theorem append_lt_append {a b x y : Bytes} (hl : a.length = b.length) :
    a ++ x < b ++ y ↔ a < b ∨ (a = b ∧ x < y) := by
  induction a generalizing b with
  | nil =>
    cases b with
    | nil => simp
    | cons _ _ => simp at hl
  | cons c t ih =>
    cases b with
    | nil => simp at hl
    | cons d u =>
      simp only [List.length_cons, Nat.add_right_cancel_iff] at hl
      simp only [List.cons_append, List.cons_lt_cons_iff, ih hl, List.cons.injEq]
      tauto

/-- C50: keys that start with a number iterate in numeric order, whatever follows. -/
theorem C50_numeric_order (p x y : Bytes) {a b : Nat} (ha : a < 2 ^ 64) (hb : b < 2 ^ 64) (h : a < b) :
    p ++ u64 a ++ x < p ++ u64 b ++ y := by
  rw [List.append_assoc, List.append_assoc, append_lt_append_left,
    append_lt_append (by rw [u64_length, u64_length])]
  exact Or.inl ((u64_lt_iff ha hb).2 h)

/-- C50: finalized bundles iterate by pool id, then by id. -/
theorem C50_finalized_order {p i q j : Nat} (hp : p < 2 ^ 64) (hi : i < 2 ^ 64) (hq : q < 2 ^ 64) (hj : j < 2 ^ 64) :
    (BundlesKey.finalized p i).encode < (BundlesKey.finalized q j).encode ↔ p < q ∨ (p = q ∧ i < j) := by
  simp only [BundlesKey.encode, byteKey, List.append_nil]
  rw [append_lt_append_left, append_lt_append (by rw [u64_length, u64_length]), u64_lt_iff hp hq, u64_lt_iff hi hj]
  constructor
  · rintro (h | ⟨h, h'⟩)
    · exact Or.inl h
    · exact Or.inr ⟨u64_inj hp hq h, h'⟩
  · rintro (h | ⟨h, h'⟩)
    · exact Or.inl h
    · exact Or.inr ⟨by rw [h], h'⟩

/-- C50: the staker ranking iterates from the largest to the smallest delegation. -/
theorem C50_ranking_order (s t : Bytes) {a b : Nat} (ha : a < 2 ^ 64) (h : b < a) : rankKey a s < rankKey b t := by
  unfold rankKey byteKey
  have := C50_numeric_order [1] (byteKey [.str s]) (byteKey [.str t])
    (a := 2 ^ 64 - 1 - a) (b := 2 ^ 64 - 1 - b) (by omega) (by omega) (by omega)
  simpa using this

/-- C50: the store range that is iterated for the slashes of a staker between two period indices
(x/delegation/keeper/getters_delegation_slash.go:87) contains exactly that staker's slashes with such an index. -/
theorem C50_slash_range (s s' : Bytes) (hl : s'.length = s.length) {lo hi k : Nat} (hlo : lo < 2 ^ 64)
    (hhi : hi + 1 < 2 ^ 64) (hk : k < 2 ^ 64) :
    (¬ (DelegationKey.slash s' k).encode < (DelegationKey.slash s lo).encode ∧
      (DelegationKey.slash s' k).encode < (DelegationKey.slash s (hi + 1)).encode)
    ↔ s' = s ∧ lo ≤ k ∧ k ≤ hi := by
  simp only [DelegationKey.encode, byteKey, List.append_nil]
  rw [append_lt_append_left, append_lt_append_left, append_lt_append hl, append_lt_append hl,
    u64_lt_iff hk hlo, u64_lt_iff hk hhi]
  constructor
  · rintro ⟨h1, h2⟩
    rw [not_or] at h1
    rcases h2 with h2 | ⟨h2, h3⟩
    · exact absurd h2 h1.1
    · refine ⟨h2, ?_, by omega⟩
      by_contra hc
      exact h1.2 ⟨h2, by omega⟩
  · rintro ⟨rfl, h1, h2⟩
    refine ⟨?_, Or.inr ⟨rfl, by omega⟩⟩
    rintro (h | ⟨-, h⟩)
    · exact List.lt_irrefl _ h
    · omega

/-- C50: iterating over a prefix that is an address (or ends with one) only finds entries of that very address, for
addresses of the same length. -/
theorem C50_prefix_iteration (p a b x : Bytes) (hl : a.length = b.length) (h : (p ++ a) <+: (p ++ b ++ x)) :
    a = b := by
  rw [List.append_assoc, List.prefix_append_right_inj] at h
  obtain ⟨t, ht⟩ := h
  exact (List.append_inj ht hl).1

/-- C50: iterating over a pool id prefix only finds entries of that pool. -/
theorem C50_pool_prefix (p x : Bytes) {a b : Nat} (ha : a < 2 ^ 64) (hb : b < 2 ^ 64)
    (h : (p ++ u64 a) <+: (p ++ u64 b ++ x)) : a = b :=
  u64_inj ha hb (C50_prefix_iteration p (u64 a) (u64 b) x (by rw [u64_length, u64_length]) h)

example : rankKey 300 [1] < rankKey 20 [0] := C50_ranking_order _ _ (by decide) (by decide)

end Verif.Keys
