import Verif.Lib.Map
import Verif.Lib.Dec

/-!
# `sdk.Coins`, `sdk.DecCoins` and the bank

Model of the Cosmos SDK coin sets (dependency): a finite map from denomination to a positive amount,
kept sorted by denomination.  `DecCoins` are the same structure with raw decimals as amounts.
-/

set_option linter.unusedSectionVars false

namespace Verif

/-- An account address; `0` is the empty string. -/
abbrev Addr := Nat

/-- A coin denomination; `0` is `ukyve` (`globalTypes.Denom`). -/
abbrev Denom := Nat

/-- `globalTypes.Denom` -/
def kyve : Denom := 0

/-- `sdk.Coins` / `sdk.DecCoins` : sorted, unique, strictly positive. -/
structure Coins where
  m : Map Denom Nat
  pos : ∀ d v, m.get? d = some v → 0 < v

abbrev DecCoins := Coins

namespace Coins

instance : DecidableEq Coins := fun a b =>
  if h : a.m = b.m then .isTrue (by cases a; cases b; simp at h; subst h; rfl)
  else .isFalse (fun e => h (by rw [e]))

instance : Repr Coins := ⟨fun c n => reprPrec c.m n⟩

/-- `AmountOf` -/
def amt (c : Coins) (d : Denom) : Nat := (c.m.get? d).getD 0

/-- denominations present -/
def denoms (c : Coins) : List Denom := c.m.keys

theorem mem_denoms {c : Coins} {d : Denom} : d ∈ c.denoms ↔ c.amt d ≠ 0 := by
  unfold denoms amt
  rw [Map.mem_keys_iff]
  constructor
  · rintro ⟨v, h⟩; rw [h]; have := c.pos d v h; simp; omega
  · intro h; cases hh : c.m.get? d with
    | none => simp [hh] at h
    | some v => exact ⟨v, rfl⟩

@[ext] theorem ext {a b : Coins} (h : ∀ d, a.amt d = b.amt d) : a = b := by
  have : a.m = b.m := by
    ext1 d
    have hd := h d
    unfold amt at hd
    cases ha : a.m.get? d with
    | none =>
      cases hb : b.m.get? d with
      | none => rfl
      | some v => have := b.pos d v hb; simp [ha, hb] at hd; omega
    | some v =>
      cases hb : b.m.get? d with
      | none => have := a.pos d v ha; simp [ha, hb] at hd; omega
      | some w => simp [ha, hb] at hd; rw [hd]
  cases a; cases b; simp at this; subst this; rfl

/-- `sdk.NewCoins()` -/
def zero : Coins := ⟨∅, by simp⟩

instance : Inhabited Coins := ⟨zero⟩

@[simp] theorem amt_zero (d : Denom) : zero.amt d = 0 := rfl

/-- set the amount of one denomination, dropping zeros -/
def put (c : Coins) (d : Denom) (v : Nat) : Coins :=
  if h : v = 0 then ⟨c.m.del d, by
    intro j w hj; rw [Map.get?_del] at hj; split at hj
    · cases hj
    · exact c.pos j w hj⟩
  else ⟨c.m.set d v, by
    intro j w hj; rw [Map.get?_set] at hj; split at hj
    · cases hj; omega
    · exact c.pos j w hj⟩

theorem amt_put (c : Coins) (d j : Denom) (v : Nat) :
    (c.put d v).amt j = if j = d then v else c.amt j := by
  unfold put
  split
  · rename_i h; subst h
    unfold amt; simp only [Map.get?_del]; split <;> simp
  · unfold amt; simp only [Map.get?_set]; split <;> simp

/-- coins with the given amounts for the listed denominations (zeros dropped) -/
def ofFn (ds : List Denom) (f : Denom → Nat) : Coins :=
  ds.foldr (fun d c => c.put d (f d)) zero

theorem amt_ofFn (ds : List Denom) (f : Denom → Nat) (d : Denom) :
    (ofFn ds f).amt d = if d ∈ ds then f d else 0 := by
  unfold ofFn
  induction ds with
  | nil => simp
  | cons e t ih =>
    simp only [List.foldr_cons, amt_put, ih, List.mem_cons]
    by_cases h : d = e
    · subst h; simp
    · simp [h]

/-- `sdk.NewCoins(sdk.NewCoin(d, v))` -/
def single (d : Denom) (v : Nat) : Coins := zero.put d v

@[simp] theorem amt_single (d j : Denom) (v : Nat) : (single d v).amt j = if j = d then v else 0 := by
  simp [single, amt_put]

/-- `Coins.Add` -/
def add (a b : Coins) : Coins := ofFn (a.denoms ++ b.denoms) (fun d => a.amt d + b.amt d)

@[simp] theorem amt_add (a b : Coins) (d : Denom) : (a.add b).amt d = a.amt d + b.amt d := by
  unfold add
  rw [amt_ofFn]
  split
  · rfl
  · rename_i h
    simp only [List.mem_append, not_or, mem_denoms, ne_eq, not_not] at h
    omega

/-- `SafeSub` result where no coin goes negative (truncated subtraction per coin). -/
def sub (a b : Coins) : Coins := ofFn a.denoms (fun d => a.amt d - b.amt d)

@[simp] theorem amt_sub (a b : Coins) (d : Denom) : (a.sub b).amt d = a.amt d - b.amt d := by
  unfold sub
  rw [amt_ofFn]
  split
  · rfl
  · rename_i h
    simp only [mem_denoms, ne_eq, not_not] at h
    omega

/-- `Coins.Min` : per-coin minimum -/
def min (a b : Coins) : Coins := ofFn a.denoms (fun d => Nat.min (a.amt d) (b.amt d))

@[simp] theorem amt_min (a b : Coins) (d : Denom) : (a.min b).amt d = Nat.min (a.amt d) (b.amt d) := by
  unfold min
  rw [amt_ofFn]
  split
  · rfl
  · rename_i h
    simp only [mem_denoms, ne_eq, not_not] at h
    rw [h]; simp

/-- `IsAllLTE`: every coin of `a` is at most that of `b` -/
def le (a b : Coins) : Bool := a.denoms.all (fun d => decide (a.amt d ≤ b.amt d))

theorem le_iff {a b : Coins} : a.le b = true ↔ ∀ d, a.amt d ≤ b.amt d := by
  unfold le
  rw [List.all_eq_true]
  constructor
  · intro h d
    by_cases hd : a.amt d = 0
    · omega
    · simpa using h d (mem_denoms.2 hd)
  · intro h d _; simpa using h d

/-- `IsZero` / `Empty` -/
def isZero (a : Coins) : Bool := a.denoms.isEmpty

theorem isZero_iff {a : Coins} : a.isZero = true ↔ ∀ d, a.amt d = 0 := by
  unfold isZero
  rw [List.isEmpty_iff]
  constructor
  · intro h d
    by_contra hd
    have := mem_denoms.2 hd
    rw [h] at this; simp at this
  · intro h
    cases hd : a.denoms with
    | nil => rfl
    | cons d t => exact absurd (h d) (mem_denoms.1 (by rw [hd]; simp))

theorem isZero_false_iff {a : Coins} : a.isZero = false ↔ ∃ d, a.amt d ≠ 0 := by
  rw [← Bool.not_eq_true, isZero_iff]; simp

theorem isZero_eq {a : Coins} (h : a.isZero = true) : a = zero := by
  ext d; rw [isZero_iff.1 h]; rfl

/-- apply a zero-preserving function to every amount -/
def mapAmt (c : Coins) (f : Nat → Nat) : Coins := ofFn c.denoms (fun d => f (c.amt d))

theorem amt_mapAmt (c : Coins) (f : Nat → Nat) (h0 : f 0 = 0) (d : Denom) :
    (c.mapAmt f).amt d = f (c.amt d) := by
  unfold mapAmt
  rw [amt_ofFn]
  split
  · rfl
  · rename_i h
    simp only [mem_denoms, ne_eq, not_not] at h
    rw [h, h0]

/-- keep only the coins satisfying `p` -/
def filter (c : Coins) (p : Denom → Bool) : Coins := ofFn (c.denoms.filter p) c.amt

theorem amt_filter (c : Coins) (p : Denom → Bool) (d : Denom) :
    (c.filter p).amt d = if p d then c.amt d else 0 := by
  unfold filter
  rw [amt_ofFn]
  by_cases h : p d
  · simp only [List.mem_filter, h, and_true, if_true]
    split
    · rfl
    · rename_i h'
      simp only [mem_denoms, ne_eq, not_not] at h'
      exact h'.symm
  · simp [h]

theorem add_comm (a b : Coins) : a.add b = b.add a := by ext d; simp [Nat.add_comm]
theorem add_assoc (a b c : Coins) : (a.add b).add c = a.add (b.add c) := by
  ext d; simp [Nat.add_assoc]
theorem add_zero (a : Coins) : a.add zero = a := by ext d; simp
theorem zero_add (a : Coins) : zero.add a = a := by ext d; simp

/-- sum of a list of coin sets -/
def sumL (l : List Coins) : Coins := l.foldr add zero

@[simp] theorem amt_sumL (l : List Coins) (d : Denom) : (sumL l).amt d = (l.map (·.amt d)).sum := by
  unfold sumL
  induction l with
  | nil => simp
  | cons c t ih => simp [ih]

end Coins

/-- Module accounts used by the modelled code. -/
inductive Mod where
  | delegation | stakers | bundles | funders | pool | team | feeCollector | mint
  /-- x/distribution's community pool ("treasury") -/
  | treasury
deriving DecidableEq, Repr

/-- Bank accounts: users, module accounts and the per-pool accounts (`Pool.GetPoolAccount`). -/
inductive Acct where
  | user (a : Addr)
  | mod (m : Mod)
  | pool (id : Nat)
deriving DecidableEq, Repr

/-- Bank balances. -/
abbrev Bank := Acct → Coins

namespace Bank

/-- write one balance -/
def upd (b : Bank) (a : Acct) (c : Coins) : Bank := fun x => if x = a then c else b x

/-- `SendCoins` and its module variants (`x/bank`, called through `util/logic_bank.go:8-109`):
fails iff the sender lacks coins; otherwise subtract, then add. -/
def send (b : Bank) (src dst : Acct) (c : Coins) : Except String Bank :=
  if c.le (b src) then
    let b1 := b.upd src ((b src).sub c)
    .ok (b1.upd dst ((b1 dst).add c))
  else .error "insufficient funds"

theorem send_ok {b b' : Bank} {s t : Acct} {c : Coins} (h : b.send s t c = .ok b') :
    (∀ d, c.amt d ≤ (b s).amt d) ∧
    ∀ a d, (b' a).amt d =
      (b a).amt d - (if a = s then c.amt d else 0) + (if a = t then c.amt d else 0) := by
  unfold send at h
  split at h
  · rename_i hle
    rw [Coins.le_iff] at hle
    refine ⟨hle, ?_⟩
    cases h
    intro a d
    unfold upd
    by_cases h1 : a = t
    · subst h1
      by_cases h2 : a = s
      · subst h2; simp
      · simp [h2]
    · by_cases h2 : a = s
      · subst h2; simp [h1]
      · simp [h1, h2]
  · cases h

theorem send_succeeds {b : Bank} {s t : Acct} {c : Coins} (h : ∀ d, c.amt d ≤ (b s).amt d) :
    ∃ b', b.send s t c = .ok b' := by
  unfold send
  rw [if_pos (Coins.le_iff.2 h)]
  exact ⟨_, rfl⟩

theorem send_err {b : Bank} {s t : Acct} {c : Coins} {e : String} (h : b.send s t c = .error e) :
    ∃ d, (b s).amt d < c.amt d := by
  unfold send at h
  split at h
  · cases h
  · rename_i hle
    rw [Coins.le_iff] at hle
    push Not at hle
    exact hle

/-- the balances after a transfer whose error is not reverted: unchanged if it failed -/
def orKeep (b : Bank) : Except String Bank → Bank
  | .ok b' => b'
  | .error _ => b

/-- did the transfer fail? -/
def failed : Except String Bank → Bool
  | .ok _ => false
  | .error _ => true

end Bank

end Verif
