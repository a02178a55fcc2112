import Verif.Bundles.RRProps

/-!
# The uploader rotation with Go's maps and machine integers (C101)

`Verif/Bundles/RoundRobin.lean` models logic_round_robin.go with one list and with integers.  Here the same file is modelled
statement by statement: `Progress` and `newValidators` are Go maps, which are iterated in an order the language leaves open
(and the runtime randomises), and every `int64` wraps around.  `TruncateInt64` panics out of range.

The order of every `range` over a map is the choice of a `Runtime`, and so is the (unstable) sorting algorithm.
`C101_rotation`: for every choice of the runtime the outcome is that of the simple model.
-/

namespace Verif.Bundles.Go
open Verif

/-! ## Go -/

/-- two's complement: the value of an `int64` after an operation whose exact result is `x` -/
def i64 (x : Int) : Int := Int.bmod x 18446744073709551616

/-- `TruncateInt64` of cosmossdk.io/math: panics (`none`) if the value is out of range -/
def toInt64 (x : Int) : Option Int := if -9223372036854775808 ≤ x ∧ x < 9223372036854775808 then some x else none

/-- a Go map: entries with different keys; their order means nothing, see `Runtime` -/
abbrev GoMap (V : Type) := List (Addr × V)

/-- `v, ok := m[a]` -/
def look {V : Type} (m : GoMap V) (a : Addr) : Option V := (m.find? (fun e => e.1 == a)).map (·.2)

/-- `m[a]` as a value: the zero value if there is no entry -/
def val (m : GoMap Int) (a : Addr) : Int := (look m a).getD 0

/-- `m[a] = v` -/
def put {V : Type} (m : GoMap V) (a : Addr) (v : V) : GoMap V :=
  if (look m a).isSome then m.map (fun e => if e.1 = a then (a, v) else e) else m ++ [(a, v)]

/-- the keys -/
def keys {V : Type} (m : GoMap V) : List Addr := m.map (·.1)

/-- what the Go runtime may choose: the order of the keys in the `n`-th iteration over a map, and the sorting algorithm -/
structure Runtime where
  order : Nat → List Addr → List Addr
  sort : List (Addr × Int) → List (Addr × Int)

/-- the runtime iterates over every key once; `sort.Slice` sorts by address -/
structure Runtime.Valid (r : Runtime) : Prop where
  order : ∀ n l, (r.order n l).Perm l
  perm : ∀ l, (r.sort l).Perm l
  sorted : ∀ l, (r.sort l).Pairwise (fun x y => x.1 ≤ y.1)

/-! ## logic_round_robin.go -/

/-- logic_round_robin.go:56-60 `RoundRobinValidatorSet`: the addresses and powers, and the progress -/
structure VSet where
  validators : List (Addr × Int)
  progress : GoMap Int

/-- the variables of `LoadRoundRobinValidatorSet` -/
structure Loading where
  vs : VSet
  total : Int
  fresh : GoMap Bool

/-- logic_round_robin.go:77-89 one member of the pool; `amt a` is a `uint64` -/
def loadMember (amt : Addr → Nat) (s : Loading) (a : Addr) : Loading :=
  if 0 < amt a then
    { vs := { validators := s.vs.validators ++ [(a, i64 (amt a))], progress := put s.vs.progress a 0 }
      total := i64 (s.total + i64 (amt a))
      fresh := put s.fresh a true }
  else s

/-- logic_round_robin.go:93-103 one stored entry -/
def loadStored (s : Loading) (e : Addr × Int) : Loading :=
  { s with
    vs := if (look s.vs.progress e.1).isSome then
        { s.vs with progress := put s.vs.progress e.1 (i64 (val s.vs.progress e.1 + e.2)) } else s.vs
    fresh := put s.fresh e.1 false }

/-- logic_round_robin.go:105-110 one key of `newValidators` -/
def loadFresh (total : Int) (fresh : GoMap Bool) (p : GoMap Int) (a : Addr) : Option (GoMap Int) :=
  if look fresh a = some true then
    (toInt64 (Int.tdiv (-1125000000000000000 * total) (Dec.one : Int))).map (fun v => put p a v)
  else some p

/-- logic_round_robin.go:148-153 `getTotalDelegation` -/
def getTotalDelegation (s : VSet) : Int := s.validators.foldl (fun t v => i64 (t + v.2)) 0

/-- logic_round_robin.go:158-163 `getTotalProgress`; the `n`-th iteration over a map -/
def getTotalProgress (r : Runtime) (n : Nat) (s : VSet) : Int :=
  (r.order n (keys s.progress)).foldl (fun t a => i64 (t + val s.progress a)) 0

/-- logic_round_robin.go:173-180 one key: (max, min) -/
def minMax (p : GoMap Int) (m : Int × Int) (a : Addr) : Int × Int :=
  (if val p a > m.1 then val p a else m.1, if val p a < m.2 then val p a else m.2)

/-- logic_round_robin.go:167-182 `getMinMaxDifference` -/
def getMinMaxDifference (r : Runtime) (n : Nat) (s : VSet) : Int :=
  match s.validators with
  | [] => 0
  | v :: _ =>
    let m := (r.order n (keys s.progress)).foldl (minMax s.progress) (val s.progress v.1, val s.progress v.1)
    i64 (m.1 - m.2)

/-- logic_round_robin.go:204-208 one validator is scaled; the pair is (progress, totalProgress) -/
def scaleOne (threshold diff : Int) (s : GoMap Int × Int) (v : Addr × Int) : Option (GoMap Int × Int) :=
  (toInt64 (rescale threshold diff (val s.1 v.1))).map (fun x => (put s.1 v.1 x, i64 (s.2 + x)))

/-- logic_round_robin.go:197-209 `diff`, `totalProgress` and the scaling; the iterations `n`, `n + 1` -/
def scale (r : Runtime) (n : Nat) (s : VSet) : Option (GoMap Int × Int) :=
  let diff := getMinMaxDifference r n s
  let threshold := i64 (2 * getTotalDelegation s)
  if diff > threshold then s.validators.foldlM (scaleOne threshold diff) (s.progress, 0)
  else some (s.progress, getTotalProgress r (n + 1) s)

/-- logic_round_robin.go:212-215 centering; the iteration `n` -/
def center (r : Runtime) (n : Nat) (s : VSet) (p : GoMap Int) (totalProgress : Int) : Option VSet :=
  (toInt64 (Int.tdiv (Int.tdiv (totalProgress * (Dec.one : Int)) (s.validators.length : Int)) (Dec.one : Int))).map fun avg =>
    { s with progress := (r.order n (keys p)).foldl (fun p a => put p a (i64 (val p a - avg))) p }

/-- logic_round_robin.go:192-216 `normalize`; the iterations `n`, `n + 1` and `n + 2` -/
def normalize (r : Runtime) (n : Nat) (s : VSet) : Option VSet :=
  if s.validators.isEmpty then some s
  else (scale r n s).bind fun q => center r (n + 2) s q.1 q.2

/-- logic_round_robin.go:69-114 `LoadRoundRobinValidatorSet`; the iterations 0 to 3 -/
def load (r : Runtime) (stakers : List Addr) (amt : Addr → Nat) (stored : List (Addr × Int)) : Option VSet :=
  let s := stored.foldl loadStored (stakers.foldl (loadMember amt) ⟨⟨[], []⟩, 0, []⟩)
  ((r.order 0 (keys s.fresh)).foldlM (loadFresh s.total s.fresh) s.vs.progress).bind fun p =>
    normalize r 1 { s.vs with progress := p }

/-- logic_round_robin.go:241-247 one validator; the pair is (progress, excludedPower) -/
def advanceOne (ex : List Addr) (s : GoMap Int × Int) (v : Addr × Int) : GoMap Int × Int :=
  if v.1 ∉ ex then (put s.1 v.1 (i64 (val s.1 v.1 + v.2)), s.2) else (s.1, i64 (s.2 + v.2))

/-- logic_round_robin.go:250-256 one validator -/
def maxOne (ex : List Addr) (p : GoMap Int) (cur : Addr) (v : Addr × Int) : Addr :=
  if v.1 ∉ ex ∧ val p v.1 > val p cur then v.1 else cur

/-- logic_round_robin.go:222-261 `NextProposer`; the iterations 4 to 6.  The map of the excluded addresses is only looked
up, so it is the list. -/
def nextProposer (r : Runtime) (s : VSet) (excluded : List Addr) : Option (Option Addr × VSet) :=
  match s.validators with
  | [] => some (none, s)
  | v :: _ =>
    (normalize r 4 s).map fun s =>
      let ex := if excluded.length = s.validators.length then [] else excluded
      let q := s.validators.foldl (advanceOne ex) (s.progress, 0)
      let cur := s.validators.foldl (maxOne ex q.1) v.1
      (some cur, { s with progress := put q.1 cur (i64 (val q.1 cur - i64 (getTotalDelegation s - q.2))) })

/-- logic_round_robin.go:128-145 `GetRoundRobinProgress`: what is stored; the iteration 7 -/
def saved (r : Runtime) (s : VSet) : List (Addr × Int) :=
  r.sort ((r.order 7 (keys s.progress)).map fun a => (a, val s.progress a))

/-- logic_bundles.go:479-484 `chooseNextUploader`: the chosen staker and what is stored; `none` is a panic -/
def chooseNext (r : Runtime) (stakers : List Addr) (amt : Addr → Nat) (stored : List (Addr × Int)) (excluded : List Addr) :
    Option (Option Addr × List (Addr × Int)) :=
  (load r stakers amt stored).bind fun s => (nextProposer r s excluded).map fun q => (q.1, saved r q.2)

/-- logic_bundles.go:488-506 `chooseNextUploaderFromList` (`includedMap` is only looked up) -/
def chooseFromList (r : Runtime) (stakers : List Addr) (amt : Addr → Nat) (stored : List (Addr × Int)) (included : List Addr) :
    Option (Option Addr × List (Addr × Int)) :=
  (load r stakers amt stored).bind fun s =>
    (nextProposer r s ((s.validators.map (·.1)).filter fun a => decide (a ∉ included))).map fun q => (q.1, saved r q.2)

/-! ## Proofs: machine integers -/

theorem i64_fits {x : Int} (h : fits x) : i64 x = x := by
  unfold i64
  unfold fits at h
  rw [Int.bmod_def]
  split <;> omega

theorem i64_add (x y : Int) : i64 (i64 x + y) = i64 (x + y) := by unfold i64; exact Int.bmod_add_bmod

theorem i64_add' (x y : Int) : i64 (x + i64 y) = i64 (x + y) := by rw [add_comm, i64_add, add_comm]

theorem i64_idem (x : Int) : i64 (i64 x) = i64 x := by have := i64_add x 0; simpa using this

theorem toInt64_fits {x : Int} (h : fits x) : toInt64 x = some x := if_pos h

theorem foldl_i64 {α : Type} (f : α → Int) : ∀ (l : List α) (t : Int), i64 t = t →
    l.foldl (fun t a => i64 (t + f a)) t = i64 (t + (l.map f).sum) := by
  intro l
  induction l with
  | nil => intro t ht; simpa using ht.symm
  | cons a l ih =>
    intro t _
    rw [List.foldl_cons, ih _ (i64_idem _), i64_add, List.map_cons, List.sum_cons, add_assoc]

/-! ## Proofs: maps -/

section
variable {V : Type}

theorem look_cons (e : Addr × V) (m : GoMap V) (a : Addr) : look (e :: m) a = if e.1 = a then some e.2 else look m a := by
  unfold look
  rw [List.find?_cons]
  by_cases h : e.1 = a
  · rw [if_pos h, show (e.1 == a) = true from beq_iff_eq.2 h]; rfl
  · rw [if_neg h, show (e.1 == a) = false from beq_eq_false_iff_ne.2 h]

theorem look_none {m : GoMap V} {a : Addr} : look m a = none ↔ a ∉ keys m := by
  induction m with
  | nil => simp [look, keys]
  | cons e m ih =>
    rw [look_cons]
    unfold keys at *
    rw [List.map_cons, List.mem_cons]
    split
    · rename_i h; simp [h]
    · rename_i h
      rw [ih]
      constructor
      · intro h1 h2; rcases h2 with h2 | h2
        · exact h h2.symm
        · exact h1 h2
      · intro h1 h2; exact h1 (Or.inr h2)

theorem look_isSome {m : GoMap V} {a : Addr} : (look m a).isSome = true ↔ a ∈ keys m := by
  rw [Option.isSome_iff_ne_none, ne_eq, look_none, not_not]

theorem look_append (m m' : GoMap V) (a : Addr) : look (m ++ m') a = (look m a).or (look m' a) := by
  unfold look
  rw [List.find?_append]
  cases m.find? (fun e => e.1 == a) <;> rfl

theorem look_put (m : GoMap V) (a : Addr) (v : V) (b : Addr) : look (put m a v) b = if b = a then some v else look m b := by
  unfold put
  split
  · rename_i h
    rw [look_isSome] at h
    induction m with
    | nil => cases h
    | cons e m ih =>
      rw [List.map_cons, look_cons, look_cons]
      by_cases he : e.1 = a
      · rw [if_pos he]
        by_cases hb : b = a
        · rw [if_pos hb, if_pos hb.symm]
        · rw [if_neg hb, if_neg (fun x => hb x.symm), if_neg (fun x : e.1 = b => hb (x.symm.trans he))]
          by_cases hm : a ∈ keys m
          · rw [ih hm, if_neg hb]
          · rw [List.map_congr_left (g := id), List.map_id]
            intro x hx
            rw [if_neg]
            · rfl
            · intro hxa; exact hm (hxa ▸ List.mem_map_of_mem hx)
      · rw [if_neg he]
        by_cases hb : e.1 = b
        · rw [if_pos hb, if_pos hb, if_neg (fun x => he (hb.trans x))]
        · rw [if_neg hb, if_neg hb]
          refine ih ?_
          rcases List.mem_cons.1 h with h | h
          · exact absurd h.symm he
          · exact h
  · rename_i h
    rw [Bool.not_eq_true, Option.isSome_eq_false_iff, Option.isNone_iff_eq_none] at h
    rw [look_append, look_cons]
    by_cases hb : b = a
    · subst hb; rw [h, if_pos rfl, if_pos rfl]; rfl
    · rw [if_neg hb, if_neg (fun x => hb x.symm)]
      cases look m b <;> rfl

theorem keys_put {m : GoMap V} {a : Addr} (v : V) (h : a ∈ keys m) : keys (put m a v) = keys m := by
  unfold put
  rw [if_pos (look_isSome.2 h)]
  unfold keys
  rw [List.map_map]
  refine List.map_congr_left fun x _ => ?_
  show (if x.1 = a then (a, v) else x).1 = x.1
  split
  · rename_i h; exact h.symm
  · rfl

theorem keys_put_new {m : GoMap V} {a : Addr} (v : V) (h : a ∉ keys m) : keys (put m a v) = keys m ++ [a] := by
  unfold put
  rw [if_neg (by rw [look_isSome]; exact h)]
  unfold keys
  rw [List.map_append]; rfl

theorem mem_keys_put {m : GoMap V} {a : Addr} (v : V) (b : Addr) : b ∈ keys (put m a v) ↔ b = a ∨ b ∈ keys m := by
  rw [← look_isSome, look_put, ← look_isSome]
  split
  · rename_i h; simp [h]
  · rename_i h; simp [h]

end

theorem val_put (m : GoMap Int) (a : Addr) (v : Int) (b : Addr) : val (put m a v) b = if b = a then v else val m b := by
  unfold val
  rw [look_put]
  split <;> rfl

theorem val_of_look {m : GoMap Int} {a : Addr} {v : Int} (h : look m a = some v) : val m a = v := by unfold val; rw [h]; rfl

/-- a loop that updates every key of the list by its old value -/
theorem fold_update (g : Addr → Int → Int) : ∀ (ks : List Addr) (m : GoMap Int), ks.Nodup → (∀ k ∈ ks, k ∈ keys m) →
    keys (ks.foldl (fun m k => put m k (g k (val m k))) m) = keys m ∧
    ∀ a, look (ks.foldl (fun m k => put m k (g k (val m k))) m) a = if a ∈ ks then some (g a (val m a)) else look m a := by
  intro ks
  induction ks with
  | nil => intro m _ _; exact ⟨rfl, fun a => by simp⟩
  | cons k ks ih =>
    intro m hnd hk
    rw [List.nodup_cons] at hnd
    have hkm : k ∈ keys m := hk k (List.mem_cons_self ..)
    have hkeys := keys_put (g k (val m k)) hkm
    obtain ⟨h1, h2⟩ := ih (put m k (g k (val m k))) hnd.2 (fun x hx => by rw [hkeys]; exact hk x (List.mem_cons_of_mem _ hx))
    refine ⟨by rw [List.foldl_cons, h1, hkeys], fun a => ?_⟩
    rw [List.foldl_cons, h2 a, val_put, look_put]
    by_cases ha : a = k
    · subst ha
      rw [if_neg hnd.1, if_pos rfl, if_pos (List.mem_cons_self ..)]
    · rw [if_neg ha, if_neg ha]
      by_cases hm : a ∈ ks
      · rw [if_pos hm, if_pos (List.mem_cons_of_mem _ hm)]
      · rw [if_neg hm, if_neg (by rw [List.mem_cons]; exact fun h => h.elim ha hm)]

/-! ## Proofs: the set -/

/-- the Go value represents the list of the simple model -/
structure Rep (s : VSet) (vs : List Val) : Prop where
  validators : s.validators = vs.map fun v => (v.addr, (v.power : Int))
  keys : (keys s.progress).Perm (vs.map (·.addr))
  nodup : (vs.map (·.addr)).Nodup
  look : ∀ v ∈ vs, look s.progress v.addr = some v.prog

/-- everything stays in range -/
structure Range (M : Nat) (vs : List Val) : Prop where
  prog : ∀ v ∈ vs, |v.prog| ≤ 3 * (M : Int)
  total : total vs ≤ M
  size : vs.length * M < 1152921504606846976

variable {s : VSet} {vs : List Val} {M : Nat} {r : Runtime}

theorem Rep.val (h : Rep s vs) {v : Val} (hv : v ∈ vs) : val s.progress v.addr = v.prog := val_of_look (h.look v hv)

theorem Rep.empty (h : Rep s vs) : s.validators.isEmpty = vs.isEmpty := by
  rw [h.validators]; cases vs <;> rfl

/-- the values of the map, in any order -/
theorem Rep.values (h : Rep s vs) {ks : List Addr} (hk : ks.Perm (Go.keys s.progress)) :
    (ks.map (Go.val s.progress)).Perm (vs.map (·.prog)) := by
  refine ((hk.trans h.keys).map _).trans ?_
  rw [List.map_map]
  have : vs.map (Go.val s.progress ∘ fun v => v.addr) = vs.map (·.prog) := List.map_congr_left fun v hv => h.val hv
  rw [this]

theorem Range.fit (h : Range M vs) (hne : vs ≠ []) : M < 1152921504606846976 :=
  lt_of_le_of_lt (Nat.le_mul_of_pos_left M (List.length_pos_iff.2 hne)) h.size

theorem Rep.totalDelegation (h : Rep s vs) (hr : Range M vs) (hne : vs ≠ []) : getTotalDelegation s = (total vs : Int) := by
  have hM := hr.fit hne
  unfold getTotalDelegation
  rw [foldl_i64 (fun v : Addr × Int => v.2) _ 0 (i64_fits ⟨by decide, by decide⟩), h.validators, List.map_map, zero_add]
  have e : (vs.map ((fun v : Addr × Int => v.2) ∘ fun v => (v.addr, (v.power : Int)))).sum = (total vs : Int) := by
    unfold total
    clear * -
    induction vs with
    | nil => rfl
    | cons v l ih => rw [List.map_cons, List.sum_cons, ih, List.map_cons, List.sum_cons, Nat.cast_add]; rfl
  rw [e]
  have := hr.total
  exact i64_fits ⟨by omega, by omega⟩

theorem Rep.totalProgress (h : Rep s vs) (ho : r.Valid) (n : Nat) :
    getTotalProgress r n s = i64 (totalProgress vs) := by
  unfold getTotalProgress
  rw [foldl_i64 (Go.val s.progress) _ 0 (i64_fits ⟨by decide, by decide⟩), zero_add, (h.values (ho.order n _)).sum_eq]
  rfl

theorem foldl_minMax (p : GoMap Int) : ∀ (l : List Addr) (m : Int × Int),
    l.foldl (minMax p) m = ((l.map (val p)).foldl max m.1, (l.map (val p)).foldl min m.2) := by
  intro l
  induction l with
  | nil => intro m; rfl
  | cons a l ih =>
    intro m
    rw [List.foldl_cons, ih, List.map_cons, List.foldl_cons, List.foldl_cons]
    unfold minMax
    have e1 : (if val p a > m.1 then val p a else m.1) = max m.1 (val p a) := by
      split <;> omega
    have e2 : (if val p a < m.2 then val p a else m.2) = min m.2 (val p a) := by
      split <;> omega
    rw [e1, e2]

theorem Rep.diff (h : Rep s vs) (hr : Range M vs) (hne : vs ≠ []) (ho : r.Valid) (n : Nat) :
    getMinMaxDifference r n s = spread vs := by
  have hM := hr.fit hne
  have hfit : fits (spread vs) := by
    obtain ⟨v, hv, w, hw, e⟩ := spread_attained hne
    have h1 := abs_le.1 (hr.prog v hv)
    have h2 := abs_le.1 (hr.prog w hw)
    rw [e]
    exact ⟨by omega, by omega⟩
  obtain ⟨v, l, rfl⟩ := List.exists_cons_of_ne_nil hne
  unfold getMinMaxDifference
  rw [h.validators, List.map_cons]
  simp only
  rw [foldl_minMax, h.val (List.mem_cons_self ..)]
  have hp := h.values (ho.order n _)
  have e1 : ((r.order n (Go.keys s.progress)).map (Go.val s.progress)).foldl max v.prog = (l.map (·.prog)).foldl max v.prog := by
    rw [hp.foldl_eq' (fun x _ y _ z => by omega), List.map_cons, List.foldl_cons, max_self]
  have e2 : ((r.order n (Go.keys s.progress)).map (Go.val s.progress)).foldl min v.prog = (l.map (·.prog)).foldl min v.prog := by
    rw [hp.foldl_eq' (fun x _ y _ z => by omega), List.map_cons, List.foldl_cons, min_self]
  rw [e1, e2]
  exact i64_fits hfit

/-- the scaling loop -/
theorem fold_scale (t d : Int) : ∀ (l : List (Addr × Int)) (m : GoMap Int) (tp : Int), (l.map (·.1)).Nodup →
    (∀ v ∈ l, v.1 ∈ keys m) → (∀ v ∈ l, fits (rescale t d (val m v.1))) → i64 tp = tp →
    ∃ m' tp', l.foldlM (scaleOne t d) (m, tp) = some (m', tp') ∧ keys m' = keys m ∧
      (∀ a, look m' a = if a ∈ l.map (·.1) then some (rescale t d (val m a)) else look m a) ∧
      tp' = i64 (tp + (l.map fun v => rescale t d (val m v.1)).sum) := by
  intro l
  induction l with
  | nil => intro m tp _ _ _ ht; exact ⟨m, tp, rfl, rfl, fun a => by simp, by simpa using ht.symm⟩
  | cons v l ih =>
    intro m tp hnd hk hf _
    rw [List.map_cons, List.nodup_cons] at hnd
    have hne : ∀ w ∈ l, w.1 ≠ v.1 := fun w hw e => hnd.1 (e ▸ List.mem_map_of_mem hw)
    have hkeys := keys_put (rescale t d (val m v.1)) (hk v (List.mem_cons_self ..))
    have hval : ∀ w ∈ l, val (put m v.1 (rescale t d (val m v.1))) w.1 = val m w.1 := fun w hw => by
      rw [val_put, if_neg (hne w hw)]
    obtain ⟨m', tp', h1, h2, h3, h4⟩ := ih (put m v.1 (rescale t d (val m v.1))) (i64 (tp + rescale t d (val m v.1))) hnd.2
      (fun w hw => by rw [hkeys]; exact hk w (List.mem_cons_of_mem _ hw))
      (fun w hw => by rw [hval w hw]; exact hf w (List.mem_cons_of_mem _ hw)) (i64_idem _)
    refine ⟨m', tp', ?_, h2.trans hkeys, fun a => ?_, ?_⟩
    · rw [List.foldlM_cons]
      have e : scaleOne t d (m, tp) v = some (put m v.1 (rescale t d (val m v.1)), i64 (tp + rescale t d (val m v.1))) := by
        unfold scaleOne
        rw [toInt64_fits (hf v (List.mem_cons_self ..))]; rfl
      rw [e]
      exact h1
    · rw [h3 a, val_put, look_put, List.map_cons]
      by_cases ha : a = v.1
      · rw [if_neg (fun h => hnd.1 (ha ▸ h)), if_pos ha, if_pos (by rw [ha]; exact List.mem_cons_self ..), ha]
      · rw [if_neg ha, if_neg ha]
        by_cases hm : a ∈ l.map (·.1)
        · rw [if_pos hm, if_pos (List.mem_cons_of_mem _ hm)]
        · rw [if_neg hm, if_neg (by rw [List.mem_cons]; exact fun h => h.elim ha hm)]
    · rw [h4, i64_add, List.map_cons, List.sum_cons, add_assoc]
      have : (l.map fun w => rescale t d (val (put m v.1 (rescale t d (val m v.1))) w.1)) = l.map fun w => rescale t d (val m w.1) :=
        List.map_congr_left fun w hw => by rw [hval w hw]
      rw [this]

/-- the same set with other progress -/
theorem Rep.mapProg (h : Rep s vs) {p : GoMap Int} (f : Val → Int) (hk : (Go.keys p).Perm (Go.keys s.progress))
    (hl : ∀ v ∈ vs, Go.look p v.addr = some (f v)) : Rep { s with progress := p } (mapProg f vs) where
  validators := by
    show s.validators = _
    rw [h.validators]
    unfold Bundles.mapProg
    rw [List.map_map]; rfl
  keys := by rw [mapProg_addr]; exact hk.trans h.keys
  nodup := by rw [mapProg_addr]; exact h.nodup
  look := fun w hw => by
    obtain ⟨v, hv, rfl⟩ := mem_mapProg.1 hw
    exact hl v hv

theorem Rep.mem (h : Rep s vs) {v : Val} (hv : v ∈ vs) : v.addr ∈ Go.keys s.progress :=
  h.keys.mem_iff.2 (List.mem_map_of_mem hv)

theorem Rep.addr (h : Rep s vs) : s.validators.map (·.1) = vs.map (·.addr) := by rw [h.validators, List.map_map]; rfl

theorem Range.scaled (h : Range M vs) : Range M (scaled vs) := by
  refine ⟨scaled_abs h.prog, ?_, ?_⟩
  · rw [scaled_eq, total_mapProg]; exact h.total
  · rw [scaled_eq, mapProg_length]; exact h.size

theorem Range.sum (h : Range M vs) : |Bundles.totalProgress vs| ≤ 3 * (vs.length * M : Nat) := by
  have := abs_sum_le (l := vs.map (·.prog)) (b := 3 * (M : Int)) (fun x hx => by
    obtain ⟨v, hv, rfl⟩ := List.mem_map.1 hx
    exact h.prog v hv)
  rw [List.length_map] at this
  unfold Bundles.totalProgress
  push_cast
  linarith

theorem Range.fitSum (h : Range M vs) : fits (Bundles.totalProgress vs) := by
  have h1 := abs_le.1 h.sum
  have h2 := h.size
  exact ⟨by omega, by omega⟩

theorem Range.normalize (h : Range M vs) : Range M (Bundles.normalize vs) := by
  refine ⟨fun v hv => ?_, by rw [normalize_total]; exact h.total, by rw [normalize_length]; exact h.size⟩
  have := normalize_bound hv
  have := h.total
  rw [abs_le]
  constructor <;> omega

theorem Rep.scale (h : Rep s vs) (hr : Range M vs) (hne : vs ≠ []) (ho : r.Valid) (n : Nat) :
    ∃ p, Go.scale r n s = some (p, Bundles.totalProgress (Bundles.scaled vs)) ∧ Rep { s with progress := p } (Bundles.scaled vs) := by
  have hM := hr.fit hne
  have ht := hr.total
  have hsc := hr.scaled
  have hfs := hsc.fitSum
  unfold Go.scale
  simp only
  rw [h.diff hr hne ho n, h.totalDelegation hr hne, i64_fits (x := 2 * (Bundles.total vs : Int)) ⟨by omega, by omega⟩,
    h.totalProgress ho]
  by_cases hs : spread vs > 2 * (Bundles.total vs : Int)
  · rw [if_pos hs]
    have he : Bundles.scaled vs = Bundles.mapProg (fun v => rescale (2 * (Bundles.total vs : Int)) (spread vs) v.prog) vs := by
      unfold Bundles.scaled; rw [if_pos hs]; rfl
    have hfit : ∀ v ∈ vs, fits (rescale (2 * (Bundles.total vs : Int)) (spread vs) v.prog) := fun v hv => by
      have h1 := abs_le.1 (hsc.prog { v with prog := rescale (2 * (Bundles.total vs : Int)) (spread vs) v.prog }
        (by rw [he]; exact mem_mapProg.2 ⟨v, hv, rfl⟩))
      exact ⟨by simp only at h1; omega, by simp only at h1; omega⟩
    obtain ⟨m', tp', h1, h2, h3, h4⟩ := fold_scale (2 * (Bundles.total vs : Int)) (spread vs) s.validators s.progress 0
      (by rw [h.addr]; exact h.nodup)
      (fun v hv => by
        rw [h.validators] at hv
        obtain ⟨w, hw, rfl⟩ := List.mem_map.1 hv
        exact h.mem hw)
      (fun v hv => by
        rw [h.validators] at hv
        obtain ⟨w, hw, rfl⟩ := List.mem_map.1 hv
        show fits (rescale _ _ (Go.val s.progress w.addr))
        rw [h.val hw]; exact hfit w hw)
      (i64_fits ⟨by decide, by decide⟩)
    have hsum : (s.validators.map fun v => rescale (2 * (Bundles.total vs : Int)) (spread vs) (Go.val s.progress v.1)).sum =
        Bundles.totalProgress (Bundles.scaled vs) := by
      rw [he, h.validators, List.map_map]
      unfold Bundles.totalProgress Bundles.mapProg
      rw [List.map_map]
      congr 1
      exact List.map_congr_left fun v hv => by
        show rescale _ _ (Go.val s.progress v.addr) = _
        rw [h.val hv]; rfl
    refine ⟨m', ?_, ?_⟩
    · rw [h1, h4, hsum, zero_add, i64_fits hfs]
    · rw [he]
      refine h.mapProg _ (by rw [h2]) fun v hv => ?_
      rw [h3, h.addr, if_pos (List.mem_map_of_mem hv), h.val hv]
  · rw [if_neg hs]
    have he : Bundles.scaled vs = vs := by unfold Bundles.scaled; rw [if_neg hs]
    rw [he] at hfs ⊢
    exact ⟨s.progress, by rw [i64_fits hfs], h⟩

theorem Rep.center (h : Rep s vs) (hr : Range M vs) (hne : vs ≠ []) (ho : r.Valid) (n : Nat) :
    ∃ s', Go.center r n s s.progress (Bundles.totalProgress vs) = some s' ∧ Rep s' (Bundles.centered vs) := by
  have hM := hr.fit hne
  have hlen : s.validators.length = vs.length := by rw [h.validators, List.length_map]
  have havg : |average vs| ≤ 3 * (M : Int) := by
    rw [average_eq hne, tdiv_cases']
    have hl : (0 : Int) < vs.length := by exact_mod_cast List.length_pos_iff.2 hne
    have hs := abs_le.1 hr.sum
    push_cast at hs
    have key : ∀ x : Int, x ≤ 3 * ((vs.length : Int) * M) → x / (vs.length : Int) ≤ 3 * (M : Int) := by
      intro x hx
      calc x / (vs.length : Int) ≤ (3 * (M : Int)) * vs.length / vs.length := Int.ediv_le_ediv hl (by linarith)
        _ = 3 * (M : Int) := Int.mul_ediv_cancel _ hl.ne'
    rw [abs_le]
    split
    · rename_i h0
      have := Int.ediv_nonneg h0 hl.le
      exact ⟨by omega, key _ hs.2⟩
    · rename_i h0
      have := Int.ediv_nonneg (show 0 ≤ -Bundles.totalProgress vs by omega) hl.le
      have := key (-Bundles.totalProgress vs) (by linarith)
      exact ⟨by omega, by omega⟩
  have hfa : fits (average vs) := by
    have := abs_le.1 havg
    exact ⟨by omega, by omega⟩
  unfold Go.center
  have e : Int.tdiv (Int.tdiv (Bundles.totalProgress vs * (Dec.one : Int)) (s.validators.length : Int)) (Dec.one : Int) = average vs := by
    rw [hlen]; rfl
  rw [e, toInt64_fits hfa]
  refine ⟨_, rfl, ?_⟩
  have hperm := ho.order n (Go.keys s.progress)
  obtain ⟨h1, h2⟩ := fold_update (fun _ x => i64 (x - average vs)) (r.order n (Go.keys s.progress)) s.progress
    ((hperm.trans h.keys).nodup_iff.2 h.nodup) (fun k hk => hperm.mem_iff.1 hk)
  rw [centered_eq]
  refine h.mapProg _ (by rw [h1]) fun v hv => ?_
  rw [h2, if_pos (hperm.mem_iff.2 (h.mem hv)), h.val hv]
  have h3 := abs_le.1 (hr.prog v hv)
  have h4 := abs_le.1 havg
  rw [i64_fits ⟨by omega, by omega⟩]

theorem Rep.normalize (h : Rep s vs) (hr : Range M vs) (ho : r.Valid) (n : Nat) :
    ∃ s', Go.normalize r n s = some s' ∧ Rep s' (Bundles.normalize vs) := by
  unfold Go.normalize
  by_cases hne : vs = []
  · rw [h.empty, hne]
    refine ⟨s, rfl, ?_⟩
    subst hne
    exact h
  · rw [h.empty, if_neg (by rw [List.isEmpty_iff]; exact hne), normalize_ne hne]
    obtain ⟨p, h1, h2⟩ := h.scale hr hne ho n
    rw [h1]
    exact h2.center hr.scaled (scaled_ne_nil hne) ho (n + 2)

/-! ## Proofs: loading -/

theorem loadMember_fold (amt : Addr → Nat) (l : List Addr) (hnd : l.Nodup) :
    l.foldl (loadMember amt) ⟨⟨[], []⟩, 0, []⟩ =
      ⟨⟨(candidates l amt).map fun a => (a, i64 (amt a)), (candidates l amt).map fun a => (a, 0)⟩,
        i64 ((candidates l amt).map fun a => ((amt a : Nat) : Int)).sum, (candidates l amt).map fun a => (a, true)⟩ := by
  induction l using List.reverseRecOn with
  | nil => rfl
  | append_singleton l a ih =>
    have hnd' := hnd.sublist (List.sublist_append_left l [a])
    have hal : a ∉ l := by
      intro h
      have := List.nodup_append.1 hnd
      exact this.2.2 a h a (List.mem_singleton.2 rfl) rfl
    have hac : a ∉ candidates l amt := fun h => hal (List.mem_of_mem_filter h)
    rw [List.foldl_append, ih hnd', List.foldl_cons, List.foldl_nil]
    unfold loadMember
    by_cases hp : 0 < amt a
    · have hc : candidates (l ++ [a]) amt = candidates l amt ++ [a] := by
        unfold candidates
        rw [List.filter_append, List.filter_cons_of_pos (by simpa using hp), List.filter_nil]
      have hn : ∀ {V : Type} (v w : V), put ((candidates l amt).map fun a => (a, v)) a w = ((candidates l amt).map fun a => (a, v)) ++ [(a, w)] := by
        intro V v w
        unfold put
        rw [if_neg]
        rw [look_isSome]
        unfold keys
        rw [List.map_map]
        intro h
        obtain ⟨x, hx, rfl⟩ := List.mem_map.1 h
        exact hac hx
      rw [if_pos hp, hc]
      simp only [List.map_append, List.map_cons, List.map_nil, List.sum_append, List.sum_cons, List.sum_nil, hn, i64_add, i64_add',
        add_zero]
    · have hc : candidates (l ++ [a]) amt = candidates l amt := by
        unfold candidates
        rw [List.filter_append, List.filter_cons_of_neg (by simpa using hp), List.filter_nil, List.append_nil]
      rw [if_neg hp, hc]

/-- the stored entries of an address -/
def entries (stored : List (Addr × Int)) (a : Addr) : Int := ((stored.filter (fun e => e.1 == a)).map (·.2)).sum

theorem loadStored_fold : ∀ (l : List (Addr × Int)) (s : Loading), (∀ a x, look s.vs.progress a = some x → i64 x = x) →
    (l.foldl loadStored s).vs.validators = s.vs.validators ∧ (l.foldl loadStored s).total = s.total ∧
    keys (l.foldl loadStored s).vs.progress = keys s.vs.progress ∧
    (∀ a, look (l.foldl loadStored s).vs.progress a = (look s.vs.progress a).map (fun x => i64 (x + entries l a))) ∧
    (∀ a, look (l.foldl loadStored s).fresh a = if l.any (fun e => e.1 == a) then some false else look s.fresh a) := by
  intro l
  induction l with
  | nil =>
    intro s hs
    refine ⟨rfl, rfl, rfl, fun a => ?_, fun a => by simp⟩
    show look s.vs.progress a = _
    cases h : look s.vs.progress a with
    | none => rfl
    | some x => simp [entries, hs a x h]
  | cons e l ih =>
    intro s hs
    have hkey : keys (loadStored s e).vs.progress = keys s.vs.progress := by
      unfold loadStored
      simp only
      split
      · rename_i h
        exact keys_put _ (look_isSome.1 h)
      · rfl
    have hlook : ∀ a, look (loadStored s e).vs.progress a =
        (look s.vs.progress a).map (fun x => if e.1 = a then i64 (x + e.2) else x) := by
      intro a
      unfold loadStored
      simp only
      split
      · rename_i h
        simp only [look_put]
        by_cases ha : a = e.1
        · rw [if_pos ha, ha]
          obtain ⟨x, hx⟩ := Option.isSome_iff_exists.1 h
          rw [hx, val_of_look hx]
          simp
        · rw [if_neg ha]
          cases look s.vs.progress a with
          | none => rfl
          | some x => rw [Option.map_some, if_neg (fun h => ha h.symm)]
      · rename_i h
        rw [Bool.not_eq_true, Option.isSome_eq_false_iff, Option.isNone_iff_eq_none] at h
        by_cases ha : e.1 = a
        · rw [← ha, h]; rfl
        · cases look s.vs.progress a with
          | none => rfl
          | some x => simp [ha]
    have hfresh : ∀ a, look (loadStored s e).fresh a = if a = e.1 then some false else look s.fresh a := fun a => look_put _ _ _ _
    have hval : (loadStored s e).vs.validators = s.vs.validators := by
      unfold loadStored; simp only; split <;> rfl
    obtain ⟨h1, h2, h3, h4, h5⟩ := ih (loadStored s e) (fun a x hx => by
      rw [hlook] at hx
      obtain ⟨y, hy, rfl⟩ := Option.map_eq_some_iff.1 hx
      split
      · exact i64_idem _
      · exact hs a y hy)
    rw [List.foldl_cons]
    refine ⟨h1.trans hval, h2, h3.trans hkey, fun a => ?_, fun a => ?_⟩
    · rw [h4 a, hlook a, Option.map_map]
      congr 1
      funext x
      show i64 ((if e.1 = a then i64 (x + e.2) else x) + entries l a) = i64 (x + entries (e :: l) a)
      unfold entries
      by_cases ha : e.1 = a
      · rw [if_pos ha, List.filter_cons_of_pos (by simpa using ha), List.map_cons, List.sum_cons, i64_add, add_assoc]
      · rw [if_neg ha, List.filter_cons_of_neg (by simpa using ha)]
    · rw [h5 a, hfresh a, List.any_cons]
      by_cases ha : e.1 = a
      · rw [if_pos ha.symm, show (e.1 == a) = true from beq_iff_eq.2 ha, Bool.true_or, if_pos rfl, ite_self]
      · rw [if_neg (fun h : a = e.1 => ha h.symm), show (e.1 == a) = false from beq_eq_false_iff_ne.2 ha, Bool.false_or]

theorem loadFresh_fold (total : Int) (fresh : GoMap Bool) (v : Int) (hv : Int.tdiv (-1125000000000000000 * total) (Dec.one : Int) = v)
    (hf : fits v) : ∀ (ks : List Addr) (p : GoMap Int), (∀ a ∈ ks, look fresh a = some true → a ∈ keys p) →
    ∃ p', ks.foldlM (loadFresh total fresh) p = some p' ∧ keys p' = keys p ∧
      ∀ a, look p' a = if a ∈ ks ∧ look fresh a = some true then some v else look p a := by
  intro ks
  induction ks with
  | nil => intro p _; exact ⟨p, rfl, rfl, fun a => by simp⟩
  | cons k ks ih =>
    intro p hk
    rw [List.foldlM_cons, loadFresh]
    by_cases ht : look fresh k = some true
    · have hkey := keys_put v (hk k (List.mem_cons_self ..) ht)
      obtain ⟨p', h1, h2, h3⟩ := ih (put p k v) (fun a ha hx => by rw [hkey]; exact hk a (List.mem_cons_of_mem _ ha) hx)
      refine ⟨p', ?_, h2.trans hkey, fun a => ?_⟩
      · rw [if_pos ht, hv, toInt64_fits hf]
        exact h1
      · rw [h3 a, look_put]
        by_cases hak : a = k
        · subst hak
          simp [ht]
        · simp [hak]
    · obtain ⟨p', h1, h2, h3⟩ := ih p (fun a ha hx => hk a (List.mem_cons_of_mem _ ha) hx)
      refine ⟨p', ?_, h2, fun a => ?_⟩
      · rw [if_neg ht]; exact h1
      · rw [h3 a]
        by_cases hak : a = k
        · subst hak
          simp [ht]
        · simp [hak]

/-- what is asked of the inputs: distinct members, at most `M` coins at stake, stored progress as the selections leave it
(C28), and room for all of them -/
structure Input (M : Nat) (stakers : List Addr) (amt : Addr → Nat) (stored : List (Addr × Int)) : Prop where
  nodup : stakers.Nodup
  stake : stake stakers amt ≤ M
  keys : (stored.map (·.1)).Nodup
  stored : ∀ e ∈ stored, |e.2| ≤ 3 * (M : Int)
  size : stakers.length * M < 1152921504606846976

variable {stakers : List Addr} {amt : Addr → Nat} {stored : List (Addr × Int)}

theorem Input.range (h : Input M stakers amt stored) : Range M (loadRaw stakers amt stored) := by
  have hlen : (loadRaw stakers amt stored).length = (candidates stakers amt).length := by
    rw [← loadRaw_addr stakers amt stored, List.length_map]
  have hle : (candidates stakers amt).length ≤ stakers.length := List.length_filter_le _ _
  refine ⟨fun v hv => ?_, by rw [loadRaw_total]; exact h.stake, ?_⟩
  · unfold loadRaw at hv
    obtain ⟨a, ha, rfl⟩ := List.mem_map.1 hv
    show |loadProgress _ _ a| ≤ _
    unfold loadProgress
    split
    · rename_i hany
      rw [List.any_eq_true] at hany
      obtain ⟨e, he, hea⟩ := hany
      have hea := beq_iff_eq.1 hea
      have : stored.filter (fun e => e.1 == a) = [e] := by
        have hk := h.keys
        clear * - he hea hk
        induction stored with
        | nil => cases he
        | cons x t ih =>
          rw [List.map_cons, List.nodup_cons] at hk
          rcases List.mem_cons.1 he with rfl | he
          · rw [List.filter_cons_of_pos (by simpa using hea), List.filter_eq_nil_iff.2]
            intro y hy
            simp only [beq_iff_eq]
            intro hya
            exact hk.1 (by rw [hea, ← hya]; exact List.mem_map_of_mem hy)
          · rw [List.filter_cons_of_neg, ih he hk.2]
            simp only [beq_iff_eq]
            intro hxa
            exact hk.1 (by rw [hxa, ← hea]; exact List.mem_map_of_mem he)
      rw [this]
      simpa using h.stored e he
    · have h1 := startProgress_abs (Bundles.stake stakers amt)
      have h2 := h.stake
      unfold Bundles.stake at h1 h2
      omega
  · rw [hlen]
    exact lt_of_le_of_lt (Nat.mul_le_mul_right M hle) h.size

theorem cast_sum (f : Addr → Nat) (l : List Addr) : (l.map fun a => ((f a : Nat) : Int)).sum = ((l.map f).sum : Nat) := by
  induction l with
  | nil => rfl
  | cons a l ih => rw [List.map_cons, List.sum_cons, ih, List.map_cons, List.sum_cons, Nat.cast_add]

/-- loading without the first normalization -/
theorem load_rep (h : Input M stakers amt stored) (ho : r.Valid) :
    ∃ s, Go.load r stakers amt stored = Go.normalize r 1 s ∧ Rep s (loadRaw stakers amt stored) := by
  have hr := h.range
  have hs : Bundles.stake stakers amt < 1152921504606846976 := by
    by_cases hraw : loadRaw stakers amt stored = []
    · have := loadRaw_total stakers amt stored
      rw [hraw] at this
      rw [← this]; decide
    · exact lt_of_le_of_lt h.stake (hr.fit hraw)
  have hamt : ∀ a ∈ candidates stakers amt, amt a ≤ Bundles.stake stakers amt := fun a ha =>
    List.single_le_sum (by simp) _ (List.mem_map_of_mem ha)
  obtain ⟨h1, h2, h3, h4, h5⟩ := loadStored_fold stored (stakers.foldl (loadMember amt) ⟨⟨[], []⟩, 0, []⟩) (by
    rw [loadMember_fold amt stakers h.nodup]
    intro a x hx
    have : x = 0 := by
      unfold look at hx
      obtain ⟨e, he, rfl⟩ := Option.map_eq_some_iff.1 hx
      obtain ⟨b, -, rfl⟩ := List.mem_map.1 (List.mem_of_find?_eq_some he)
      rfl
    rw [this]
    exact i64_fits ⟨by decide, by decide⟩)
  rw [loadMember_fold amt stakers h.nodup] at h1 h2 h3 h4 h5
  simp only at h1 h2 h3 h4 h5
  have hk0 : ∀ {V : Type} (v : V), keys ((candidates stakers amt).map fun a => (a, v)) = candidates stakers amt := fun v => by
    unfold keys; rw [List.map_map]; exact List.map_id _
  have hl0 : ∀ {V : Type} (v : V) (a : Addr), look ((candidates stakers amt).map fun a => (a, v)) a =
      if a ∈ candidates stakers amt then some v else none := by
    intro V v a
    split
    · rename_i ha
      obtain ⟨x, hx⟩ := Option.isSome_iff_exists.1 (look_isSome.2 (show a ∈ keys ((candidates stakers amt).map fun a => (a, v)) by
        rw [hk0]; exact ha))
      rw [hx]
      unfold look at hx
      obtain ⟨e, he, rfl⟩ := Option.map_eq_some_iff.1 hx
      obtain ⟨b, -, rfl⟩ := List.mem_map.1 (List.mem_of_find?_eq_some he)
      rfl
    · rename_i ha
      rw [look_none, hk0]; exact ha
  have hstake : ((candidates stakers amt).map fun a => ((amt a : Nat) : Int)).sum = (Bundles.stake stakers amt : Int) := cast_sum amt _
  unfold Go.load
  rw [loadMember_fold amt stakers h.nodup]
  simp only
  generalize hS : stored.foldl loadStored _ = S at h1 h2 h3 h4 h5
  rw [hstake, i64_fits (x := (Bundles.stake stakers amt : Int)) ⟨by omega, by omega⟩] at h2
  have hstart := startProgress_abs (Bundles.stake stakers amt)
  rw [abs_le] at hstart
  have hfr : ∀ a, look S.fresh a = some true ↔ a ∈ candidates stakers amt ∧ stored.any (fun e => e.1 == a) = false := by
    intro a
    rw [h5 a, hl0]
    cases stored.any (fun e => e.1 == a) <;> by_cases ha : a ∈ candidates stakers amt <;> simp [ha]
  obtain ⟨p, g1, g2, g3⟩ := loadFresh_fold S.total S.fresh (startProgress (Bundles.stake stakers amt))
    (by rw [h2]; rfl) ⟨by omega, by omega⟩ (r.order 0 (keys S.fresh)) S.vs.progress (fun a _ ha => by
      rw [h3, hk0]; exact ((hfr a).1 ha).1)
  refine ⟨{ S.vs with progress := p }, by rw [g1]; rfl, ?_⟩
  refine ⟨?_, ?_, ?_, ?_⟩
  · show S.vs.validators = _
    rw [h1]
    unfold loadRaw
    rw [List.map_map]
    refine List.map_congr_left fun a ha => ?_
    have := hamt a ha
    show (a, i64 (amt a)) = (a, ((amt a : Nat) : Int))
    rw [i64_fits ⟨by omega, by omega⟩]
  · show (keys p).Perm _
    rw [g2, h3, hk0, loadRaw_addr]
  · rw [loadRaw_addr]; exact candidates_nodup h.nodup amt
  · intro v hv
    have hb := abs_le.1 (hr.prog v hv)
    have hM := hr.fit (List.ne_nil_of_mem hv)
    unfold loadRaw at hv
    obtain ⟨a, ha, rfl⟩ := List.mem_map.1 hv
    show look p a = some (loadProgress _ _ a)
    rw [g3, h4, hl0, if_pos ha]
    change -(3 * (M : Int)) ≤ loadProgress _ _ a ∧ loadProgress _ _ a ≤ _ at hb
    unfold loadProgress at hb ⊢
    by_cases hany : stored.any (fun e => e.1 == a) = true
    · rw [if_pos hany] at hb ⊢
      rw [if_neg (fun hx => by have := ((hfr a).1 hx.2).2; rw [hany] at this; cases this), Option.map_some, zero_add]
      unfold entries
      rw [i64_fits ⟨by omega, by omega⟩]
    · rw [if_neg hany, if_pos]
      · rfl
      · have hx := (hfr a).2 ⟨ha, by rw [← Bool.not_eq_true]; exact hany⟩
        exact ⟨(ho.order 0 _).mem_iff.2 (look_isSome.1 (by rw [hx]; rfl)), hx⟩

theorem load_go (h : Input M stakers amt stored) (ho : r.Valid) :
    ∃ s, Go.load r stakers amt stored = some s ∧ Rep s (Bundles.load stakers amt stored) := by
  obtain ⟨s, h1, h2⟩ := load_rep h ho
  rw [h1]
  exact h2.normalize h.range ho 1

/-! ## Proofs: the round -/

theorem advance_fold (ex : List Addr) : ∀ (l : List (Addr × Int)) (m : GoMap Int) (x : Int), (l.map (·.1)).Nodup →
    (∀ v ∈ l, v.1 ∈ keys m) → i64 x = x →
    keys (l.foldl (advanceOne ex) (m, x)).1 = keys m ∧
    (∀ a, (∀ v ∈ l, v.1 ≠ a) → look (l.foldl (advanceOne ex) (m, x)).1 a = look m a) ∧
    (∀ v ∈ l, look (l.foldl (advanceOne ex) (m, x)).1 v.1 = if v.1 ∈ ex then look m v.1 else some (i64 (val m v.1 + v.2))) ∧
    (l.foldl (advanceOne ex) (m, x)).2 = i64 (x + ((l.filter (fun v => decide (v.1 ∈ ex))).map (·.2)).sum) := by
  intro l
  induction l with
  | nil => intro m x _ _ hx; exact ⟨rfl, fun _ _ => rfl, (fun v hv => absurd hv List.not_mem_nil), by simpa using hx.symm⟩
  | cons v l ih =>
    intro m x hnd hk hx
    rw [List.map_cons, List.nodup_cons] at hnd
    have hne : ∀ w ∈ l, w.1 ≠ v.1 := fun w hw e => hnd.1 (e ▸ List.mem_map_of_mem hw)
    rw [List.foldl_cons]
    by_cases hv : v.1 ∈ ex
    · have e : advanceOne ex (m, x) v = (m, i64 (x + v.2)) := by unfold advanceOne; rw [if_neg (not_not.2 hv)]
      rw [e]
      obtain ⟨h1, h2, h3, h4⟩ := ih m (i64 (x + v.2)) hnd.2 (fun w hw => hk w (List.mem_cons_of_mem _ hw)) (i64_idem _)
      refine ⟨h1, fun a ha => h2 a fun w hw => ha w (List.mem_cons_of_mem _ hw), fun w hw => ?_, ?_⟩
      · rcases List.mem_cons.1 hw with rfl | hw
        · rw [if_pos hv]; exact h2 _ hne
        · exact h3 w hw
      · rw [h4, i64_add, List.filter_cons_of_pos (by simpa using hv), List.map_cons, List.sum_cons, add_assoc]
    · have e : advanceOne ex (m, x) v = (put m v.1 (i64 (val m v.1 + v.2)), x) := by unfold advanceOne; rw [if_pos hv]
      rw [e]
      have hkey := keys_put (i64 (val m v.1 + v.2)) (hk v (List.mem_cons_self ..))
      obtain ⟨h1, h2, h3, h4⟩ := ih (put m v.1 (i64 (val m v.1 + v.2))) x hnd.2
        (fun w hw => by rw [hkey]; exact hk w (List.mem_cons_of_mem _ hw)) hx
      refine ⟨h1.trans hkey, fun a ha => ?_, fun w hw => ?_, ?_⟩
      · rw [h2 a fun w hw => ha w (List.mem_cons_of_mem _ hw), look_put, if_neg (fun h => ha v (List.mem_cons_self ..) h.symm)]
      · rcases List.mem_cons.1 hw with rfl | hw
        · rw [if_neg hv, h2 _ hne, look_put, if_pos rfl]
        · rw [h3 w hw, look_put, val_put, if_neg (hne w hw), if_neg (hne w hw)]
      · rw [h4, List.filter_cons_of_neg (by simpa using hv)]

/-- the selection loop -/
theorem max_fold (ex : List Addr) (p : GoMap Int) : ∀ (l : List Val) (cur : Val),
    (∀ v ∈ l, val p v.addr = v.prog) → val p cur.addr = cur.prog →
    (l.map fun v => (v.addr, (v.power : Int))).foldl (maxOne ex p) cur.addr = (pick ex cur l).addr := by
  intro l
  induction l with
  | nil => intro cur _ _; rfl
  | cons v l ih =>
    intro cur hl hc
    rw [List.map_cons, List.foldl_cons]
    show _ = (pick ex (if v.addr ∉ ex ∧ v.prog > cur.prog then v else cur) l).addr
    have e : maxOne ex p cur.addr (v.addr, (v.power : Int)) = (if v.addr ∉ ex ∧ v.prog > cur.prog then v else cur).addr := by
      unfold maxOne
      simp only [hl v (List.mem_cons_self ..), hc]
      split <;> rfl
    rw [e]
    refine ih _ (fun w hw => hl w (List.mem_cons_of_mem _ hw)) ?_
    split
    · exact hl v (List.mem_cons_self ..)
    · exact hc

theorem filter_power (ex : List Addr) (vs : List Val) :
    (((vs.map fun v => (v.addr, (v.power : Int))).filter (fun v => decide (v.1 ∈ ex))).map (·.2)).sum = (excludedPower ex vs : Int) := by
  unfold excludedPower total
  induction vs with
  | nil => rfl
  | cons v l ih =>
    by_cases h : v.addr ∈ ex
    · rw [List.map_cons, List.filter_cons_of_pos (by simpa using h), List.filter_cons_of_pos (by simpa using h), List.map_cons,
        List.map_cons, List.sum_cons, List.sum_cons, ih, Nat.cast_add]
    · rw [List.map_cons, List.filter_cons_of_neg (by simpa using h), List.filter_cons_of_neg (by simpa using h), ih]

/-- the round, after the normalization -/
theorem Rep.round (h : Rep s vs) (hr : Range M vs) (hne : vs ≠ []) (ex : List Addr) {a0 : Addr} (ha0 : (vs.map (·.addr)).head? = some a0) :
    (Bundles.round ex vs).1 = some (s.validators.foldl (maxOne ex (s.validators.foldl (advanceOne ex) (s.progress, 0)).1) a0) ∧
    Rep (VSet.mk s.validators (put (s.validators.foldl (advanceOne ex) (s.progress, 0)).1
          (s.validators.foldl (maxOne ex (s.validators.foldl (advanceOne ex) (s.progress, 0)).1) a0)
          (i64 (Go.val (s.validators.foldl (advanceOne ex) (s.progress, 0)).1
            (s.validators.foldl (maxOne ex (s.validators.foldl (advanceOne ex) (s.progress, 0)).1) a0) -
            i64 (getTotalDelegation s - (s.validators.foldl (advanceOne ex) (s.progress, 0)).2)))))
      (Bundles.round ex vs).2 := by
  have hM := hr.fit hne
  have ht := hr.total
  have hx := excludedPower_le ex vs
  obtain ⟨h1, -, h3, h4⟩ := advance_fold ex s.validators s.progress 0 (by rw [h.addr]; exact h.nodup) (fun v hv => by
    rw [h.validators] at hv
    obtain ⟨w, hw, rfl⟩ := List.mem_map.1 hv
    exact h.mem hw) (i64_fits ⟨by decide, by decide⟩)
  have h4' : (s.validators.foldl (advanceOne ex) (s.progress, 0)).2 = (excludedPower ex vs : Int) := by
    rw [h4, h.validators, filter_power, zero_add, i64_fits ⟨by omega, by omega⟩]
  rw [h4', h.totalDelegation hr hne, i64_fits (x := (total vs : Int) - (excludedPower ex vs : Int)) ⟨by omega, by omega⟩]
  generalize hq : (s.validators.foldl (advanceOne ex) (s.progress, 0)).1 = q at h1 h3
  have hadv : Rep { s with progress := q } (advanced ex vs) := by
    rw [advanced_eq]
    refine h.mapProg _ (by rw [h1]) fun v hv => ?_
    have := h3 (v.addr, (v.power : Int)) (by rw [h.validators]; exact List.mem_map.2 ⟨v, hv, rfl⟩)
    simp only at this
    rw [this, h.look v hv, h.val hv]
    have hp := power_le_total hv
    have hb := abs_le.1 (hr.prog v hv)
    split
    · rfl
    · rw [i64_fits ⟨by omega, by omega⟩]
  have hbnd : ∀ v ∈ advanced ex vs, |v.prog| ≤ 4 * (M : Int) := by
    intro v hv
    rw [advanced_eq] at hv
    obtain ⟨w, hw, rfl⟩ := mem_mapProg.1 hv
    have hp := power_le_total hw
    have hb := abs_le.1 (hr.prog w hw)
    rw [abs_le]
    simp only
    constructor <;> split <;> omega
  have hval : ∀ v ∈ advanced ex vs, Go.val q v.addr = v.prog := fun v hv => hadv.val hv
  have hvals : s.validators = (advanced ex vs).map fun v => (v.addr, (v.power : Int)) := hadv.validators
  have hhead : ((advanced ex vs).map (·.addr)).head? = some a0 := by rw [advanced_addr]; exact ha0
  cases hadv' : advanced ex vs with
  | nil => rw [hadv'] at hhead; cases hhead
  | cons v l =>
    rw [round_cons hadv']
    rw [hadv'] at hhead hvals hval hbnd
    cases hhead
    have hcur : s.validators.foldl (maxOne ex q) v.addr = (pick ex v (v :: l)).addr := by
      rw [hvals]
      exact max_fold ex q (v :: l) v hval (hval v (List.mem_cons_self ..))
    have hmem : pick ex v (v :: l) ∈ v :: l := by
      rcases pick_mem ex (v :: l) v with h | h
      · rw [h]; exact List.mem_cons_self ..
      · exact h
    rw [hcur]
    refine ⟨rfl, ?_⟩
    simp only
    generalize pick ex v (v :: l) = x at hmem
    rw [← hadv'] at hmem hval hbnd
    rw [← hadv', charged_eq]
    refine hadv.mapProg (s := { s with progress := q }) _ (by rw [keys_put]; exact hadv.mem hmem) fun w hw => ?_
    rw [look_put, hval _ hmem]
    have hb := abs_le.1 (hbnd _ hmem)
    by_cases hwa : w.addr = x.addr
    · rw [if_pos hwa, if_pos hwa]
      have hwp : w.prog = x.prog := by
        rw [← hadv.val hw, ← hval _ hmem]
        exact congrArg (Go.val q) hwa
      rw [hwp, i64_fits ⟨by omega, by omega⟩]
    · rw [if_neg hwa, if_neg hwa]
      exact hadv.look w hw

theorem Rep.next (h : Rep s vs) (hr : Range M vs) (ho : r.Valid) (excluded : List Addr) :
    ∃ s', Go.nextProposer r s excluded = some ((Bundles.nextProposer vs excluded).1, s') ∧
      Rep s' (Bundles.nextProposer vs excluded).2 := by
  obtain ⟨w, hw1, hw2⟩ := h.normalize hr ho 4
  by_cases hne : vs = []
  · subst hne
    refine ⟨s, ?_, h⟩
    unfold Go.nextProposer
    simp only [h.validators, List.map_nil]
    rfl
  obtain ⟨v, l, rfl⟩ := List.exists_cons_of_ne_nil hne
  have hnn := normalize_ne_nil hne
  unfold Go.nextProposer Bundles.nextProposer
  rw [if_neg (by simp)]
  simp only [h.validators, List.map_cons]
  rw [hw1, Option.map_some]
  have hlen : w.validators.length = (v :: l).length := by
    rw [hw2.validators, List.length_map, normalize_length]
  rw [hlen]
  obtain ⟨h1, h2⟩ := hw2.round hr.normalize hnn (effective (v :: l) excluded) (a0 := v.addr) (by rw [normalize_addr]; rfl)
  rw [h1]
  exact ⟨_, rfl, h2⟩

/-! ## Proofs: saving -/

theorem Rep.saved (h : Rep s vs) (ho : r.Valid) (hs : (vs.map (·.addr)).Pairwise (· < ·)) : Go.saved r s = Bundles.saved vs := by
  unfold Go.saved Bundles.saved
  have hp : ((r.order 7 (Go.keys s.progress)).map fun a => (a, Go.val s.progress a)).Perm (vs.map fun v => (v.addr, v.prog)) := by
    refine (((ho.order 7 _).trans h.keys).map _).trans ?_
    rw [List.map_map]
    have : vs.map ((fun a => (a, Go.val s.progress a)) ∘ fun v => v.addr) = vs.map (fun v => (v.addr, v.prog)) :=
      List.map_congr_left fun v hv => by
        show (v.addr, Go.val s.progress v.addr) = _
        rw [h.val hv]
    rw [this]
  have hl : (vs.map fun v => (v.addr, v.prog)).Pairwise (fun x y => x.1 < y.1) := by
    rw [List.pairwise_map] at hs ⊢
    exact hs
  refine ((ho.perm _).trans hp).eq_of_pairwise ?_ (ho.sorted _) (hl.imp fun h => Nat.le_of_lt h)
  intro x y hx hy h1 h2
  have e : x.1 = y.1 := Nat.le_antisymm h1 h2
  have hx' := ((ho.perm _).trans hp).mem_iff.1 hx
  have hnd : ((vs.map fun v => (v.addr, v.prog)).map (·.1)).Nodup := by
    rw [List.map_map]; exact h.nodup
  exact List.inj_on_of_nodup_map hnd hx' hy e

theorem nextProposer_addr (vs : List Val) (ex : List Addr) : (Bundles.nextProposer vs ex).2.map (·.addr) = vs.map (·.addr) := by
  unfold Bundles.nextProposer
  split
  · rfl
  · rw [← normalize_addr vs]
    generalize effective vs ex = e
    cases h : advanced e (Bundles.normalize vs) with
    | nil => unfold Bundles.round; rw [h]
    | cons v l =>
      rw [round_cons h]
      show (charged _ _ _).map _ = _
      rw [charged_eq, mapProg_addr, ← h, advanced_addr]

/-! ## C101 -/

/-- **C101**: whatever orders the runtime chooses, the rotation with Go's maps and `int64`s selects and stores what the
model with lists and integers does; it does not panic. -/
theorem C101_rotation (r : Runtime) (ho : r.Valid) (M : Nat) (stakers : List Addr) (amt : Addr → Nat) (stored : List (Addr × Int))
    (h : Input M stakers amt stored) (hs : stakers.Pairwise (· < ·)) (excluded : List Addr) :
    Go.chooseNext r stakers amt stored excluded = some (Bundles.chooseNext stakers amt stored excluded) := by
  obtain ⟨s, h1, h2⟩ := load_go h ho
  obtain ⟨s', h3, h4⟩ := h2.next h.range.normalize ho excluded
  unfold Go.chooseNext Bundles.chooseNext
  rw [h1, Option.bind_some, h3, Option.map_some, h4.saved ho]
  rw [nextProposer_addr, load_addr]
  exact List.Pairwise.filter _ hs

/-- **C101**: the same for the selection from a list. -/
theorem C101_rotation_list (r : Runtime) (ho : r.Valid) (M : Nat) (stakers : List Addr) (amt : Addr → Nat) (stored : List (Addr × Int))
    (h : Input M stakers amt stored) (hs : stakers.Pairwise (· < ·)) (included : List Addr) :
    Go.chooseFromList r stakers amt stored included = some (Bundles.chooseFromList stakers amt stored included) := by
  obtain ⟨s, h1, h2⟩ := load_go h ho
  have := C101_rotation r ho M stakers amt stored h hs (complement (Bundles.load stakers amt stored) included)
  unfold Go.chooseNext at this
  unfold Go.chooseFromList Bundles.chooseFromList
  rw [h1] at this ⊢
  rw [← this, Option.bind_some, Option.bind_some, h2.addr]
  rfl

/-- a runtime that iterates backwards every other time -/
def zigzag : Runtime where
  order n l := if n % 2 = 0 then l else l.reverse
  sort l := l.mergeSort (fun x y => decide (x.1 ≤ y.1))

theorem zigzag_valid : zigzag.Valid where
  order n l := by
    show (if n % 2 = 0 then l else l.reverse).Perm l
    split
    · exact .refl _
    · exact List.reverse_perm l
  perm l := List.mergeSort_perm _ _
  sorted l := by
    have := List.pairwise_mergeSort (le := fun x y : Addr × Int => decide (x.1 ≤ y.1))
      (fun a b c h1 h2 => decide_eq_true (Nat.le_trans (of_decide_eq_true h1) (of_decide_eq_true h2)))
      (fun a b => by rw [Bool.or_eq_true, decide_eq_true_eq, decide_eq_true_eq]; exact Nat.le_total _ _) l
    exact this.imp fun h => by simpa using h

/-- three stakers, one of them new, progress of one who left; the hypotheses are met, and somebody is chosen -/
example : Input 1000 [1, 2, 3] (fun a => 100 * a) [(1, 700), (2, -650), (9, -50)] ∧
    Go.chooseNext zigzag [1, 2, 3] (fun a => 100 * a) [(1, 700), (2, -650), (9, -50)] [2] =
      some (some 1, [(1, 492), (2, -385), (3, -107)]) := by
  have h : Input 1000 [1, 2, 3] (fun a => 100 * a) [(1, 700), (2, -650), (9, -50)] :=
    ⟨by decide, by decide, by decide, by decide, by decide⟩
  refine ⟨h, ?_⟩
  rw [C101_rotation zigzag zigzag_valid 1000 _ _ _ h (by decide)]
  decide +kernel

end Verif.Bundles.Go
