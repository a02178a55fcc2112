import Verif.Lib.Map
import Mathlib.Data.List.Range
import Mathlib.Tactic.Linarith
import Mathlib.Tactic.Ring

/-!
# C53: pages of a query

Model of the two functions of /repo that cut an array into pages, and of the function `FilteredPaginate` of the Cosmos
SDK that every other paginated query of /repo uses.  The SDK is a dependency whose source is not in /repo:
`ParsePagination` and `FilteredPaginate` are modelled after cosmos-sdk v0.50 types/query/pagination.go and
filtered_pagination.go, without the `Reverse` flag.
-/

set_option linter.unusedSectionVars false

namespace Verif.Query
open Verif

/-- Go's `int64` arithmetic -/
def wrap (n : Int) : Int := (n + 2 ^ 63) % 2 ^ 64 - 2 ^ 63

/-- `query.PageRequest` as far as arrays are concerned: of the key only whether there is one -/
structure PageRequest where
  hasKey : Bool := false
  offset : Nat := 0
  limit : Nat := 0
deriving DecidableEq, Repr

/-- SDK `DefaultLimit` -/
def defaultLimit : Nat := 100

/-- SDK `ParsePagination`: page (counted from 1) and limit -/
def parse (r : PageRequest) : Except String (Int × Int) :=
  if wrap r.offset < 0 then .error "offset must be greater than 0"
  else if wrap r.limit < 0 then .error "limit must be greater than 0"
  else if wrap r.limit = 0 then .ok (wrap (wrap r.offset / defaultLimit + 1), defaultLimit)
  else .ok (wrap (wrap r.offset / wrap r.limit + 1), wrap r.limit)

/-- what a query answers; a panic is recovered by the gRPC server and the caller gets an error -/
inductive Answer (α : Type) where
  | page (items : List α) (total : Nat)
  | error (e : String)
  | panic
deriving DecidableEq, Repr

variable {α : Type}

/-- x/delegation/keeper/getters_index_stakers.go:21-44 `arrayPagination` -/
def arrayPagination (l : List α) (r : PageRequest) : Answer α :=
  if r.hasKey then .error "key pagination not supported"
  else match parse r with
    | .error e => .error e
    | .ok (page, limit) =>
      if min limit (l.length - wrap (page * limit)) < 0 then .panic
      else if wrap (page * limit) < 0 ∧ 0 < min limit (l.length - wrap (page * limit)) then .panic
      else .page ((l.drop (wrap (page * limit)).toNat).take (min limit (l.length - wrap (page * limit))).toNat) l.length

/-- getters_index_stakers.go:58-68 the loop of `arrayPaginationAccumulator`; `acc` is the answer of the accumulator (is
this one a hit), which keeps the hit if the index lies in the page: the kept entries and the count -/
def accumulate (acc : α → Bool) (lo hi : Int) : Nat → List α → List α × Nat
  | count, [] => ([], count)
  | count, a :: l =>
    if acc a then
      (if lo ≤ count ∧ (count : Int) < hi then a :: (accumulate acc lo hi (count + 1) l).1
        else (accumulate acc lo hi (count + 1) l).1, (accumulate acc lo hi (count + 1) l).2)
    else accumulate acc lo hi count l

/-- getters_index_stakers.go:48-76 `arrayPaginationAccumulator` -/
def arrayPaginationAccumulator (l : List α) (r : PageRequest) (acc : α → Bool) : Answer α :=
  if r.hasKey then .error "key pagination not supported"
  else match parse r with
    | .error e => .error e
    | .ok (page, limit) =>
      .page (accumulate acc (wrap ((wrap (page - 1)) * limit)) (wrap (page * limit)) 0 l).1
        (accumulate acc (wrap ((wrap (page - 1)) * limit)) (wrap (page * limit)) 0 l).2

/-! ## specification -/

/-- the `k`-th page (counted from 0) of a list -/
def pageOf (l : List α) (k n : Nat) : List α := (l.drop (k * n)).take n

/-- The pages of a list, one after the other, are the list. -/
theorem pages_flatten (l : List α) (n m : Nat) (h : l.length ≤ m * n) :
    ((List.range m).flatMap (fun k => pageOf l k n)) = l := by
  have key : ∀ m, (List.range m).flatMap (fun k => pageOf l k n) = l.take (m * n) := by
    intro m
    induction m with
    | zero => simp
    | succ m ih =>
      rw [List.range_succ, List.flatMap_append, ih, List.flatMap_singleton, pageOf, Nat.succ_mul, ← List.take_add]
  rw [key, List.take_of_length_le h]

/-! ## the accumulator version is right -/

theorem wrap_id {n : Int} (h : -2 ^ 63 ≤ n) (h' : n < 2 ^ 63) : wrap n = n := by
  unfold wrap
  rw [Int.emod_eq_of_lt (by linarith) (by norm_num at *; linarith)]; ring

theorem accumulate_eq (acc : α → Bool) (lo hi count : Nat) (l : List α) :
    accumulate acc lo hi count l =
      (((l.filter acc).take (hi - count)).drop (lo - count), count + (l.filter acc).length) := by
  induction l generalizing count with
  | nil => simp [accumulate]
  | cons a l ih =>
    rw [accumulate]
    by_cases ha : acc a
    · rw [if_pos ha, ih, List.filter_cons_of_pos ha]
      refine Prod.ext ?_ (by simp only [List.length_cons]; omega)
      simp only
      by_cases hhi : count < hi
      · have h1 : hi - count = hi - (count + 1) + 1 := by omega
        rw [h1, List.take_succ_cons]
        by_cases hlo : lo ≤ count
        · rw [if_pos ⟨by exact_mod_cast hlo, by exact_mod_cast hhi⟩]
          have h2 : lo - count = 0 := by omega
          have h3 : lo - (count + 1) = 0 := by omega
          rw [h2, h3]; rfl
        · rw [if_neg (by rintro ⟨h, -⟩; exact hlo (by exact_mod_cast h))]
          have h2 : lo - count = lo - (count + 1) + 1 := by omega
          rw [h2]; rfl
      · rw [if_neg (by rintro ⟨-, h⟩; exact hhi (by exact_mod_cast h))]
        have h1 : hi - count = 0 := by omega
        have h2 : hi - (count + 1) = 0 := by omega
        rw [h1, h2]; simp
    · rw [if_neg ha, ih, List.filter_cons_of_neg ha]

theorem accumulate_none (acc : α → Bool) (lo hi : Int) (count : Nat) (l : List α) (h : (count + l.length : Nat) ≤ lo) :
    accumulate acc lo hi count l = ([], count + (l.filter acc).length) := by
  induction l generalizing count with
  | nil => simp [accumulate]
  | cons a l ih =>
    rw [List.length_cons] at h
    rw [accumulate]
    by_cases ha : acc a
    · rw [if_pos ha, ih (count + 1) (by push_cast at h ⊢; linarith), List.filter_cons_of_pos ha]
      rw [if_neg (by rintro ⟨h1, -⟩; push_cast at h; have : (0 : Int) ≤ l.length := Int.natCast_nonneg _; linarith)]
      refine Prod.ext rfl (by simp only [List.length_cons]; omega)
    · rw [if_neg ha, ih count (by push_cast at h ⊢; linarith), List.filter_cons_of_neg ha]

/-- The request for page `k` of `n` entries. -/
def request (k n : Nat) : PageRequest := { offset := k * n, limit := n }

theorem parse_request {k n : Nat} (hn : 0 < n) (hs : k * n < 2 ^ 63) (hn' : n < 2 ^ 63) :
    parse (request k n) = .ok (wrap (k + 1), n) := by
  have e1 : wrap ((k * n : Nat) : Int) = (k * n : Nat) :=
    wrap_id (by have : (0 : Int) ≤ (k * n : Nat) := Int.natCast_nonneg _; linarith) (by exact_mod_cast hs)
  have e2 : wrap ((n : Nat) : Int) = n :=
    wrap_id (by have : (0 : Int) ≤ (n : Nat) := Int.natCast_nonneg _; linarith) (by exact_mod_cast hn')
  unfold parse request
  simp only
  rw [e1, e2, if_neg (by have : (0 : Int) ≤ (k * n : Nat) := Int.natCast_nonneg _; linarith),
    if_neg (by have : (0 : Int) ≤ (n : Nat) := Int.natCast_nonneg _; linarith), if_neg (by exact_mod_cast hn.ne')]
  have : ((k * n : Nat) : Int) / (n : Int) = k := by
    rw [← Int.natCast_ediv, Nat.mul_div_cancel _ hn]
  rw [this]

theorem request_default (k : Nat) (hs : k * defaultLimit < 2 ^ 63) :
    parse { offset := k * defaultLimit } = .ok (wrap (k + 1), defaultLimit) := by
  have e1 : wrap ((k * defaultLimit : Nat) : Int) = (k * defaultLimit : Nat) :=
    wrap_id (by have : (0 : Int) ≤ (k * defaultLimit : Nat) := Int.natCast_nonneg _; linarith) (by exact_mod_cast hs)
  unfold parse
  simp only
  rw [e1, if_neg (by have : (0 : Int) ≤ (k * defaultLimit : Nat) := Int.natCast_nonneg _; linarith),
    if_neg (by decide), if_pos (by decide)]
  have : ((k * defaultLimit : Nat) : Int) / (defaultLimit : Int) = k := by
    rw [← Int.natCast_ediv, Nat.mul_div_cancel _ (by decide)]
  rw [this]

/-- C53: with the accumulator, page `k` of `n` entries is page `k` of the matching entries, in order, and the total is
the number of matching entries.  (The array is shorter than `2^62`; the numbers of the request are `int64`s.) -/
theorem C53_page (l : List α) (acc : α → Bool) {k n : Nat} (hn : 0 < n) (hs : k * n < 2 ^ 63) (hn' : n < 2 ^ 63)
    (hl : l.length < 2 ^ 62) :
    arrayPaginationAccumulator l (request k n) acc = .page (pageOf (l.filter acc) k n) (l.filter acc).length := by
  have hf : (l.filter acc).length ≤ l.length := List.length_filter_le _ _
  have e0 : (k : Int) * n = (k * n : Nat) := by push_cast; rfl
  have hkb : (k : Int) < 2 ^ 63 := by
    have : k ≤ k * n := Nat.le_mul_of_pos_right _ hn
    have : k < 2 ^ 63 := by omega
    exact_mod_cast this
  -- the lower bound does not overflow
  have hlo : wrap (wrap (wrap ((k : Int) + 1) - 1) * n) = (k * n : Nat) := by
    have : wrap (wrap ((k : Int) + 1) - 1) = k := by
      by_cases hk : (k : Int) + 1 < 2 ^ 63
      · rw [wrap_id (n := (k : Int) + 1) (by have : (0 : Int) ≤ k := Int.natCast_nonneg _; linarith) hk]
        rw [add_sub_cancel_right, wrap_id (by have : (0 : Int) ≤ k := Int.natCast_nonneg _; linarith) hkb]
      · have : (k : Int) = 2 ^ 63 - 1 := by omega
        rw [this]; decide
    rw [this, e0, wrap_id (by have : (0 : Int) ≤ (k * n : Nat) := Int.natCast_nonneg _; linarith) (by exact_mod_cast hs)]
  unfold arrayPaginationAccumulator
  rw [if_neg (by simp [request]), parse_request hn hs hn']
  simp only
  rw [hlo]
  by_cases hov : (k + 1) * n < 2 ^ 63
  · have hk1 : (k : Int) + 1 < 2 ^ 63 := by
      have : k + 1 ≤ (k + 1) * n := Nat.le_mul_of_pos_right _ hn
      have : k + 1 < 2 ^ 63 := by omega
      exact_mod_cast this
    have hhi : wrap (wrap ((k : Int) + 1) * n) = ((k + 1) * n : Nat) := by
      rw [wrap_id (n := (k : Int) + 1) (by have : (0 : Int) ≤ k := Int.natCast_nonneg _; linarith) hk1]
      have : ((k : Int) + 1) * n = ((k + 1) * n : Nat) := by push_cast; rfl
      rw [this, wrap_id (by have : (0 : Int) ≤ ((k + 1) * n : Nat) := Int.natCast_nonneg _; linarith)
        (by exact_mod_cast hov)]
    rw [hhi, accumulate_eq]
    have h1 : (k + 1) * n - 0 = k * n + n := by rw [Nat.sub_zero, Nat.succ_mul]
    rw [h1, Nat.sub_zero, pageOf, List.drop_take, Nat.zero_add]
    have h2 : k * n + n - k * n = n := by omega
    rw [h2]
  · have hbig : 2 ^ 62 ≤ k * n ∨ k = 0 := by
      by_cases hk : k = 0
      · exact Or.inr hk
      · have : n ≤ k * n := Nat.le_mul_of_pos_left _ (by omega)
        rw [Nat.succ_mul] at hov
        left
        have e : (2 : Nat) ^ 63 = 2 ^ 62 + 2 ^ 62 := by norm_num
        omega
    rcases hbig with hbig | rfl
    · rw [accumulate_none _ _ _ _ _ (by
        have : l.length ≤ k * n := by omega
        rw [Nat.zero_add]; exact_mod_cast this), Nat.zero_add]
      have : pageOf (l.filter acc) k n = [] := by
        unfold pageOf
        rw [List.drop_eq_nil_of_le (by omega), List.take_nil]
      rw [this]
    · omega

/-- C53: reading the pages `0, 1, …` of any size until the total is reached gives every matching entry exactly once, in
order. -/
theorem C53_all_pages (l : List α) (acc : α → Bool) {n m : Nat} (hn : 0 < n) (hs : m * n < 2 ^ 63) (hn' : n < 2 ^ 63)
    (hl : l.length < 2 ^ 62) (hm : (l.filter acc).length ≤ m * n) :
    ∃ pages : List (List α), pages.length = m ∧ pages.flatten = l.filter acc ∧
      ∀ k, (h : k < m) → ∃ p, pages[k]? = some p ∧
        arrayPaginationAccumulator l (request k n) acc = .page p (l.filter acc).length := by
  refine ⟨(List.range m).map (fun k => pageOf (l.filter acc) k n), by simp, ?_, ?_⟩
  · rw [← List.flatMap_def]; exact pages_flatten _ _ _ hm
  · intro k hk
    refine ⟨pageOf (l.filter acc) k n, by simp [hk], C53_page l acc hn ?_ hn' hl⟩
    have : k * n ≤ m * n := Nat.mul_le_mul_right _ hk.le
    omega

theorem accumulator_congr (l : List α) (acc : α → Bool) {r r' : PageRequest} (h : r.hasKey = r'.hasKey)
    (h' : parse r = parse r') : arrayPaginationAccumulator l r acc = arrayPaginationAccumulator l r' acc := by
  unfold arrayPaginationAccumulator
  rw [h, h']

theorem default_pos : 0 < defaultLimit := by decide
theorem default_lt : defaultLimit < 2 ^ 63 := by unfold defaultLimit; norm_num

/-- A request without a limit gives pages of 100. -/
theorem C53_default (l : List α) (acc : α → Bool) {k : Nat} (hs : k * defaultLimit < 2 ^ 63) (hl : l.length < 2 ^ 62) :
    arrayPaginationAccumulator l { offset := k * defaultLimit } acc =
      .page (pageOf (l.filter acc) k defaultLimit) (l.filter acc).length := by
  have h := C53_page l acc (k := k) (n := defaultLimit) default_pos hs default_lt hl
  have e := (parse_request (k := k) (n := defaultLimit) default_pos hs default_lt).trans (request_default k hs).symm
  exact (accumulator_congr l acc (r := { offset := k * defaultLimit }) (r' := request k defaultLimit) rfl e.symm).trans h

example : arrayPaginationAccumulator [5, 8, 2, 9, 4, 6, 7] (request 1 2) (fun a => a % 2 == 0) = .page [4, 6] 4 := by
  decide +kernel

/-! ## the version without accumulator is one page off -/

/-- The query without accumulator (`StakersByPoolCount`) answers a request for page `k` with page `k + 1` as long as
page `k` is full, and with a panic otherwise. -/
theorem array_page (l : List α) {k n : Nat} (hn : 0 < n) (hs : (k + 1) * n < 2 ^ 63) :
    arrayPagination l (request k n) =
      if (k + 1) * n ≤ l.length then .page (pageOf l (k + 1) n) l.length else .panic := by
  have hkn : k * n + n < 2 ^ 63 := by rw [Nat.succ_mul] at hs; exact hs
  have hn' : n < 2 ^ 63 := by omega
  have hk1 : (k : Int) + 1 < 2 ^ 63 := by
    have : k + 1 ≤ (k + 1) * n := Nat.le_mul_of_pos_right _ hn
    have : k + 1 < 2 ^ 63 := by omega
    exact_mod_cast this
  have hhi : wrap (wrap ((k : Int) + 1) * n) = ((k + 1) * n : Nat) := by
    rw [wrap_id (n := (k : Int) + 1) (by have : (0 : Int) ≤ k := Int.natCast_nonneg _; linarith) hk1]
    have : ((k : Int) + 1) * n = ((k + 1) * n : Nat) := by push_cast; rfl
    rw [this, wrap_id (by have : (0 : Int) ≤ ((k + 1) * n : Nat) := Int.natCast_nonneg _; linarith)
      (by exact_mod_cast hs)]
  unfold arrayPagination
  rw [if_neg (by simp [request]), parse_request hn (by omega) hn']
  simp only
  rw [hhi]
  by_cases h : (k + 1) * n ≤ l.length
  · have h' : ((((k + 1) * n : Nat) : Int)) ≤ (l.length : Int) := by exact_mod_cast h
    rw [if_neg (by
        have : (0 : Int) ≤ n := Int.natCast_nonneg _
        rw [not_lt, le_min_iff]; exact ⟨this, by linarith⟩),
      if_neg (by rintro ⟨h1, -⟩; have : (0 : Int) ≤ ((k + 1) * n : Nat) := Int.natCast_nonneg _; linarith), if_pos h]
    unfold pageOf
    rw [Int.toNat_natCast]
    have e : (List.drop ((k + 1) * n) l).take (min (n : Int) ((l.length : Int) - (((k + 1) * n : Nat) : Int))).toNat =
        (List.drop ((k + 1) * n) l).take n := by
      generalize (k + 1) * n = x at h h' ⊢
      have : (min (n : Int) ((l.length : Int) - (x : Int))).toNat = min n (l.length - x) := by omega
      rw [this, List.take_eq_take_iff, List.length_drop]
      omega
    rw [e]
  · have h' : ¬ (((((k + 1) * n : Nat) : Int)) ≤ (l.length : Int)) := by exact_mod_cast h
    rw [if_pos (by rw [min_lt_iff]; right; linarith), if_neg h]

/-- C59 is false of the code: the first entry of the list is on no page of any size. -/
theorem C59_hides (a : α) (l : List α) (hd : (a :: l).Nodup) {k n : Nat} (hn : 0 < n) (hs : (k + 1) * n < 2 ^ 63)
    {p : List α} {t : Nat} (h : arrayPagination (a :: l) (request k n) = .page p t) : a ∉ p := by
  rw [array_page _ hn hs] at h
  split at h
  · cases h
    intro ha
    have h1 : 0 < (k + 1) * n := by positivity
    have h2 : a ∈ (a :: l).drop ((k + 1) * n) := List.mem_of_mem_take ha
    obtain ⟨j, hj⟩ : ∃ j, (k + 1) * n = j + 1 := ⟨(k + 1) * n - 1, by omega⟩
    rw [hj, List.drop_succ_cons] at h2
    exact (List.nodup_cons.mp hd).1 (List.mem_of_mem_drop h2)
  · cases h

/-- … and a request for all of at most 100 entries panics unless there are exactly 100. -/
theorem C59_panics (l : List α) (h : l.length < defaultLimit) : arrayPagination l {} = .panic := by
  have e : parse {} = .ok (1, (defaultLimit : Int)) := by decide
  unfold arrayPagination
  rw [if_neg (by simp), e]
  simp only
  have : wrap (1 * (defaultLimit : Int)) = defaultLimit := by decide
  rw [this, if_pos (by rw [min_lt_iff]; right; have : (l.length : Int) < defaultLimit := by exact_mod_cast h
                       linarith)]

example : arrayPagination [1, 2, 3, 4, 5] (request 0 2) = .page [3, 4] 5 := by decide +kernel
example : arrayPagination [1, 2, 3, 4, 5] (request 2 2) = .panic := by decide +kernel

/-! ## pages by key: `FilteredPaginate` -/

variable {K V : Type} [DecidableEq K] [KeyOrd K]

/-- SDK filtered_pagination.go, requests with a key: read entries until `limit` hits; answers the hits and the key where
the next page starts -/
def byKey (acc : K × V → Bool) (limit : Nat) : Nat → List (K × V) → List (K × V) × Option K
  | _, [] => ([], none)
  | hits, a :: l =>
    if hits = limit then ([], some a.1)
    else if acc a then (a :: (byKey acc limit (hits + 1) l).1, (byKey acc limit (hits + 1) l).2)
    else byKey acc limit hits l

/-- SDK filtered_pagination.go, requests with an offset: the hits of the page, the next key and the number of hits.  The
loop goes on to the end only if the total is asked for. -/
def byOffset (acc : K × V → Bool) (offset limit : Nat) (total : Bool) :
    Nat → Option K → List (K × V) → List (K × V) × Option K × Nat
  | hits, next, [] => ([], next, hits)
  | hits, next, a :: l =>
    if acc a then
      if hits + 1 = offset + limit + 1 then
        if total then byOffset acc offset limit total (hits + 1) (next.orElse (fun _ => some a.1)) l
        else ([], next.orElse (fun _ => some a.1), hits + 1)
      else
        (if offset ≤ hits ∧ hits < offset + limit then a :: (byOffset acc offset limit total (hits + 1) next l).1
          else (byOffset acc offset limit total (hits + 1) next l).1,
          (byOffset acc offset limit total (hits + 1) next l).2)
    else if hits = offset + limit + 1 then
      if total then byOffset acc offset limit total hits (next.orElse (fun _ => some a.1)) l
      else ([], next.orElse (fun _ => some a.1), hits)
    else byOffset acc offset limit total hits next l

/-- SDK `FilteredPaginate` over a store: a request with a key starts at the first entry whose key is not below it -/
def filteredPaginate (m : Map K V) (acc : K × V → Bool) (limit : Nat) (total : Bool) : Option K → List (K × V) × Option K
  | some k => byKey acc limit 0 (m.toList.dropWhile (fun a => KeyOrd.lt a.1 k))
  | none => ((byOffset acc 0 limit total 0 none m.toList).1, (byOffset acc 0 limit total 0 none m.toList).2.1)

/-- Specification: a client reads a store page by page, starting each page with the key the last one answered, until
there is no next key. -/
inductive Reading (m : Map K V) (acc : K × V → Bool) (limit : Nat) (total : Bool) :
    Option K → List (List (K × V)) → Prop
  | last {k p} : filteredPaginate m acc limit total k = (p, none) → Reading m acc limit total k [p]
  | more {k k' p ps} : filteredPaginate m acc limit total k = (p, some k') → Reading m acc limit total (some k') ps →
      Reading m acc limit total k (p :: ps)

/-- the part of a list a page covers, and the rest -/
theorem byKey_split (acc : K × V → Bool) (limit hits : Nat) (l : List (K × V)) (h : hits ≤ limit) :
    ∃ pre post, l = pre ++ post ∧ (byKey acc limit hits l).1 = pre.filter acc ∧
      (byKey acc limit hits l).2 = post.head?.map (·.1) ∧ (pre.filter acc).length ≤ limit - hits ∧
      (post ≠ [] → (pre.filter acc).length = limit - hits) := by
  induction l generalizing hits with
  | nil => exact ⟨[], [], by simp [byKey]⟩
  | cons a l ih =>
    rw [byKey]
    by_cases e : hits = limit
    · rw [if_pos e]; exact ⟨[], a :: l, by simp [e]⟩
    · rw [if_neg e]
      by_cases ha : acc a
      · obtain ⟨pre, post, h1, h2, h3, h4, h5⟩ := ih (hits + 1) (by omega)
        refine ⟨a :: pre, post, by rw [h1]; rfl, ?_, ?_, ?_, ?_⟩
        · rw [if_pos ha, h2, List.filter_cons_of_pos ha]
        · rw [if_pos ha, h3]
        · rw [List.filter_cons_of_pos ha, List.length_cons]; omega
        · intro hp; rw [List.filter_cons_of_pos ha, List.length_cons, h5 hp]; omega
      · obtain ⟨pre, post, h1, h2, h3, h4, h5⟩ := ih hits h
        refine ⟨a :: pre, post, by rw [h1]; rfl, ?_, ?_, ?_, ?_⟩
        · rw [if_neg ha, h2, List.filter_cons_of_neg ha]
        · rw [if_neg ha, h3]
        · rw [List.filter_cons_of_neg ha]; exact h4
        · intro hp; rw [List.filter_cons_of_neg ha]; exact h5 hp

theorem byOffset_over (acc : K × V → Bool) (limit hits : Nat) (total : Bool) (k : K) (l : List (K × V))
    (h : limit < hits) :
    (byOffset acc 0 limit total hits (some k) l).1 = [] ∧ (byOffset acc 0 limit total hits (some k) l).2.1 = some k := by
  induction l generalizing hits with
  | nil => simp [byOffset]
  | cons a l ih =>
    rw [byOffset]
    split
    · split
      · omega
      · rw [if_neg (by omega)]; exact ih _ (by omega)
    · split
      · split
        · exact ih _ h
        · simp
      · exact ih _ h

theorem byOffset_split (acc : K × V → Bool) (limit hits : Nat) (total : Bool) (l : List (K × V)) (h : hits ≤ limit) :
    ∃ pre post, l = pre ++ post ∧ (byOffset acc 0 limit total hits none l).1 = pre.filter acc ∧
      (byOffset acc 0 limit total hits none l).2.1 = post.head?.map (·.1) ∧ (pre.filter acc).length ≤ limit - hits ∧
      (post ≠ [] → (pre.filter acc).length = limit - hits) := by
  induction l generalizing hits with
  | nil => exact ⟨[], [], by simp [byOffset]⟩
  | cons a l ih =>
    rw [byOffset]
    by_cases ha : acc a
    · rw [if_pos ha]
      by_cases e : hits = limit
      · rw [if_pos (by omega)]
        refine ⟨[], a :: l, rfl, ?_, ?_, by simp [e], by simp [e]⟩
        · split
          · exact (byOffset_over acc limit (hits + 1) total a.1 l (by omega)).1
          · rfl
        · split
          · exact (byOffset_over acc limit (hits + 1) total a.1 l (by omega)).2
          · rfl
      · rw [if_neg (by omega)]
        obtain ⟨pre, post, h1, h2, h3, h4, h5⟩ := ih (hits + 1) (by omega)
        refine ⟨a :: pre, post, by rw [h1]; rfl, ?_, h3, ?_, ?_⟩
        · rw [if_pos ⟨by omega, by omega⟩, h2, List.filter_cons_of_pos ha]
        · rw [List.filter_cons_of_pos ha, List.length_cons]; omega
        · intro hp; rw [List.filter_cons_of_pos ha, List.length_cons, h5 hp]; omega
    · rw [if_neg ha, if_neg (by omega)]
      obtain ⟨pre, post, h1, h2, h3, h4, h5⟩ := ih hits h
      refine ⟨a :: pre, post, by rw [h1]; rfl, ?_, h3, ?_, ?_⟩
      · rw [h2, List.filter_cons_of_neg ha]
      · rw [List.filter_cons_of_neg ha]; exact h4
      · intro hp; rw [List.filter_cons_of_neg ha]; exact h5 hp

/-- starting at the key of an entry is starting at that entry -/
theorem dropWhile_key {l pre post : List (K × V)} {a : K × V} (hs : SortedL l) (h : l = pre ++ a :: post) :
    l.dropWhile (fun b => KeyOrd.lt b.1 a.1) = a :: post := by
  subst h
  have hp := List.pairwise_append.mp hs
  clear hs
  induction pre with
  | nil => simp [KeyOrd.irrefl]
  | cons b pre ih =>
    have hb : KeyOrd.lt b.1 a.1 = true := hp.2.2 b (by simp) a (by simp)
    rw [List.cons_append, List.dropWhile_cons_of_pos (by simpa using hb)]
    exact ih ⟨(List.pairwise_cons.mp hp.1).2, hp.2.1, fun x hx y hy => hp.2.2 x (by simp [hx]) y hy⟩

theorem paginate_split (m : Map K V) (acc : K × V → Bool) (limit : Nat) (total : Bool) (k : Option K)
    (pre0 rest : List (K × V)) (hm : m.toList = pre0 ++ rest) (hk : k = none ∧ pre0 = [] ∨ k = rest.head?.map (·.1) ∧ k ≠ none) :
    ∃ pre post, rest = pre ++ post ∧ (filteredPaginate m acc limit total k).1 = pre.filter acc ∧
      (filteredPaginate m acc limit total k).2 = post.head?.map (·.1) ∧ (pre.filter acc).length ≤ limit ∧
      (post ≠ [] → (pre.filter acc).length = limit) := by
  rcases hk with ⟨rfl, rfl⟩ | ⟨hk, hne⟩
  · rw [List.nil_append] at hm
    obtain ⟨pre, post, h⟩ := byOffset_split acc limit 0 total m.toList (Nat.zero_le _)
    rw [← hm]
    exact ⟨pre, post, by simpa [filteredPaginate] using h⟩
  · cases rest with
    | nil => exact absurd hk hne
    | cons a rest =>
      have hk' : k = some a.1 := hk
      subst hk'
      have hd := dropWhile_key m.sorted hm
      obtain ⟨pre, post, h⟩ := byKey_split acc limit 0 (a :: rest) (Nat.zero_le _)
      refine ⟨pre, post, ?_⟩
      simp only [filteredPaginate, hd]
      simpa using h

theorem reading_from (m : Map K V) (acc : K × V → Bool) (limit : Nat) (total : Bool) {k : Option K}
    {ps : List (List (K × V))} (hr : Reading m acc limit total k ps) (pre0 rest : List (K × V))
    (hm : m.toList = pre0 ++ rest) (hk : k = none ∧ pre0 = [] ∨ k = rest.head?.map (·.1) ∧ k ≠ none) :
    ps.flatten = rest.filter acc ∧ ∀ p ∈ ps.dropLast, p.length = limit := by
  induction hr generalizing pre0 rest with
  | @last k p h =>
    obtain ⟨pre, post, h1, h2, h3, h4, h5⟩ := paginate_split m acc limit total k pre0 rest hm hk
    rw [h] at h2 h3
    have : post = [] := by cases post with
      | nil => rfl
      | cons a t => cases h3
    subst this
    have h2' : p = pre.filter acc := h2
    rw [List.append_nil] at h1
    exact ⟨by simp [h1, h2'], by simp⟩
  | @more k k' p ps h hr ih =>
    obtain ⟨pre, post, h1, h2, h3, h4, h5⟩ := paginate_split m acc limit total k pre0 rest hm hk
    rw [h] at h2 h3
    have h2' : p = pre.filter acc := h2
    have h3' : some k' = post.head?.map (·.1) := h3
    obtain ⟨i1, i2⟩ := ih (pre0 ++ pre) post (by rw [hm, h1, List.append_assoc]) (Or.inr ⟨h3', by simp⟩)
    refine ⟨by rw [List.flatten_cons, i1, h2', h1, List.filter_append], ?_⟩
    intro q hq
    have hps : ps ≠ [] := by cases hr <;> simp
    rw [List.dropLast_cons_of_ne_nil hps] at hq
    rcases List.mem_cons.mp hq with rfl | hq
    · rw [h2']; exact h5 (by rintro rfl; cases h3')
    · exact i2 q hq

/-- C53: a client that reads a store-backed query page by page, following the next key, gets every matching entry
exactly once, in store order; all pages but the last one are full. -/
theorem C53_keys (m : Map K V) (acc : K × V → Bool) {limit : Nat} {total : Bool} {ps : List (List (K × V))}
    (h : Reading m acc limit total none ps) :
    ps.flatten = m.toList.filter acc ∧ ∀ p ∈ ps.dropLast, p.length = limit :=
  reading_from m acc limit total h [] m.toList rfl (Or.inl ⟨rfl, rfl⟩)

/-- C53: and the client comes to an end. -/
theorem C53_keys_end (m : Map K V) (acc : K × V → Bool) {limit : Nat} (hl : 0 < limit) (total : Bool) :
    ∃ ps, Reading m acc limit total none ps := by
  have key : ∀ n (pre0 rest : List (K × V)) (k : Option K), rest.length ≤ n → m.toList = pre0 ++ rest →
      (k = none ∧ pre0 = [] ∨ k = rest.head?.map (·.1) ∧ k ≠ none) → ∃ ps, Reading m acc limit total k ps := by
    intro n
    induction n with
    | zero =>
      intro pre0 rest k hn hm hk
      obtain rfl : rest = [] := List.length_eq_zero_iff.mp (by omega)
      obtain ⟨pre, post, h1, h2, h3, h4, h5⟩ := paginate_split m acc limit total k pre0 [] hm hk
      obtain ⟨-, rfl⟩ := List.nil_eq_append_iff.mp h1
      exact ⟨[_], Reading.last (Prod.ext rfl h3)⟩
    | succ n ih =>
      intro pre0 rest k hn hm hk
      obtain ⟨pre, post, h1, h2, h3, h4, h5⟩ := paginate_split m acc limit total k pre0 rest hm hk
      cases post with
      | nil => exact ⟨[_], Reading.last (Prod.ext rfl h3)⟩
      | cons a post =>
        have hpre : pre ≠ [] := by
          rintro rfl
          have := h5 (by simp)
          simp at this
          omega
        have : 0 < pre.length := List.length_pos_iff.mpr hpre
        have hlen : (a :: post).length ≤ n := by
          have := congrArg List.length h1
          rw [List.length_append] at this
          omega
        obtain ⟨ps, hps⟩ := ih (pre0 ++ pre) (a :: post) (some a.1) hlen
          (by rw [hm, h1, List.append_assoc]) (Or.inr ⟨rfl, by simp⟩)
        exact ⟨_ :: ps, Reading.more (Prod.ext rfl h3) hps⟩
  exact key m.toList.length [] m.toList none le_rfl rfl (Or.inl ⟨rfl, rfl⟩)

example : filteredPaginate (Map.ofList [(1, 5), (2, 8), (4, 2), (7, 9), (9, 4)]) (fun a => a.2 % 2 == 0) 2 false none =
    ([(2, 8), (4, 2)], some 9) := by decide +kernel
example : filteredPaginate (Map.ofList [(1, 5), (2, 8), (4, 2), (7, 9), (9, 4)]) (fun a => a.2 % 2 == 0) 2 false (some 9) =
    ([(9, 4)], none) := by decide +kernel

end Verif.Query
