import Verif.Delegation.Inv

/-!
# The unbonding queue (proofs)
-/

namespace Verif.Delegation
open Verif

/-! ## Maps with numeric keys -/

theorem toList_set_last {V : Type} (m : Map Nat V) (k : Nat) (v : V) (h : ∀ j w, m.get? j = some w → j < k) :
    (m.set k v).toList = m.toList ++ [(k, v)] := by
  show insertL k v m.toList = _
  exact insertL_last _ _ _ (fun p hp => h p.1 p.2 ((Map.mem_iff m p.1 p.2).1 hp))

theorem toList_head {V : Type} (m : Map Nat V) (k : Nat) (v : V) (hk : m.get? k = some v)
    (h : ∀ j w, m.get? j = some w → k ≤ j) : m.toList = (k, v) :: (m.del k).toList := by
  have hs := m.sorted
  have hmem := (Map.mem_iff m k v).2 hk
  have hd : (m.del k).toList = m.toList.filter (fun p => decide (p.1 ≠ k)) := rfl
  rw [hd]
  have hle : ∀ p ∈ m.toList, k ≤ p.1 := fun p hp => h p.1 p.2 ((Map.mem_iff m p.1 p.2).1 hp)
  cases hl : m.toList with
  | nil => rw [hl] at hmem; cases hmem
  | cons p t =>
    rw [hl] at hs hmem hle
    have ht : ∀ q ∈ t, p.1 < q.1 := by
      intro q hq
      have := (List.pairwise_cons.1 hs).1 q hq
      simpa [KeyOrd.lt] using this
    have hp : p = (k, v) := by
      rcases List.mem_cons.1 hmem with e | e
      · exact e.symm
      · have h1 := ht _ e
        have h2 := hle p (by simp)
        simp only at h1; omega
    subst hp
    rw [List.filter_cons]
    simp only [ne_eq, not_true_eq_false, decide_false]
    simp only [Bool.false_eq_true, if_false]
    congr 1
    symm
    rw [List.filter_eq_self]
    intro q hq
    have := ht q hq
    simp only at this
    simp; omega

theorem toList_mono_keys {V : Type} (m : Map Nat V) : m.toList.Pairwise (fun a b => a.1 < b.1) := by
  refine List.Pairwise.imp ?_ m.sorted
  intro a b h
  simpa [KeyOrd.lt] using h

/-! ## The invariant -/

structure QInv (s : State) (now : Nat) : Prop where
  dense : ∀ i, (s.queue.get? i).isSome = true ↔ s.low < i ∧ i ≤ s.high
  mono : ∀ i j e e', s.queue.get? i = some e → s.queue.get? j = some e' → i ≤ j → e.creation ≤ e'.creation
  past : ∀ i e, s.queue.get? i = some e → e.creation ≤ now
  log : requests s.trace = paids s.trace ++ s.queue.toList

theorem QInv.of_eq {s s' : State} {now now' : Nat} (h : QInv s now) (hn : now ≤ now') (hq : s'.queue = s.queue)
    (hl : s'.low = s.low) (hh : s'.high = s.high) (hr : requests s'.trace = requests s.trace)
    (hp : paids s'.trace = paids s.trace) : QInv s' now' := by
  refine ⟨?_, ?_, ?_, ?_⟩
  · intro i; rw [hq, hl, hh]; exact h.dense i
  · intro i j e e'; rw [hq]; exact h.mono i j e e'
  · intro i e; rw [hq]; intro he; exact le_trans (h.past i e he) hn
  · rw [hr, hp, hq]; exact h.log

theorem QInv.start {s : State} {now : Nat} (h : QInv s now) (st who : Addr) (n : Nat) (hle : s.low ≤ s.high) :
    QInv (startUnbonding s now st who n) now := by
  have hlast : ∀ j w, s.queue.get? j = some w → j < s.high + 1 := by
    intro j w hj
    have := (h.dense j).1 (by rw [hj]; rfl)
    omega
  have hq : (startUnbonding s now st who n).queue = s.queue.set (s.high + 1) ⟨st, who, now, n⟩ := rfl
  refine ⟨?_, ?_, ?_, ?_⟩
  · intro i
    show ((s.queue.set (s.high + 1) ⟨st, who, now, n⟩).get? i).isSome = true ↔ s.low < i ∧ i ≤ s.high + 1
    rw [Map.get?_set]
    have := h.dense i
    split
    · simp; omega
    · rw [this]; omega
  · intro i j e e'
    rw [hq, Map.get?_set, Map.get?_set]
    intro h1 h2 hij
    split at h1
    · split at h2
      · injection h1 with h1; injection h2 with h2; rw [← h1, ← h2]
      · have := hlast j e' h2; omega
    · split at h2
      · injection h2 with h2; rw [← h2]; exact h.past i e h1
      · exact h.mono i j e e' h1 h2 hij
  · intro i e
    rw [hq, Map.get?_set]
    intro h1
    split at h1
    · injection h1 with h1; rw [← h1]
    · exact h.past i e h1
  · show requests s.trace ++ [(s.high + 1, _)] = paids s.trace ++ (s.queue.set (s.high + 1) _).toList
    rw [toList_set_last _ _ _ hlast, h.log, List.append_assoc]

/-- One due entry. -/
theorem QInv.pay {w : World} {now t : Nat} {e : QEntry} (h : QInv w.s now) (he : w.s.queue.get? (w.s.low + 1) = some e) :
    QInv (payEntry w t (w.s.low + 1) e).s now ∧
    w.s.queue.toList = (w.s.low + 1, e) :: (payEntry w t (w.s.low + 1) e).s.queue.toList := by
  have hge : ∀ j x, w.s.queue.get? j = some x → w.s.low + 1 ≤ j := by
    intro j x hj
    have := (h.dense j).1 (by rw [hj]; rfl)
    omega
  have hq : (payEntry w t (w.s.low + 1) e).s.queue = w.s.queue.del (w.s.low + 1) := rfl
  have hlist := toList_head _ _ _ he hge
  refine ⟨⟨?_, ?_, ?_, ?_⟩, by rw [hq]; exact hlist⟩
  · intro i
    show ((w.s.queue.del (w.s.low + 1)).get? i).isSome = true ↔ w.s.low + 1 < i ∧ i ≤ w.s.high
    rw [Map.get?_del]
    have := h.dense i
    have h2 := (h.dense (w.s.low + 1)).1 (by rw [he]; rfl)
    split
    · subst_vars; simp
    · rw [this]; omega
  · intro i j e1 e2
    rw [hq, Map.get?_del, Map.get?_del]
    intro h1 h2
    split at h1
    · cases h1
    · split at h2
      · cases h2
      · exact h.mono i j e1 e2 h1 h2
  · intro i e1
    rw [hq, Map.get?_del]
    intro h1
    split at h1
    · cases h1
    · exact h.past i e1 h1
  · show requests w.s.trace = (paids w.s.trace ++ [(w.s.low + 1, e)]) ++ (w.s.queue.del (w.s.low + 1)).toList
    rw [h.log, hlist, List.append_assoc]; rfl

/-- The whole loop: exactly the leading due entries are paid, in order. -/
theorem queueLoop_spec {now t : Nat} (fuel : Nat) {w : World} (h : QInv w.s now)
    (hf : w.s.queue.size ≤ fuel) :
    QInv (queueLoop t fuel w).s now ∧
    (queueLoop t fuel w).s.params = w.s.params ∧
    (queueLoop t fuel w).s.high = w.s.high ∧
    (queueLoop t fuel w).s.spells = w.s.spells ∧
    (∀ who, redelegations who (queueLoop t fuel w).s.trace = redelegations who w.s.trace) ∧
    requests (queueLoop t fuel w).s.trace = requests w.s.trace ∧
    (queueLoop t fuel w).s.queue.toList = w.s.queue.toList.dropWhile (fun p => due w.s.params t p.2) ∧
    paids (queueLoop t fuel w).s.trace
      = paids w.s.trace ++ w.s.queue.toList.takeWhile (fun p => due w.s.params t p.2) ∧
    queueRound (queueLoop t fuel w) t = none := by
  have stop : ∀ w : World, QInv w.s now → w.s.queue.get? (w.s.low + 1) = none → w.s.queue.toList = [] := by
    intro w h hn
    cases hl : w.s.queue.toList with
    | nil => rfl
    | cons p l =>
      exfalso
      have hp : w.s.queue.get? p.1 = some p.2 := (Map.mem_iff _ p.1 p.2).1 (by rw [hl]; simp)
      have h1 := (h.dense p.1).1 (by rw [hp]; rfl)
      have h2 := (h.dense (w.s.low + 1)).2 (by omega)
      rw [hn] at h2; cases h2
  have round_none : ∀ w : World, QInv w.s now → w.s.queue.get? (w.s.low + 1) = none → queueRound w t = none := by
    intro w h hn
    unfold queueRound
    rw [hn]
    simp only
    split
    · rename_i hlt
      exfalso
      have h2 := (h.dense (w.s.low + 1)).2 (by omega)
      rw [hn] at h2; cases h2
    · rfl
  induction fuel generalizing w with
  | zero =>
    have hz : w.s.queue = ∅ := Map.eq_empty_of_size _ (by omega)
    have hn : w.s.queue.get? (w.s.low + 1) = none := by rw [hz]; rfl
    have hl := stop w h hn
    refine ⟨h, rfl, rfl, rfl, fun _ => rfl, rfl, ?_, ?_, round_none w h hn⟩
    · show w.s.queue.toList = _; rw [hl]; rfl
    · show paids w.s.trace = _; rw [hl]; simp
  | succ n ih =>
    cases hq : w.s.queue.get? (w.s.low + 1) with
    | none =>
      have hl := stop w h hq
      have hr := round_none w h hq
      have e : queueLoop t (n + 1) w = w := by
        show (match queueRound w t with | none => w | some w' => queueLoop t n w') = w
        rw [hr]
      rw [e]
      refine ⟨h, rfl, rfl, rfl, fun _ => rfl, rfl, ?_, ?_, hr⟩
      · rw [hl]; rfl
      · rw [hl]; simp
    | some e =>
      by_cases hd : due w.s.params t e = true
      · have hr : queueRound w t = some (payEntry w t (w.s.low + 1) e) := by
          unfold queueRound; rw [hq]; simp only [hd, if_true]
        have e1 : queueLoop t (n + 1) w = queueLoop t n (payEntry w t (w.s.low + 1) e) := by
          show (match queueRound w t with | none => w | some w' => queueLoop t n w') = _
          rw [hr]
        rw [e1]
        obtain ⟨hp, hl⟩ := h.pay (t := t) hq
        have hsz : (payEntry w t (w.s.low + 1) e).s.queue.size ≤ n := by
          have : w.s.queue.size = (payEntry w t (w.s.low + 1) e).s.queue.size + 1 := by
            unfold Map.size; rw [hl]; rfl
          omega
        obtain ⟨i1, i2, i3, i4, i5, i6, i7, i8, i9⟩ := ih hp hsz
        refine ⟨i1, i2, i3, i4, i5, i6, ?_, ?_, i9⟩
        · rw [i7, hl, List.dropWhile_cons]
          simp only [hd, if_true]
          rfl
        · rw [i8, hl, List.takeWhile_cons]
          simp only [hd, if_true]
          show (paids w.s.trace ++ [(w.s.low + 1, e)]) ++ _ = _
          rw [List.append_assoc]
          rfl
      · have hr : queueRound w t = none := by
          unfold queueRound; rw [hq]; simp only [hd]; rfl
        have e1 : queueLoop t (n + 1) w = w := by
          show (match queueRound w t with | none => w | some w' => queueLoop t n w') = w
          rw [hr]
        rw [e1]
        have hl : ∃ l, w.s.queue.toList = (w.s.low + 1, e) :: l :=
          ⟨_, (h.pay (t := t) hq).2⟩
        obtain ⟨l, hl⟩ := hl
        refine ⟨h, rfl, rfl, rfl, fun _ => rfl, rfl, ?_, ?_, hr⟩
        · rw [hl, List.dropWhile_cons]; simp only [hd]; rfl
        · rw [hl, List.takeWhile_cons]; simp only [hd]; simp

/-- With times that do not overflow, the leading due entries are all due entries. -/
theorem takeWhile_due {s : State} {now t : Nat} (h : QInv s now) (hn : now ≤ t) (ho : t + s.params.unbonding < 2 ^ 64) :
    s.queue.toList.takeWhile (fun p => due s.params t p.2)
      = s.queue.toList.filter (fun p => decide (p.2.creation + s.params.unbonding ≤ t)) ∧
    s.queue.toList.dropWhile (fun p => due s.params t p.2)
      = s.queue.toList.filter (fun p => decide (t < p.2.creation + s.params.unbonding)) := by
  have hmem : ∀ p ∈ s.queue.toList, s.queue.get? p.1 = some p.2 := fun p hp => (Map.mem_iff _ p.1 p.2).1 hp
  have hdue : ∀ p ∈ s.queue.toList, due s.params t p.2 = decide (p.2.creation + s.params.unbonding ≤ t) := by
    intro p hp
    have := h.past p.1 p.2 (hmem p hp)
    unfold due u64add
    rw [Nat.mod_eq_of_lt (by unfold twoPow64; omega)]
  have hpw : s.queue.toList.Pairwise (fun a b => a.2.creation ≤ b.2.creation) := by
    have h1 := toList_mono_keys s.queue
    rw [List.pairwise_iff_forall_sublist] at h1 ⊢
    intro a b hab
    have h2 := h1 hab
    exact h.mono a.1 b.1 a.2 b.2 (hmem a (hab.subset (by simp))) (hmem b (hab.subset (by simp))) (le_of_lt h2)
  generalize s.queue.toList = l at hdue hpw
  clear hmem
  induction l with
  | nil => exact ⟨rfl, rfl⟩
  | cons p l ih =>
    obtain ⟨hp1, hp2⟩ := List.pairwise_cons.1 hpw
    obtain ⟨i1, i2⟩ := ih (fun q hq => hdue q (List.mem_cons_of_mem _ hq)) hp2
    rw [List.takeWhile_cons, List.dropWhile_cons, List.filter_cons, List.filter_cons]
    rw [hdue p (by simp)]
    by_cases hle : p.2.creation + s.params.unbonding ≤ t
    · have h2 : ¬ t < p.2.creation + s.params.unbonding := by omega
      simp only [hle, h2, decide_true, decide_false, if_true]
      rw [i1, i2]
      exact ⟨rfl, rfl⟩
    · have h2 : t < p.2.creation + s.params.unbonding := by omega
      simp only [hle, h2, decide_true, decide_false, if_true]
      constructor
      · symm
        show List.filter _ l = []
        rw [List.filter_eq_nil_iff]
        intro q hq
        have := hp1 q hq
        simp; omega
      · show p :: l = p :: _
        congr 1
        symm
        rw [List.filter_eq_self]
        intro q hq
        have := hp1 q hq
        simp; omega

/-- queue invariant with ordered bounds -/
structure QInv' (s : State) (now : Nat) : Prop where
  inv : QInv s now
  le : s.low ≤ s.high

theorem QInv'.of_eq {s s' : State} {now now' : Nat} (h : QInv' s now) (hn : now ≤ now') (hq : s'.queue = s.queue)
    (hl : s'.low = s.low) (hh : s'.high = s.high) (hr : requests s'.trace = requests s.trace)
    (hp : paids s'.trace = paids s.trace) : QInv' s' now' :=
  ⟨h.inv.of_eq hn hq hl hh hr hp, by rw [hl, hh]; exact h.le⟩

theorem queueLoop_le {t : Nat} (fuel : Nat) {w : World} {now : Nat} (h : QInv w.s now) (hle : w.s.low ≤ w.s.high) :
    (queueLoop t fuel w).s.low ≤ (queueLoop t fuel w).s.high := by
  induction fuel generalizing w with
  | zero => exact hle
  | succ n ih =>
    show (match queueRound w t with | none => w | some w' => queueLoop t n w').s.low ≤
      (match queueRound w t with | none => w | some w' => queueLoop t n w').s.high
    cases hr : queueRound w t with
    | none => exact hle
    | some w' =>
      simp only
      unfold queueRound at hr
      cases hq : w.s.queue.get? (w.s.low + 1) with
      | none =>
        rw [hq] at hr
        simp only at hr
        split at hr
        · rename_i hlt
          have h2 := (h.dense (w.s.low + 1)).2 (by omega)
          rw [hq] at h2; cases h2
        · cases hr
      | some e =>
        rw [hq] at hr
        simp only at hr
        split at hr
        · injection hr with hr
          subst hr
          have h2 := (h.dense (w.s.low + 1)).1 (by rw [hq]; rfl)
          exact ih (h.pay hq).1 h2.2
        · cases hr

theorem paid_perform (w : World) (st : Addr) (op : Op) (who : Addr) :
    paids (performOp w st op who).s.trace = paids w.s.trace ∧ requests (performOp w st op who).s.trace = requests w.s.trace :=
  ⟨rfl, rfl⟩

theorem QInv'.orElse {w : World} {now : Nat} (h : QInv' w.s now) (r : Except String World)
    (hr : ∀ w', r = .ok w' → QInv' w'.s now) : QInv' (Delegation.orElse w r).s now := by
  cases r with
  | error e => exact h
  | ok w' => exact hr w' rfl

theorem delegateMsg_s {w w' : World} {ex : Bool} {c st : Addr} {n : Nat} (h : delegateMsg w ex c st n = .ok w') :
    w'.s = (performDelegation w st c n).s := by
  unfold delegateMsg at h
  split at h
  · cases h
  · split at h
    · cases h
    · injection h with h; rw [← h]

theorem redelegateMsg_ok {w w' : World} {now : Nat} {ex ac : Bool} {m : RedelegateMsg}
    (h : redelegateMsg w now ex ac m = .ok w') :
    ∃ s, consumeSpell w.s now m.creator = .ok s ∧ s = { w.s with spells := s.spells } ∧
      undelegated (s.at m.src) m.creator m.amount = m.amount ∧
      m.amount ≤ curDel (w.s.at m.src) m.creator ∧ (w.s.at m.src).dels.has m.creator = true ∧
      ex = true ∧ ac = true ∧
      w'.s = { (performDelegation (performUndelegation ⟨s, w.b⟩ m.src m.creator m.amount) m.dst m.creator m.amount).s with
        trace := .redelegated m.creator now ::
          (performDelegation (performUndelegation ⟨s, w.b⟩ m.src m.creator m.amount) m.dst m.creator m.amount).s.trace } ∧
      w'.b = (performDelegation (performUndelegation ⟨s, w.b⟩ m.src m.creator m.amount) m.dst m.creator m.amount).b := by
  unfold redelegateMsg at h
  split at h
  · cases h
  · rename_i h1
    split at h
    · cases h
    · rename_i h2
      split at h
      · cases h
      · rename_i h3
        split at h
        · cases h
        · rename_i h4
          split at h
          · cases h
          · rename_i s hs
            unfold finishRedelegate at h
            split at h
            · cases h
            · rename_i hu
              injection h with h
              refine ⟨s, hs, consumeSpell_ok hs, ?_, by omega, by simpa using h1, by simpa using h2, by simpa using h3, ?_, ?_⟩
              · by_contra hne; exact hu hne
              · rw [← h]
              · rw [← h]

theorem withdrawMsg_s {w w' : World} {c st : Addr} (h : withdrawMsg w c st = .ok w') :
    w'.s = w.s.apply st (.withdraw c) := by
  unfold withdrawMsg at h
  split at h
  · cases h
  · split at h
    · cases h
    · injection h with h; rw [← h]

theorem undelegateMsg_ok {w w' : World} {now : Nat} {c st : Addr} {n : Nat} (h : undelegateMsg w now c st n = .ok w') :
    w' = ⟨startUnbonding w.s now st c n, w.b⟩ ∧ n ≤ curDel (w.s.at st) c := by
  unfold undelegateMsg at h
  split at h
  · cases h
  · injection h with h
    exact ⟨h.symm, by omega⟩

theorem payoutRewards_s {w w' : World} {m : Mod} {st : Addr} {c : Coins} (h : payoutRewards w m st c = .ok w') :
    w' = w ∨ w'.s = w.s.apply st (.payout c) := by
  unfold payoutRewards at h
  split at h
  · injection h with h; exact Or.inl h.symm
  · split at h
    · cases h
    · split at h
      · cases h
      · injection h with h; right; rw [← h]

theorem updateParams_s {gov : Addr} {w w' : World} {a : Addr} {y : ParamsPayload}
    (h : updateParams gov w a y = .ok w') : w' = ⟨{ w.s with params := y.apply w.s.params }, w.b⟩ ∧ a = gov := by
  unfold updateParams at h
  split at h
  · cases h
  · split at h
    · cases h
    · rename_i hg
      injection h with h
      exact ⟨h.symm, by simpa using (Eq.symm (not_not.1 hg))⟩

/-- the world in which the queue is processed -/
def preQueue (w : World) (restarted : Bool) : World := if restarted then ⟨initMemStore w.s, w.b⟩ else w

theorem preQueue_eq (w : World) (r : Bool) : (preQueue w r).s.queue = w.s.queue ∧ (preQueue w r).s.low = w.s.low
    ∧ (preQueue w r).s.high = w.s.high ∧ (preQueue w r).s.trace = w.s.trace ∧ (preQueue w r).s.params = w.s.params
    ∧ (preQueue w r).s.spells = w.s.spells := by
  cases r with
  | false => exact ⟨rfl, rfl, rfl, rfl, rfl, rfl⟩
  | true =>
    obtain ⟨e1, e2, e3, e4, e5, e6, e7, e8, _⟩ :=
      f1_foldl_setIndex (w.s.f1.keys.filter (fun st => (w.s.at st).data.isSome)) { w.s with index := ∅ }
    exact ⟨e5, e6, e7, e2, e4, e8⟩

theorem beginBlock_eq (w : World) (t : Nat) (r : Bool) :
    beginBlock w t r = queueLoop t ((preQueue w r).s.high - (preQueue w r).s.low + (preQueue w r).s.queue.size) (preQueue w r) := rfl

theorem QInv'.pre {w : World} {now : Nat} (h : QInv' w.s now) (r : Bool) : QInv' (preQueue w r).s now := by
  obtain ⟨e1, e2, e3, e4, _⟩ := preQueue_eq w r
  exact h.of_eq (le_refl _) e1 e2 e3 (by rw [e4]) (by rw [e4])

theorem Sys.Reachable.qinv {gov : Addr} {y : Sys} (h : Sys.Reachable gov y) : QInv' y.w.s y.now := by
  induction h with
  | init p b now hp =>
    refine ⟨⟨?_, ?_, ?_, rfl⟩, le_refl _⟩
    · intro i
      show ((∅ : Map Nat QEntry).get? i).isSome = true ↔ 0 < i ∧ i ≤ 0
      simp; omega
    · intro i j e e' h1; simp [Sys.init] at h1
    · intro i e h1; simp [Sys.init] at h1
  | @step y a hy hc ih =>
    cases a with
    | delegate ex c st n =>
      refine ih.orElse _ (fun w' h => ?_)
      rw [delegateMsg_s h]
      exact ih.of_eq (le_refl _) rfl rfl rfl rfl rfl
    | redelegate ex ac m =>
      refine ih.orElse _ (fun w' h => ?_)
      obtain ⟨s, _, hs, _, _, _, _, _, e, _⟩ := redelegateMsg_ok h
      rw [e]
      refine ih.of_eq (le_refl _) ?_ ?_ ?_ ?_ ?_
      · show s.queue = _; rw [hs]
      · show s.low = _; rw [hs]
      · show s.high = _; rw [hs]
      · show requests s.trace = _; rw [hs]
      · show paids s.trace = _; rw [hs]
    | undelegate c st n =>
      refine ih.orElse _ (fun w' h => ?_)
      rw [(undelegateMsg_ok h).1]
      exact ⟨ih.inv.start st c n ih.le, by show y.w.s.low ≤ y.w.s.high + 1; have := ih.le; omega⟩
    | withdraw c st =>
      refine ih.orElse _ (fun w' h => ?_)
      rw [withdrawMsg_s h]
      exact ih.of_eq (le_refl _) rfl rfl rfl rfl rfl
    | updateParams a p =>
      refine ih.orElse _ (fun w' h => ?_)
      rw [(updateParams_s h).1]
      exact ih.of_eq (le_refl _) rfl rfl rfl rfl rfl
    | payout st c =>
      refine ih.orElse _ (fun w' h => ?_)
      rcases payoutRewards_s h with e | e
      · rw [e]; exact ih
      · rw [e]; exact ih.of_eq (le_refl _) rfl rfl rfl rfl rfl
    | slash st t =>
      show QInv' (slashDelegators y.w st t).s y.now
      unfold slashDelegators
      split
      · exact ih
      · exact ih.of_eq (le_refl _) rfl rfl rfl rfl rfl
    | beginBlock dt r =>
      have h1 : QInv' (preQueue y.w r).s (y.now + dt) := (ih.pre r).of_eq (Nat.le_add_right _ _) rfl rfl rfl rfl rfl
      exact ⟨(queueLoop_spec _ h1.inv (Nat.le_add_left _ _)).1, queueLoop_le _ h1.inv h1.le⟩
    | external b g => exact ih.of_eq (le_refl _) rfl rfl rfl rfl rfl

end Verif.Delegation
