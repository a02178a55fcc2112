import Verif.Stakers.Inv

/-!
# Properties C13 to C18 (and the x/stakers part of C52)
-/

namespace Verif.Stakers
open Verif

/-! ## C13 -/

theorem mem_poolsOf {s : State} {p : Nat} {a : Addr} : p ∈ s.poolsOf a ↔ s.member p a = true := by
  unfold State.poolsOf State.member
  rw [List.mem_map, has_iff]
  constructor
  · rintro ⟨⟨q, a'⟩, hk, rfl⟩
    rw [List.mem_filter] at hk
    have hq : a' = a := by simpa using hk.2
    subst hq
    exact (Map.mem_keys_iff _ _).1 hk.1
  · intro h
    refine ⟨(p, a), ?_, rfl⟩
    rw [List.mem_filter]
    exact ⟨(Map.mem_keys_iff _ _).2 h, by simp⟩

theorem poolsOf_nodup (s : State) (a : Addr) : (s.poolsOf a).Nodup := by
  unfold State.poolsOf
  rw [List.nodup_map_iff_inj_on (s.vals.keys_nodup.filter _)]
  rintro ⟨q, b⟩ h1 ⟨q', b'⟩ h2 e
  rw [List.mem_filter] at h1 h2
  have e1 : b = a := by simpa using h1.2
  have e2 : b' = a := by simpa using h2.2
  rw [e1, e2]; simp only at e; rw [e]

theorem length_poolsOf (s : State) (a : Addr) : (s.poolsOf a).length = nOf s.vals a := by
  unfold State.poolsOf nOf Map.sum Map.keys
  rw [List.length_map]
  generalize s.vals.toList = l
  induction l with
  | nil => rfl
  | cons x l ih =>
    simp only [List.map_cons, List.sum_cons, List.filter_cons]
    by_cases e : x.1.2 = a
    · simp only [e, beq_self_eq_true, if_true, List.length_cons, ih]; omega
    · simp only [beq_eq_false_iff_ne.2 e, Bool.false_eq_true, if_false, if_neg e, ih]; omega

/-- C13: in every reachable state the stored member count of a pool is the number of its members, and there are at most
50. -/
theorem C13_pool_count (gov : Addr) (y : Sys) (hy : Reachable gov y) (p : Nat) :
    (y.w.s.stakersOf p).Nodup ∧ (∀ a, a ∈ y.w.s.stakersOf p ↔ y.w.s.member p a = true) ∧
    y.w.s.count p = (y.w.s.stakersOf p).length ∧ y.w.s.count p ≤ 50 := by
  refine ⟨stakersOf_nodup _ _, ?_, ?_, hy.inv.mem.cap p⟩
  · intro a; rw [mem_stakersOf]; unfold State.member; rw [has_iff]
  · rw [length_stakersOf]; exact hy.inv.mem.cnt p

/-- C13: the active-staker table has exactly the stakers that are in some pool, each with the number of its pools; every
member is a staker. -/
theorem C13_active (gov : Addr) (y : Sys) (hy : Reachable gov y) (st : Addr) :
    (y.w.s.poolsOf st).Nodup ∧ (∀ p, p ∈ y.w.s.poolsOf st ↔ y.w.s.member p st = true) ∧
    (y.w.s.active.get? st = if y.w.s.poolsOf st = [] then none else some (y.w.s.poolsOf st).length) ∧
    (y.w.s.poolsOf st ≠ [] → y.w.s.stakers.has st = true) := by
  refine ⟨poolsOf_nodup _ _, fun p => mem_poolsOf, ?_, ?_⟩
  · rw [hy.inv.mem.act st, ← length_poolsOf]
    by_cases e : y.w.s.poolsOf st = []
    · rw [if_pos e, if_pos (by rw [e]; rfl)]
    · rw [if_neg e, if_neg]
      rw [List.length_eq_zero_iff]; exact e
  · intro hne
    obtain ⟨p, hp⟩ := List.exists_mem_of_ne_nil _ hne
    rw [mem_poolsOf] at hp
    obtain ⟨v, hv⟩ := (has_iff _ _).1 hp
    exact hy.inv.mem.mem p st v hv

/-- C13: the list of a staker's valaccounts the code iterates over (secondary index) has exactly its memberships. -/
theorem C13_index (gov : Addr) (y : Sys) (hy : Reachable gov y) (st : Addr) (p : Nat) :
    y.w.s.valIdx.has (st, p) = y.w.s.member p st := hy.inv.mem.idx st p

/-! ## C14 -/

/-- memberships and valaccounts after a successful join -/
theorem join_vals {w w' : World} {now : Nat} {ans : PoolAnswer} {amt : Addr → Nat} {m : JoinMsg} (h : MemInv w.s)
    (hb : ∀ a, amt a < 2 ^ 64 - 1) (hr : joinPool w now ans amt m = .ok w') :
    ∃ s1, w.s.ensureFreeSlot amt now m.pool m.creator = .ok s1 ∧
      w'.s.vals = s1.vals.set (m.pool, m.creator) ⟨m.valaddress, 0, false⟩ := by
  obtain ⟨-, hst, -, hnew, s1, he, -, -, -, -, e⟩ := joinPool_ok h hb hr
  obtain ⟨g1, -, -, -⟩ := ensureFreeSlot_same h hb he
  have hs1 : s1.stakers.has m.creator = true := by rw [g1.stakers]; exact hst
  have hn1 : s1.vals.get? (m.pool, m.creator) = none := by
    rcases ensureFreeSlot_ok h hb he with ⟨-, rfl⟩ | ⟨-, low, -, -, -, rfl⟩
    · exact hnew
    · rw [kick_vals, Map.get?_del]; split
      · rfl
      · exact hnew
  refine ⟨s1, he, ?_⟩
  rw [e]
  exact (addVal_new hs1 hn1).1

/-- C14: if a staker gets into a full pool, its delegation is strictly larger than the smallest one in the pool, exactly
one staker with that smallest delegation is removed, and no other membership in any pool changes. -/
theorem C14_full (gov : Addr) (y : Sys) (hy : Reachable gov y) (ans : PoolAnswer) (amt : Addr → Nat)
    (hb : ∀ a, amt a < 2 ^ 64 - 1) (m : JoinMsg) (w' : World) (hfull : (y.w.s.stakersOf m.pool).length = 50)
    (hr : joinPool y.w y.now ans amt m = .ok w') :
    ∃ low ∈ y.w.s.stakersOf m.pool, (∀ x ∈ y.w.s.stakersOf m.pool, amt low ≤ amt x) ∧ amt low < amt m.creator ∧
      w'.s.vals.get? (m.pool, low) = none ∧
      w'.s.vals.get? (m.pool, m.creator) = some ⟨m.valaddress, 0, false⟩ ∧
      ∀ q a, (q, a) ≠ (m.pool, m.creator) → (q, a) ≠ (m.pool, low) → w'.s.vals.get? (q, a) = y.w.s.vals.get? (q, a) := by
  have h := hy.inv.mem
  obtain ⟨s1, he, hv⟩ := join_vals h hb hr
  obtain ⟨-, -, -, hnew, -⟩ := joinPool_ok h hb hr
  rcases ensureFreeSlot_ok h hb he with ⟨hc, -⟩ | ⟨-, low, hl, hmin, hlt, rfl⟩
  · rw [h.cnt, ← length_stakersOf, hfull] at hc
    exact absurd hc (by unfold MaxStakers; omega)
  · have hne : low ≠ m.creator := by
      rintro rfl
      obtain ⟨v, hv⟩ := mem_stakersOf.1 hl
      rw [hnew] at hv; cases hv
    refine ⟨low, hl, hmin, hlt, ?_, ?_, ?_⟩
    · rw [hv, Map.get?_set_ne _ _ (by intro x; injection x with x1 x2; exact hne x2), kick_vals, Map.get?_del_self]
    · rw [hv, Map.get?_set_self]
    · intro q a h1 h2
      rw [hv, Map.get?_set_ne _ _ h1, kick_vals, Map.get?_del_ne _ h2]

/-- C14: joining a full pool fails if nobody in it has less delegation than the joining staker. -/
theorem C14_reject (gov : Addr) (y : Sys) (hy : Reachable gov y) (ans : PoolAnswer) (amt : Addr → Nat)
    (hb : ∀ a, amt a < 2 ^ 64 - 1) (m : JoinMsg) (hfull : (y.w.s.stakersOf m.pool).length = 50)
    (hlow : ∀ x ∈ y.w.s.stakersOf m.pool, amt m.creator ≤ amt x) :
    ∃ e, joinPool y.w y.now ans amt m = .error e := by
  cases hr : joinPool y.w y.now ans amt m with
  | error e => exact ⟨e, rfl⟩
  | ok w' =>
    obtain ⟨low, hl, -, hlt, -⟩ := C14_full gov y hy ans amt hb m w' hfull hr
    have := hlow low hl
    omega

/-- C14: joining a pool that is not full removes nobody. -/
theorem C14_not_full (gov : Addr) (y : Sys) (hy : Reachable gov y) (ans : PoolAnswer) (amt : Addr → Nat)
    (hb : ∀ a, amt a < 2 ^ 64 - 1) (m : JoinMsg) (w' : World) (hfree : (y.w.s.stakersOf m.pool).length < 50)
    (hr : joinPool y.w y.now ans amt m = .ok w') :
    w'.s.vals.get? (m.pool, m.creator) = some ⟨m.valaddress, 0, false⟩ ∧
    ∀ q a, (q, a) ≠ (m.pool, m.creator) → w'.s.vals.get? (q, a) = y.w.s.vals.get? (q, a) := by
  have h := hy.inv.mem
  obtain ⟨s1, he, hv⟩ := join_vals h hb hr
  rcases ensureFreeSlot_ok h hb he with ⟨-, rfl⟩ | ⟨hc, -⟩
  · refine ⟨by rw [hv, Map.get?_set_self], ?_⟩
    intro q a h1
    rw [hv, Map.get?_set_ne _ _ h1]
  · rw [h.cnt, ← length_stakersOf] at hc
    exact absurd hc (by unfold MaxStakers; omega)

/-- C14: who can join a pool with a free place: an enabled pool, a staker that is not a member, a protocol-node address that is
neither its own nor used by a member of the pool or by the staker elsewhere, a balance that covers the amount sent along. -/
theorem C14_accepts (gov : Addr) (y : Sys) (hy : Reachable gov y) (amt : Addr → Nat) (m : JoinMsg)
    (h1 : y.w.s.stakers.has m.creator = true) (h2 : m.creator ≠ m.valaddress)
    (h3 : y.w.s.member m.pool m.creator = false)
    (h4 : ∀ q a v, y.w.s.vals.get? (q, a) = some v → q = m.pool ∨ a = m.creator → v.valaddress ≠ m.valaddress)
    (h5 : m.amount < 2 ^ 63 ∧ m.amount ≤ (y.w.b (.user m.creator)).amt kyve)
    (h6 : (y.w.s.stakersOf m.pool).length < 50) :
    ∃ w', joinPool y.w y.now .enabled amt m = .ok w' := by
  have h := hy.inv.mem
  have hc : y.w.s.count m.pool < MaxStakers := by rw [h.cnt, ← length_stakersOf]; exact h6
  have he : y.w.s.ensureFreeSlot amt y.now m.pool m.creator = .ok y.w.s := by
    unfold State.ensureFreeSlot; rw [if_pos hc]
  obtain ⟨b', hb'⟩ := Bank.send_succeeds (b := y.w.b) (s := .user m.creator) (t := m.dst) (c := Coins.single kyve m.amount) (by
    intro d; rw [Coins.amt_single]; split
    · rename_i e; rw [e]; exact h5.2
    · exact Nat.zero_le _)
  have hany1 : (y.w.s.valsOf m.creator).any (fun v => v.valaddress == m.valaddress) = false := by
    rw [List.any_eq_false]
    intro v hv
    obtain ⟨q, hq⟩ := (mem_valsOf h).1 hv
    simpa using h4 q _ v hq (Or.inr rfl)
  have hany2 : (y.w.s.stakersOf m.pool).any (fun st => ((y.w.s.vals.get? (m.pool, st)).map (·.valaddress)) == some m.valaddress) = false := by
    rw [List.any_eq_false]
    intro a ha
    obtain ⟨v, hv⟩ := mem_stakersOf.1 ha
    rw [hv]
    simpa using h4 _ a v hv (Or.inl rfl)
  have h3' : y.w.s.vals.has (m.pool, m.creator) = false := h3
  unfold joinPool
  rw [if_neg (by decide), if_neg (by decide), h1, h3', he]
  simp only [Bool.not_true, Bool.false_eq_true, if_false]
  rw [if_neg h2]
  unfold finishJoin
  rw [hany1, hany2]
  simp only [Bool.false_eq_true, if_false]
  unfold transfer
  rw [if_pos h5.1, hb']
  exact ⟨_, rfl⟩

/-- C14: who can join a full pool: the same, if some member has less delegation. -/
theorem C14_accepts_full (gov : Addr) (y : Sys) (hy : Reachable gov y) (amt : Addr → Nat) (hb : ∀ a, amt a < 2 ^ 64 - 1)
    (m : JoinMsg)
    (h1 : y.w.s.stakers.has m.creator = true) (h2 : m.creator ≠ m.valaddress)
    (h3 : y.w.s.member m.pool m.creator = false)
    (h4 : ∀ q a v, y.w.s.vals.get? (q, a) = some v → q = m.pool ∨ a = m.creator → v.valaddress ≠ m.valaddress)
    (h5 : m.amount < 2 ^ 63 ∧ m.amount ≤ (y.w.b (.user m.creator)).amt kyve)
    (h6 : (y.w.s.stakersOf m.pool).length = 50) (h7 : ∃ x ∈ y.w.s.stakersOf m.pool, amt x < amt m.creator) :
    ∃ w', joinPool y.w y.now .enabled amt m = .ok w' := by
  have h := hy.inv.mem
  have hc : ¬ y.w.s.count m.pool < MaxStakers := by
    rw [h.cnt, ← length_stakersOf, h6]; unfold MaxStakers; omega
  obtain ⟨x, hx, hlt⟩ := h7
  obtain ⟨low, he⟩ : ∃ low, y.w.s.ensureFreeSlot amt y.now m.pool m.creator = .ok (y.w.s.kick y.now m.pool low) := by
    unfold State.ensureFreeSlot
    rw [if_neg hc]
    cases hl : y.w.s.lowest amt m.pool with
    | none => rw [lowest_none hl hb] at hx; cases hx
    | some low =>
      have := (lowest_some hl).2 x hx
      exact ⟨low, if_pos (by omega)⟩
  obtain ⟨b', hb'⟩ := Bank.send_succeeds (b := y.w.b) (s := .user m.creator) (t := m.dst) (c := Coins.single kyve m.amount) (by
    intro d; rw [Coins.amt_single]; split
    · rename_i e; rw [e]; exact h5.2
    · exact Nat.zero_le _)
  have hsub : ∀ k v, (y.w.s.kick y.now m.pool low).vals.get? k = some v → y.w.s.vals.get? k = some v := by
    intro k v hk
    rw [kick_vals, Map.get?_del] at hk
    split at hk
    · cases hk
    · exact hk
  have hany1 : ((y.w.s.kick y.now m.pool low).valsOf m.creator).any (fun v => v.valaddress == m.valaddress) = false := by
    rw [List.any_eq_false]
    intro v hv
    obtain ⟨q, hq⟩ := (mem_valsOf (h.kick y.now m.pool low)).1 hv
    simpa using h4 q _ v (hsub _ _ hq) (Or.inr rfl)
  have hany2 : ((y.w.s.kick y.now m.pool low).stakersOf m.pool).any (fun st =>
      (((y.w.s.kick y.now m.pool low).vals.get? (m.pool, st)).map (·.valaddress)) == some m.valaddress) = false := by
    rw [List.any_eq_false]
    intro a ha
    obtain ⟨v, hv⟩ := mem_stakersOf.1 ha
    rw [hv]
    simpa using h4 _ a v (hsub _ _ hv) (Or.inl rfl)
  have h3' : y.w.s.vals.has (m.pool, m.creator) = false := h3
  unfold joinPool
  rw [if_neg (by decide), if_neg (by decide), h1, h3', he]
  simp only [Bool.not_true, Bool.false_eq_true, if_false]
  rw [if_neg h2]
  unfold finishJoin
  rw [hany1, hany2]
  simp only [Bool.false_eq_true, if_false]
  unfold transfer
  rw [if_pos h5.1, hb']
  exact ⟨_, rfl⟩

/-! ## C15 -/

/-- C15: within a pool no two stakers share a protocol-node address, no staker uses its own address, and no staker uses the
same protocol-node address in two pools. -/
theorem C15_valaddress (gov : Addr) (y : Sys) (hy : Reachable gov y) :
    (∀ p a a' v v', y.w.s.vals.get? (p, a) = some v → y.w.s.vals.get? (p, a') = some v' →
      v.valaddress = v'.valaddress → a = a') ∧
    (∀ p a v, y.w.s.vals.get? (p, a) = some v → v.valaddress ≠ a) ∧
    (∀ p p' a v v', y.w.s.vals.get? (p, a) = some v → y.w.s.vals.get? (p', a) = some v' →
      v.valaddress = v'.valaddress → p = p') :=
  ⟨hy.inv.mem.inPool, hy.inv.mem.own, hy.inv.mem.ofStaker⟩

/-- C15: a protocol-node address is authorized for at most one staker of a pool. -/
theorem C15_authorized (gov : Addr) (y : Sys) (hy : Reachable gov y) (p : Nat) (a a' va : Addr)
    (h : y.w.s.authorized p a va = true) (h' : y.w.s.authorized p a' va = true) : a = a' := by
  unfold State.authorized at h h'
  cases hv : y.w.s.vals.get? (p, a) with
  | none => rw [hv] at h; cases h
  | some v =>
    cases hv' : y.w.s.vals.get? (p, a') with
    | none => rw [hv'] at h'; cases h'
    | some v' =>
      rw [hv] at h; rw [hv'] at h'
      simp only [beq_iff_eq] at h h'
      exact hy.inv.mem.inPool p a a' v v' hv hv' (h.trans h'.symm)

/-! ## C16 -/

/-- C16: there is at most one pending commission change per staker in the queue. -/
theorem C16_one_pending (gov : Addr) (y : Sys) (hy : Reachable gov y) (i j : Nat) (e e' : Change)
    (hi : y.w.s.changes.get? i = some e) (hj : y.w.s.changes.get? j = some e') (h : e.staker = e'.staker) :
    i = j ∧ y.w.s.pending e.staker = some (e.commission, e.creation) :=
  ⟨hy.inv.ch.unique hi hj h, hy.inv.ch.pending_some hi⟩

/-- C16: an order is accepted exactly from stakers and for commissions up to 100%; it replaces the pending change of that
staker, leaves those of all others, and changes nobody's commission. -/
theorem C16_order (gov : Addr) (y : Sys) (hy : Reachable gov y) (st : Addr) (c : Dec) :
    (c ≤ Dec.one ∧ y.w.s.stakers.has st = true →
      ∃ s', updateCommission y.w.s y.now st c = .ok s' ∧ s'.pending st = some (c, y.now) ∧
        (∀ a, a ≠ st → s'.pending a = y.w.s.pending a) ∧ ∀ a, s'.rate a = y.w.s.rate a) ∧
    (¬ (c ≤ Dec.one ∧ y.w.s.stakers.has st = true) → ∃ e, updateCommission y.w.s y.now st c = .error e) := by
  refine ⟨?_, ?_⟩
  · rintro ⟨h1, h2⟩
    refine ⟨y.w.s.orderChange y.now st c, ?_, ?_, ?_, fun _ => rfl⟩
    · unfold updateCommission
      rw [if_neg (not_lt.2 h1), h2]; rfl
    · rw [orderChange_pending hy.inv.ch, if_pos rfl]
    · intro a ha
      rw [orderChange_pending hy.inv.ch, if_neg ha]
  · intro hn
    unfold updateCommission
    split
    · exact ⟨_, rfl⟩
    · rename_i h1
      split
      · exact ⟨_, rfl⟩
      · rename_i h2
        exact absurd ⟨not_lt.1 h1, by simpa using h2⟩ hn

/-- C16: at the beginning of a block the commission of a staker becomes the one it ordered if the commission change time
has passed since the order, and the pending change is gone; otherwise neither its commission nor its pending change is
touched.  (`int64` times do not overflow.) -/
theorem C16_block (gov : Addr) (y : Sys) (hy : Reachable gov y) (dt : Nat)
    (hov : y.now + dt + y.w.s.params.commissionChangeTime < 2 ^ 63) (st : Addr) :
    let s' := (Sys.step gov y (.beginBlock dt)).w.s
    (∀ c t, y.w.s.pending st = some (c, t) → t + y.w.s.params.commissionChangeTime ≤ y.now + dt →
      s'.rate st = some c ∧ s'.pending st = none) ∧
    ((∀ c t, y.w.s.pending st = some (c, t) → y.now + dt < t + y.w.s.params.commissionChangeTime) →
      s'.rate st = y.w.s.rate st ∧ s'.pending st = y.w.s.pending st) := by
  have h := hy.inv
  obtain ⟨r1, r2, -⟩ := beginBlock_inv (Nat.le_add_right y.now dt) h.mem h.ch h.lv h.tr h.rate
  have hch : CInv y.w.s (y.now + dt) := h.ch.of_eq (Nat.le_add_right _ _) rfl rfl rfl rfl (fun _ x => x) (fun _ => rfl)
  have hp : ∀ a, (beginBlock y.w.s (y.now + dt)).pending a = (processChanges y.w.s (y.now + dt)).pending a :=
    fun a => pending_eq r2.changes r2.changeIdx a
  have hrate : ∀ a, (beginBlock y.w.s (y.now + dt)).rate a = (processChanges y.w.s (y.now + dt)).rate a := by
    intro a; unfold State.rate; rw [r2.stakers]
  show (∀ c t, _ → _ → (beginBlock y.w.s (y.now + dt)).rate st = some c ∧ (beginBlock y.w.s (y.now + dt)).pending st = none) ∧
    (_ → (beginBlock y.w.s (y.now + dt)).rate st = _ ∧ (beginBlock y.w.s (y.now + dt)).pending st = _)
  rw [hp, hrate]
  have hlt : ∀ c t, y.w.s.pending st = some (c, t) → t + y.w.s.params.commissionChangeTime < 2 ^ 63 := by
    intro c t hpt
    obtain ⟨i, hi⟩ := h.ch.of_pending hpt
    have := h.ch.past i _ hi
    simp only at this
    omega
  rcases r1.each st with ⟨e1, e2⟩ | ⟨c, t, e1, e2, e3, e4⟩
  · refine ⟨?_, fun _ => ⟨e2, e1⟩⟩
    intro c t hpt hle
    exfalso
    have hpt' := hpt
    rw [← e1] at hpt'
    obtain ⟨i, hi⟩ := r1.inv.of_pending hpt'
    have := processChanges_done hch hov hi
    simp only at this
    rw [(due_iff (hlt c t hpt)).2 hle] at this
    cases this
  · refine ⟨?_, ?_⟩
    · intro c' t' hpt hle
      rw [e1] at hpt; cases hpt
      exact ⟨e4, e3⟩
    · intro hno
      have := hno c t e1
      rw [due_iff (hlt c t e1)] at e2
      omega

/-- C16: nothing but the beginning of a block changes the commission of a staker, and nothing but that and the staker's own
orders touches its pending change. -/
theorem C16_only_block (gov : Addr) (y : Sys) (hy : Reachable gov y) (o : Op) (ho : o.ok) (hb : ∀ dt, o ≠ .beginBlock dt)
    (st : Addr) (hst : y.w.s.stakers.has st = true) :
    (Sys.step gov y o).w.s.rate st = y.w.s.rate st ∧
    ((∀ c, o ≠ .updateCommission st c) → (Sys.step gov y o).w.s.pending st = y.w.s.pending st) := by
  have h := hy.inv
  have key : ∀ (s' : State) (a : Addr) (x : Staker), s' = { y.w.s with stakers := y.w.s.stakers.set a x } →
      (a = st → (y.w.s.stakers.get? a).map (·.commission) = some x.commission) →
      s'.rate st = y.w.s.rate st ∧ s'.pending st = y.w.s.pending st := by
    rintro s' a x rfl hc
    refine ⟨?_, rfl⟩
    unfold State.rate
    show ((y.w.s.stakers.set a x).get? st).map _ = _
    rw [Map.get?_set]
    split
    · rename_i e
      subst e
      exact (hc rfl).symm
    · rfl
  cases o with
  | createStaker a c d =>
    simp only [Sys.step]
    cases hr : createStaker y.w.s a c d with
    | error e => exact ⟨rfl, fun _ => rfl⟩
    | ok s' =>
      unfold createStaker at hr
      split at hr
      · cases hr
      split at hr
      · cases hr
      rename_i hn
      split at hr
      · cases hr
      cases hr
      obtain ⟨k1, k2⟩ := key _ a ⟨c, Coins.zero, 0⟩ rfl (by rintro rfl; exact absurd hst hn)
      exact ⟨k1, fun _ => k2⟩
  | join ans amt m =>
    simp only [Sys.step, joinStep]
    cases hr : joinPool y.w y.now ans amt m with
    | error e => exact ⟨rfl, fun _ => rfl⟩
    | ok w' =>
      obtain ⟨f1, -⟩ := join_same h.mem ho hr
      obtain ⟨g1, -, -, -, -, g6, g7, -⟩ := noteGift_same m y.w w'
      have hp : (noteGift m y.w w').s.pending st = y.w.s.pending st := by
        rw [pending_eq g6 g7, f1.pending]
      have hr : (noteGift m y.w w').s.rate st = y.w.s.rate st := by
        unfold State.rate; rw [g1, f1.stakers]
      exact ⟨hr, fun _ => hp⟩
  | leave a p =>
    simp only [Sys.step]
    cases hr : leavePool y.w.s y.now p a with
    | error e => exact ⟨rfl, fun _ => rfl⟩
    | ok s' =>
      unfold leavePool at hr
      split at hr
      · cases hr
      rename_i v hv
      have hl1 : LInv (y.w.s.setVal p a { v with leaving := true }) y.now := (setVal_same _ _ _ _).lv h.lv (fun _ _ => rfl)
      obtain ⟨-, -, -, h4⟩ := orderLeave_ok hl1 hr
      show s'.rate st = _ ∧ (_ → s'.pending st = _)
      rw [h4]
      exact ⟨rfl, fun _ => rfl⟩
  | updateCommission a c =>
    simp only [Sys.step]
    cases hr : updateCommission y.w.s y.now a c with
    | error e => exact ⟨rfl, fun _ => rfl⟩
    | ok s' =>
      unfold updateCommission at hr
      split at hr
      · cases hr
      split at hr
      · cases hr
      cases hr
      refine ⟨rfl, ?_⟩
      intro hne
      show (y.w.s.orderChange y.now a c).pending st = _
      rw [orderChange_pending h.ch, if_neg]
      rintro rfl; exact hne c rfl
  | updateMetadata a i v =>
    simp only [Sys.step]
    cases hr : updateMetadata y.w.s a i v with
    | error e => exact ⟨rfl, fun _ => rfl⟩
    | ok s' =>
      unfold updateMetadata at hr
      split at hr
      · cases hr
      split at hr
      · cases hr
      rename_i x hx
      cases hr
      obtain ⟨k1, k2⟩ := key _ a { x with info := i } rfl (by rintro rfl; rw [hx]; rfl)
      exact ⟨k1, fun _ => k2⟩
  | claim a c =>
    simp only [Sys.step]
    cases hr : claimRewards y.w a c with
    | error e => exact ⟨rfl, fun _ => rfl⟩
    | ok w' =>
      obtain ⟨-, x, hx, -, -, hs⟩ := claim_ok hr
      obtain ⟨k1, k2⟩ := key _ a { x with rewards := x.rewards.sub c } hs (by rintro rfl; rw [hx]; rfl)
      exact ⟨k1, fun _ => k2⟩
  | updateParams a p =>
    simp only [Sys.step]
    cases hr : updateParams gov y.w.s a p with
    | error e => exact ⟨rfl, fun _ => rfl⟩
    | ok s' =>
      unfold updateParams at hr
      split at hr
      · cases hr
      split at hr
      · cases hr
      cases hr
      exact ⟨rfl, fun _ => rfl⟩
  | kick p a =>
    have hs := kick_same y.w.s y.now p a
    exact ⟨hs.rate st, fun _ => hs.pending st⟩
  | incrementPoints p a =>
    simp only [Sys.step, State.incrementPoints]
    cases hv : y.w.s.vals.get? (p, a) with
    | none => exact ⟨rfl, fun _ => rfl⟩
    | some v => exact ⟨rfl, fun _ => rfl⟩
  | resetPoints p a =>
    simp only [Sys.step, State.resetPoints]
    cases hv : y.w.s.vals.get? (p, a) with
    | none => exact ⟨rfl, fun _ => rfl⟩
    | some v => exact ⟨rfl, fun _ => rfl⟩
  | increaseRewards a c =>
    simp only [Sys.step]
    cases hr : increaseRewards y.w .pool a c with
    | error e => exact ⟨rfl, fun _ => rfl⟩
    | ok w' =>
      rcases increase_ok hr with ⟨-, rfl⟩ | ⟨x, hx, -, hs⟩
      · exact ⟨rfl, fun _ => rfl⟩
      · obtain ⟨k1, k2⟩ := key _ a { x with rewards := x.rewards.add c } hs (by rintro rfl; rw [hx]; rfl)
        exact ⟨k1, fun _ => k2⟩
  | beginBlock dt => exact absurd rfl (hb dt)
  | external b g => exact ⟨rfl, fun _ => rfl⟩

theorem Consistent.split {l1 l2 : List Event} {e : Event} (h : Consistent (l1 ++ e :: l2)) :
    e.possible l2 ∧ Consistent l2 := by
  induction l1 with
  | nil => exact h
  | cons x l ih => exact ih h.2

/-- the last order in a history: nothing about that staker's commission happened since -/
theorem lastOrder_split {l : List Event} {st : Addr} {c : Dec} {t : Nat} (h : lastOrder l st = some (c, t)) :
    ∃ l3 l4, l = l3 ++ .ordered st c t :: l4 ∧ (∀ c' t', .ordered st c' t' ∉ l3) ∧ (∀ c' t' d, .applied st c' t' d ∉ l3) := by
  induction l with
  | nil => cases h
  | cons e l ih =>
    have goOn : lastOrder l st = some (c, t) → (∀ c' t', e ≠ .ordered st c' t') → (∀ c' t' d, e ≠ .applied st c' t' d) →
        ∃ l3 l4, e :: l = l3 ++ .ordered st c t :: l4 ∧ (∀ c' t', .ordered st c' t' ∉ l3) ∧
          (∀ c' t' d, .applied st c' t' d ∉ l3) := by
      intro h' h1 h2
      obtain ⟨l3, l4, e1, e2, e3⟩ := ih h'
      refine ⟨e :: l3, l4, by rw [e1]; rfl, ?_, ?_⟩
      · intro c' t' hm
        rcases List.mem_cons.1 hm with hm | hm
        · exact h1 c' t' hm.symm
        · exact e2 c' t' hm
      · intro c' t' d hm
        rcases List.mem_cons.1 hm with hm | hm
        · exact h2 c' t' d hm.symm
        · exact e3 c' t' d hm
    cases e with
    | ordered a c0 t0 =>
      have h : (if a = st then some (c0, t0) else lastOrder l st) = some (c, t) := h
      by_cases e : a = st
      · rw [if_pos e] at h
        injection h with h
        injection h with h1 h2
        exact ⟨[], l, by rw [e, h1, h2]; rfl, by simp, by simp⟩
      · rw [if_neg e] at h
        exact goOn h (by rintro c' t' x; injection x with x1; exact e x1) (by rintro c' t' d x; cases x)
    | applied a c0 t0 d0 =>
      have h : (if a = st then none else lastOrder l st) = some (c, t) := h
      by_cases e : a = st
      · rw [if_pos e] at h; cases h
      · rw [if_neg e] at h
        exact goOn h (by rintro c' t' x; cases x) (by rintro c' t' d x; injection x with x1; exact e x1)
    | joined a p t0 => exact goOn h (by rintro c' t' x; cases x) (by rintro c' t' d x; cases x)
    | announced a p t0 => exact goOn h (by rintro c' t' x; cases x) (by rintro c' t' d x; cases x)
    | left a p t0 d0 => exact goOn h (by rintro c' t' x; cases x) (by rintro c' t' d x; cases x)
    | expired a p t0 => exact goOn h (by rintro c' t' x; cases x) (by rintro c' t' d x; cases x)
    | kicked a p t0 => exact goOn h (by rintro c' t' x; cases x) (by rintro c' t' d x; cases x)

/-- C16: whenever a commission was set by the queue, the staker had ordered exactly that commission before, had not ordered
another one since, the order had not been applied already, and the commission change time had passed since the order. -/
theorem C16_history (gov : Addr) (y : Sys) (hy : Reachable gov y) (l1 l2 : List Event) (st : Addr) (c : Dec)
    (t delay : Nat) (h : y.w.s.trace = l1 ++ .applied st c t delay :: l2) :
    ∃ t0 l3 l4, l2 = l3 ++ .ordered st c t0 :: l4 ∧ (∀ c' t', .ordered st c' t' ∉ l3) ∧
      (∀ c' t' d, .applied st c' t' d ∉ l3) ∧ (t0 + delay < 2 ^ 63 → t0 + delay ≤ t) := by
  have hc := hy.inv.tr.ok
  rw [h] at hc
  obtain ⟨⟨t0, h1, h2⟩, -⟩ := hc.split
  obtain ⟨l3, l4, e1, e2, e3⟩ := lastOrder_split h1
  exact ⟨t0, l3, l4, e1, e2, e3, fun hlt => (due_iff hlt).1 h2⟩

/-- Every commission is at most 100%, in every reachable state, pending ones too. -/
theorem C16_rate_bound (gov : Addr) (y : Sys) (hy : Reachable gov y) (st : Addr) (c : Dec) :
    (y.w.s.rate st = some c → c ≤ Dec.one) ∧ (∀ t, y.w.s.pending st = some (c, t) → c ≤ Dec.one) := by
  refine ⟨?_, ?_⟩
  · intro h
    unfold State.rate at h
    cases hx : y.w.s.stakers.get? st with
    | none => rw [hx] at h; cases h
    | some x =>
      rw [hx] at h
      injection h with h
      rw [← h]; exact hy.inv.rate st x hx
  · intro t h
    obtain ⟨i, hi⟩ := hy.inv.ch.of_pending h
    exact hy.inv.ch.rate i _ hi

/-! ## C17 -/

/-- C17: an announcement is accepted exactly from a member that has none waiting; it is recorded with the current time, the
member gets the leaving mark, and nobody's membership changes. -/
theorem C17_announce (gov : Addr) (y : Sys) (hy : Reachable gov y) (p : Nat) (st : Addr) :
    (y.w.s.member p st = true ∧ y.w.s.announcement st p = none →
      ∃ s', leavePool y.w.s y.now p st = .ok s' ∧ s'.announcement st p = some y.now ∧
        (∀ v, s'.vals.get? (p, st) = some v → v.leaving = true) ∧
        (∀ q a, s'.member q a = y.w.s.member q a) ∧
        (∀ a q, (a, q) ≠ (st, p) → s'.announcement a q = y.w.s.announcement a q)) ∧
    (¬ (y.w.s.member p st = true ∧ y.w.s.announcement st p = none) → ∃ e, leavePool y.w.s y.now p st = .error e) := by
  have h := hy.inv
  cases hv : y.w.s.vals.get? (p, st) with
  | none =>
    have hm : y.w.s.member p st = false := (has_false_iff _ _).2 hv
    refine ⟨?_, ?_⟩
    · rintro ⟨h1, -⟩; rw [hm] at h1; cases h1
    · intro _
      unfold leavePool; rw [hv]; exact ⟨_, rfl⟩
  | some v =>
    have hm : y.w.s.member p st = true := (has_iff _ _).2 ⟨v, hv⟩
    have hl1 : LInv (y.w.s.setVal p st { v with leaving := true }) y.now := (setVal_same _ _ _ _).lv h.lv (fun _ _ => rfl)
    have hlp : leavePool y.w.s y.now p st = (y.w.s.setVal p st { v with leaving := true }).orderLeave y.now p st := by
      unfold leavePool; rw [hv]
    have hidx := h.lv.has_iff_announcement st p
    refine ⟨?_, ?_⟩
    · rintro ⟨-, hn⟩
      rw [hn] at hidx
      cases hr : leavePool y.w.s y.now p st with
      | error e =>
        exfalso
        rw [hlp] at hr
        unfold State.orderLeave at hr
        have : (y.w.s.setVal p st { v with leaving := true }).leaveIdx.has (st, p) = false := hidx
        rw [this] at hr
        cases hr
      | ok s' =>
        rw [hlp] at hr
        obtain ⟨-, -, h3, h4⟩ := orderLeave_ok hl1 hr
        refine ⟨s', rfl, ?_, ?_, ?_, ?_⟩
        · rw [h3, if_pos ⟨rfl, rfl⟩]
        · intro u hu
          rw [h4] at hu
          have hu : (y.w.s.vals.set (p, st) { v with leaving := true }).get? (p, st) = some u := hu
          rw [Map.get?_set_self] at hu
          injection hu with hu
          rw [← hu]
        · intro q a
          have : s'.vals = (y.w.s.setVal p st { v with leaving := true }).vals := by rw [h4]
          unfold State.member
          rw [this]; exact has_setVal hv (q, a)
        · intro a q hne
          rw [h3, if_neg (by rintro ⟨rfl, rfl⟩; exact hne rfl)]
          rfl
    · intro hn
      have : (y.w.s.setVal p st { v with leaving := true }).leaveIdx.has (st, p) = true := by
        show y.w.s.leaveIdx.has (st, p) = true
        rw [hidx]
        cases hx : y.w.s.announcement st p with
        | none => exact absurd ⟨hm, hx⟩ hn
        | some t => rfl
      rw [hlp]
      unfold State.orderLeave
      rw [this]; exact ⟨_, rfl⟩

/-- C17: at the beginning of a block exactly those leave whose announcement is as old as the leave time; every other
membership is untouched.  (`int64` times do not overflow.) -/
theorem C17_block (gov : Addr) (y : Sys) (hy : Reachable gov y) (dt : Nat)
    (hov : y.now + dt + y.w.s.params.leavePoolTime < 2 ^ 63) (p : Nat) (st : Addr) :
    let s' := (Sys.step gov y (.beginBlock dt)).w.s
    (∀ t, y.w.s.announcement st p = some t → t + y.w.s.params.leavePoolTime ≤ y.now + dt →
      s'.vals.get? (p, st) = none ∧ s'.announcement st p = none) ∧
    ((∀ t, y.w.s.announcement st p = some t → y.now + dt < t + y.w.s.params.leavePoolTime) →
      s'.vals.get? (p, st) = y.w.s.vals.get? (p, st) ∧ s'.announcement st p = y.w.s.announcement st p) := by
  have h := hy.inv
  obtain ⟨r1, r2, -⟩ := beginBlock_inv (Nat.le_add_right y.now dt) h.mem h.ch h.lv h.tr h.rate
  have hlv : LInv (processChanges y.w.s (y.now + dt)) (y.now + dt) :=
    h.lv.of_eq (Nat.le_add_right _ _) r1.leaves r1.leaveIdx r1.lLow r1.lHigh r1.announce
  have ha : ∀ a q, (processChanges y.w.s (y.now + dt)).announcement a q = y.w.s.announcement a q :=
    fun a q => announcement_eq r1.leaves r1.leaveIdx a q
  show (∀ t, _ → _ → (beginBlock y.w.s (y.now + dt)).vals.get? (p, st) = none ∧ (beginBlock y.w.s (y.now + dt)).announcement st p = none) ∧
    (_ → (beginBlock y.w.s (y.now + dt)).vals.get? (p, st) = _ ∧ (beginBlock y.w.s (y.now + dt)).announcement st p = _)
  have hlt : ∀ t, y.w.s.announcement st p = some t → t + y.w.s.params.leavePoolTime < 2 ^ 63 := by
    intro t hpt
    obtain ⟨i, hi⟩ := h.lv.of_announcement hpt
    have := h.lv.past i _ hi
    simp only at this
    omega
  have hr2 := r2.each st p
  rw [ha, r1.vals, r1.params] at hr2
  rcases hr2 with ⟨e1, e2⟩ | ⟨t, e1, e2, e3, e4⟩
  · refine ⟨?_, fun _ => ⟨e2, e1⟩⟩
    intro t hpt hle
    exfalso
    have hpt' := hpt
    rw [← e1] at hpt'
    obtain ⟨i, hi⟩ := r2.inv.of_announcement hpt'
    have := processLeaves_done hlv (by rw [r1.params]; exact hov) hi
    rw [r1.params] at this
    simp only at this
    rw [(due_iff (hlt t hpt)).2 hle] at this
    cases this
  · refine ⟨fun _ _ _ => ⟨e4, e3⟩, ?_⟩
    intro hno
    have := hno t e1
    rw [due_iff (hlt t e1)] at e2
    omega

/-- C17: the other ways to lose a membership are to be kicked by another module and to be the smallest staker of a full
pool somebody else joins. -/
theorem C17_other (gov : Addr) (y : Sys) (hy : Reachable gov y) (o : Op) (ho : o.ok) (hb : ∀ dt, o ≠ .beginBlock dt)
    (p : Nat) (st : Addr) (hm : y.w.s.member p st = true) (hg : (Sys.step gov y o).w.s.member p st = false) :
    o = .kick p st ∨ ∃ ans amt m, o = .join ans amt m ∧ m.pool = p ∧ m.creator ≠ st ∧
      (y.w.s.stakersOf p).length = 50 ∧ (∀ x ∈ y.w.s.stakersOf p, amt st ≤ amt x) ∧ amt st < amt m.creator := by
  have h := hy.inv
  have same : (Sys.step gov y o).w.s.vals = y.w.s.vals → False := by
    intro e
    unfold State.member at hm hg
    rw [e, hm] at hg; cases hg
  cases o with
  | createStaker a c d =>
    exfalso; apply same
    simp only [Sys.step]
    cases hr : createStaker y.w.s a c d with
    | error e => rfl
    | ok s' =>
      unfold createStaker at hr
      split at hr
      · cases hr
      split at hr
      · cases hr
      split at hr
      · cases hr
      cases hr; rfl
  | join ans amt m =>
    right
    simp only [Sys.step, joinStep] at hg
    cases hr : joinPool y.w y.now ans amt m with
    | error e => rw [hr] at hg; simp only at hg; rw [hm] at hg; cases hg
    | ok w' =>
      rw [hr] at hg
      have hg : (noteGift m y.w w').s.vals.has (p, st) = false := hg
      rw [(noteGift_same m y.w w').2.1] at hg
      obtain ⟨v, hv⟩ := (has_iff _ _).1 hm
      have hlen : (y.w.s.stakersOf m.pool).length ≤ 50 := by
        rw [length_stakersOf, ← h.mem.cnt]; exact h.mem.cap _
      rcases Nat.lt_or_ge (y.w.s.stakersOf m.pool).length 50 with hlt | hge
      · exfalso
        obtain ⟨k1, k2⟩ := C14_not_full gov y hy ans amt ho m w' hlt hr
        by_cases e : (p, st) = (m.pool, m.creator)
        · rw [e, (has_iff _ _).2 ⟨_, k1⟩] at hg; cases hg
        · rw [(has_iff _ _).2 ⟨v, (k2 p st e).trans hv⟩] at hg; cases hg
      · have hfull : (y.w.s.stakersOf m.pool).length = 50 := le_antisymm hlen hge
        obtain ⟨low, l1, l2, l3, l4, l5, l6⟩ := C14_full gov y hy ans amt ho m w' hfull hr
        by_cases e : (p, st) = (m.pool, m.creator)
        · rw [e, (has_iff _ _).2 ⟨_, l5⟩] at hg; cases hg
        · by_cases e' : (p, st) = (m.pool, low)
          · injection e' with e1 e2
            subst e1; subst e2
            refine ⟨ans, amt, m, rfl, rfl, ?_, hfull, l2, l3⟩
            rintro rfl; exact e rfl
          · rw [(has_iff _ _).2 ⟨v, (l6 p st e e').trans hv⟩] at hg; cases hg
  | leave a q =>
    exfalso
    simp only [Sys.step] at hg
    cases hr : leavePool y.w.s y.now q a with
    | error e => rw [hr] at hg; have hg : y.w.s.member p st = false := hg; rw [hm] at hg; cases hg
    | ok s' =>
      rw [hr] at hg
      have hg : s'.member p st = false := hg
      obtain ⟨c1, c2⟩ := C17_announce gov y hy q a
      by_cases hc : y.w.s.member q a = true ∧ y.w.s.announcement a q = none
      · obtain ⟨s'', e1, -, -, e2, -⟩ := c1 hc
        rw [hr] at e1; cases e1
        rw [e2, hm] at hg; cases hg
      · obtain ⟨e, he⟩ := c2 hc
        rw [hr] at he; cases he
  | updateCommission a c =>
    exfalso; apply same
    simp only [Sys.step]
    cases hr : updateCommission y.w.s y.now a c with
    | error e => rfl
    | ok s' =>
      unfold updateCommission at hr
      split at hr
      · cases hr
      split at hr
      · cases hr
      cases hr; rfl
  | updateMetadata a i v =>
    exfalso; apply same
    simp only [Sys.step]
    cases hr : updateMetadata y.w.s a i v with
    | error e => rfl
    | ok s' =>
      unfold updateMetadata at hr
      split at hr
      · cases hr
      split at hr
      · cases hr
      cases hr; rfl
  | claim a c =>
    exfalso; apply same
    simp only [Sys.step]
    cases hr : claimRewards y.w a c with
    | error e => rfl
    | ok w' =>
      obtain ⟨-, x, -, -, -, hs⟩ := claim_ok hr
      show w'.s.vals = _
      rw [hs]
  | updateParams a q =>
    exfalso; apply same
    simp only [Sys.step]
    cases hr : updateParams gov y.w.s a q with
    | error e => rfl
    | ok s' =>
      unfold updateParams at hr
      split at hr
      · cases hr
      split at hr
      · cases hr
      cases hr; rfl
  | kick q a =>
    left
    have hg : (y.w.s.kick y.now q a).vals.has (p, st) = false := hg
    rw [kick_vals, has_del] at hg
    unfold State.member at hm
    rw [hm] at hg
    have : (p, st) = (q, a) := by simpa using hg
    injection this with e1 e2
    rw [e1, e2]
  | incrementPoints q a =>
    exfalso
    simp only [Sys.step, State.incrementPoints] at hg
    cases hv : y.w.s.vals.get? (q, a) with
    | none => rw [hv] at hg; have hg : y.w.s.member p st = false := hg; rw [hm] at hg; cases hg
    | some v =>
      rw [hv] at hg
      have hg : (y.w.s.setVal q a { v with points := v.points + 1 }).vals.has (p, st) = false := hg
      rw [has_setVal hv] at hg
      unfold State.member at hm
      rw [hm] at hg; cases hg
  | resetPoints q a =>
    exfalso
    simp only [Sys.step, State.resetPoints] at hg
    cases hv : y.w.s.vals.get? (q, a) with
    | none => rw [hv] at hg; have hg : y.w.s.member p st = false := hg; rw [hm] at hg; cases hg
    | some v =>
      rw [hv] at hg
      have hg : (y.w.s.setVal q a { v with points := 0 }).vals.has (p, st) = false := hg
      rw [has_setVal hv] at hg
      unfold State.member at hm
      rw [hm] at hg; cases hg
  | increaseRewards a c =>
    exfalso; apply same
    simp only [Sys.step]
    cases hr : increaseRewards y.w .pool a c with
    | error e => rfl
    | ok w' =>
      rcases increase_ok hr with ⟨-, rfl⟩ | ⟨x, hx, -, hs⟩
      · rfl
      · show w'.s.vals = _
        rw [hs]
  | beginBlock dt => exact absurd rfl (hb dt)
  | external b g => exfalso; exact same rfl

/-- the announcement the queue has not reached: since then neither another announcement nor a removal by the queue -/
theorem lastAnnounce_split {l : List Event} {st : Addr} {p t : Nat} (h : lastAnnounce l st p = some t) :
    ∃ l3 l4, l = l3 ++ .announced st p t :: l4 ∧ (∀ t', .announced st p t' ∉ l3) ∧ (∀ t' d, .left st p t' d ∉ l3) ∧
      (∀ t', .expired st p t' ∉ l3) := by
  induction l with
  | nil => cases h
  | cons e l ih =>
    have goOn : lastAnnounce l st p = some t → (∀ t', e ≠ .announced st p t') → (∀ t' d, e ≠ .left st p t' d) →
        (∀ t', e ≠ .expired st p t') →
        ∃ l3 l4, e :: l = l3 ++ .announced st p t :: l4 ∧ (∀ t', .announced st p t' ∉ l3) ∧
          (∀ t' d, .left st p t' d ∉ l3) ∧ (∀ t', .expired st p t' ∉ l3) := by
      intro h' h1 h2 h3
      obtain ⟨l3, l4, e1, e2, e3, e4⟩ := ih h'
      refine ⟨e :: l3, l4, by rw [e1]; rfl, ?_, ?_, ?_⟩
      · intro t' hm
        rcases List.mem_cons.1 hm with hm | hm
        · exact h1 t' hm.symm
        · exact e2 t' hm
      · intro t' d hm
        rcases List.mem_cons.1 hm with hm | hm
        · exact h2 t' d hm.symm
        · exact e3 t' d hm
      · intro t' hm
        rcases List.mem_cons.1 hm with hm | hm
        · exact h3 t' hm.symm
        · exact e4 t' hm
    cases e with
    | announced a q t0 =>
      have h : (if a = st ∧ q = p then some t0 else lastAnnounce l st p) = some t := h
      by_cases e : a = st ∧ q = p
      · rw [if_pos e] at h
        injection h with h
        exact ⟨[], l, by rw [e.1, e.2, h]; rfl, by simp, by simp, by simp⟩
      · rw [if_neg e] at h
        exact goOn h (by rintro t' x; injection x with x1 x2; exact e ⟨x1, x2⟩) (by rintro t' d x; cases x)
          (by rintro t' x; cases x)
    | left a q t0 d0 =>
      have h : (if a = st ∧ q = p then none else lastAnnounce l st p) = some t := h
      by_cases e : a = st ∧ q = p
      · rw [if_pos e] at h; cases h
      · rw [if_neg e] at h
        exact goOn h (by rintro t' x; cases x) (by rintro t' d x; injection x with x1 x2; exact e ⟨x1, x2⟩)
          (by rintro t' x; cases x)
    | expired a q t0 =>
      have h : (if a = st ∧ q = p then none else lastAnnounce l st p) = some t := h
      by_cases e : a = st ∧ q = p
      · rw [if_pos e] at h; cases h
      · rw [if_neg e] at h
        exact goOn h (by rintro t' x; cases x) (by rintro t' d x; cases x)
          (by rintro t' x; injection x with x1 x2; exact e ⟨x1, x2⟩)
    | ordered a c t0 => exact goOn h (by rintro t' x; cases x) (by rintro t' d x; cases x) (by rintro t' x; cases x)
    | applied a c t0 d0 => exact goOn h (by rintro t' x; cases x) (by rintro t' d x; cases x) (by rintro t' x; cases x)
    | joined a p t0 => exact goOn h (by rintro t' x; cases x) (by rintro t' d x; cases x) (by rintro t' x; cases x)
    | kicked a p t0 => exact goOn h (by rintro t' x; cases x) (by rintro t' d x; cases x) (by rintro t' x; cases x)

/-- a member that was neither kicked nor removed by the queue stays one, and so cannot have joined again -/
theorem stays_member {l3 l4 : List Event} {st : Addr} {p : Nat} (hc : Consistent (l3 ++ l4))
    (hm : isMember l4 st p = true) (hk : ∀ t, .kicked st p t ∉ l3) (hl : ∀ t d, .left st p t d ∉ l3) :
    isMember (l3 ++ l4) st p = true ∧ ∀ t, .joined st p t ∉ l3 := by
  induction l3 with
  | nil => exact ⟨hm, by simp⟩
  | cons e l ih =>
    obtain ⟨h1, h2⟩ := ih hc.2 (fun t x => hk t (by simp [x])) (fun t d x => hl t d (by simp [x]))
    have hnj : ∀ t, e ≠ .joined st p t := by
      rintro t rfl
      have := hc.1
      have this : isMember (l ++ l4) st p = false := this
      rw [h1] at this; cases this
    refine ⟨?_, ?_⟩
    · cases e with
      | joined a q t =>
        show (if a = st ∧ q = p then true else isMember (l ++ l4) st p) = true
        split
        · rfl
        · exact h1
      | left a q t d =>
        show (if a = st ∧ q = p then false else isMember (l ++ l4) st p) = true
        split
        · rename_i c; exact absurd (by rw [c.1, c.2]; simp) (hl t d)
        · exact h1
      | kicked a q t =>
        show (if a = st ∧ q = p then false else isMember (l ++ l4) st p) = true
        split
        · rename_i c; exact absurd (by rw [c.1, c.2]; simp) (hk t)
        · exact h1
      | announced a q t => exact h1
      | expired a q t => exact h1
      | ordered a c t => exact h1
      | applied a c t d => exact h1
    · intro t hx
      rcases List.mem_cons.1 hx with hx | hx
      · exact hnj t hx.symm
      · exact h2 t hx

/-- C17, the part that holds: whenever the queue removed a member, it had announced that before as a member, the leave time
had passed since, and the queue had not acted on that announcement already; and unless the staker was kicked after the
announcement it had not joined again since.  Missing: the last part for a staker that was kicked, see
`C17_stale_announcement`. -/
theorem C17_history_partial (gov : Addr) (y : Sys) (hy : Reachable gov y) (l1 l2 : List Event) (st : Addr)
    (p t delay : Nat) (h : y.w.s.trace = l1 ++ .left st p t delay :: l2) :
    ∃ t0 l3 l4, l2 = l3 ++ .announced st p t0 :: l4 ∧ isMember l4 st p = true ∧
      (t0 + delay < 2 ^ 63 → t0 + delay ≤ t) ∧
      (∀ t', .announced st p t' ∉ l3) ∧ (∀ t' d, .left st p t' d ∉ l3) ∧
      ((∀ t', .kicked st p t' ∉ l3) → ∀ t', .joined st p t' ∉ l3) := by
  have hc := hy.inv.tr.ok
  rw [h] at hc
  obtain ⟨⟨-, t0, h1, h2⟩, hc2⟩ := hc.split
  obtain ⟨l3, l4, e1, e2, e3, e4⟩ := lastAnnounce_split h1
  rw [e1] at hc2
  obtain ⟨⟨h5, -⟩, -⟩ := hc2.split
  refine ⟨t0, l3, l4, e1, h5, fun hlt => (due_iff hlt).1 h2, e2, e3, ?_⟩
  intro hk
  exact (stays_member (l4 := .announced st p t0 :: l4) hc2 h5 hk e3).2

/-! ## C18 -/

/-- C18: the stakers module account holds exactly the sum of all unclaimed commission rewards plus what it was given. -/
theorem C18_exact (gov : Addr) (y : Sys) (hy : Reachable gov y) (d : Denom) :
    (y.w.b (.mod .stakers)).amt d = y.w.s.totalUnclaimed d + y.w.s.gifts.amt d := hy.inv.bal d

/-- C18: the stakers module account always covers all unclaimed commission rewards, in every coin. -/
theorem C18_backed (gov : Addr) (y : Sys) (hy : Reachable gov y) (d : Denom) :
    y.w.s.totalUnclaimed d ≤ (y.w.b (.mod .stakers)).amt d := by
  rw [C18_exact gov y hy d]; exact Nat.le_add_right _ _

theorem unclaimed_le_total (s : State) (st : Addr) (d : Denom) : (s.unclaimed st).amt d ≤ s.totalUnclaimed d := by
  unfold State.unclaimed State.totalUnclaimed
  cases hx : s.stakers.get? st with
  | none => exact Nat.zero_le _
  | some x => exact s.stakers.le_sum (fun _ x => x.rewards.amt d) hx

/-- C18: a claim succeeds exactly for a staker that claims something and not more than its unclaimed rewards in any coin. -/
theorem C18_claim_accepted (gov : Addr) (y : Sys) (hy : Reachable gov y) (st : Addr) (c : Coins) :
    (∃ w', claimRewards y.w st c = .ok w') ↔
      y.w.s.stakers.has st = true ∧ (∃ d, c.amt d ≠ 0) ∧ ∀ d, c.amt d ≤ (y.w.s.unclaimed st).amt d := by
  constructor
  · rintro ⟨w', hr⟩
    obtain ⟨hz, x, hx, hle, -, -⟩ := claim_ok hr
    refine ⟨(has_iff _ _).2 ⟨x, hx⟩, Coins.isZero_false_iff.1 hz, ?_⟩
    intro d; unfold State.unclaimed; rw [hx]; exact hle d
  · rintro ⟨h1, h2, h3⟩
    obtain ⟨x, hx⟩ := (has_iff _ _).1 h1
    have hu : y.w.s.unclaimed st = x.rewards := by unfold State.unclaimed; rw [hx]; rfl
    rw [hu] at h3
    obtain ⟨b', hb'⟩ := Bank.send_succeeds (b := y.w.b) (s := .mod .stakers) (t := .user st) (c := c) (by
      intro d
      have h4 := unclaimed_le_total y.w.s st d
      have h5 := C18_backed gov y hy d
      have h6 := h3 d
      rw [hu] at h4
      omega)
    unfold claimRewards
    rw [Coins.isZero_false_iff.2 h2, hx]
    simp only [Bool.false_eq_true, if_false]
    rw [Coins.le_iff.2 h3, hb']
    exact ⟨_, rfl⟩

/-- C18: a claim pays exactly the claimed coins to the staker and takes them from its unclaimed rewards; no other account
and no other staker's rewards change. -/
theorem C18_claim (w w' : World) (st : Addr) (c : Coins)
    (hr : claimRewards w st c = .ok w') (d : Denom) :
    c.amt d ≤ (w.s.unclaimed st).amt d ∧
    (w'.s.unclaimed st).amt d + c.amt d = (w.s.unclaimed st).amt d ∧
    (w'.b (.user st)).amt d = (w.b (.user st)).amt d + c.amt d ∧
    (w'.b (.mod .stakers)).amt d + c.amt d = (w.b (.mod .stakers)).amt d ∧
    (∀ a, a ≠ .user st → a ≠ .mod .stakers → (w'.b a).amt d = (w.b a).amt d) ∧
    (∀ a, a ≠ st → w'.s.unclaimed a = w.s.unclaimed a) ∧
    w'.s.stakers.has st = true ∧ ∀ a, w'.s.rate a = w.s.rate a := by
  obtain ⟨hz, x, hx, hle, hb, hs⟩ := claim_ok hr
  have hu : w.s.unclaimed st = x.rewards := by unfold State.unclaimed; rw [hx]; rfl
  have hS : w'.s.stakers = w.s.stakers.set st { x with rewards := x.rewards.sub c } := by rw [hs]
  have hu' : w'.s.unclaimed st = x.rewards.sub c := by unfold State.unclaimed; rw [hS, Map.get?_set_self]; rfl
  obtain ⟨k1, k2⟩ := Bank.send_ok hb
  have hle := hle d
  refine ⟨by rw [hu]; exact hle, ?_, ?_, ?_, ?_, ?_, ?_, ?_⟩
  · rw [hu', hu, Coins.amt_sub]; omega
  · rw [k2, if_neg (by simp), if_pos rfl]; omega
  · rw [k2, if_pos rfl, if_neg (by simp)]
    have := k1 d
    omega
  · intro a h1 h2
    rw [k2, if_neg h2, if_neg h1]; omega
  · intro a ha
    unfold State.unclaimed
    rw [hS, Map.get?_set_ne _ _ ha]
  · rw [hS, has_set]; simp
  · intro a
    unfold State.rate
    rw [hS, Map.get?_set]
    split
    · rename_i e; rw [e, hx]; rfl
    · rfl

/-- C18: a payout adds exactly the coins
that were moved from the paying module to the stakers module account. -/
theorem C18_payout (w w' : World) (payer : Mod) (hp : payer ≠ .stakers) (st : Addr) (c : Coins)
    (hr : increaseRewards w payer st c = .ok w') (d : Denom) :
    (w'.s.unclaimed st).amt d = (w.s.unclaimed st).amt d + c.amt d ∧
    (w'.b (.mod .stakers)).amt d = (w.b (.mod .stakers)).amt d + c.amt d ∧
    (w'.b (.mod payer)).amt d + c.amt d = (w.b (.mod payer)).amt d ∧
    (∀ a, a ≠ .mod payer → a ≠ .mod .stakers → (w'.b a).amt d = (w.b a).amt d) ∧
    (∀ a, a ≠ st → w'.s.unclaimed a = w.s.unclaimed a) := by
  rcases increase_ok hr with ⟨hz, rfl⟩ | ⟨x, hx, hb, hs⟩
  · have := Coins.isZero_iff.1 hz d
    refine ⟨by omega, by omega, by omega, fun _ _ _ => rfl, fun _ _ => rfl⟩
  · have hu : w.s.unclaimed st = x.rewards := by unfold State.unclaimed; rw [hx]; rfl
    have hS : w'.s.stakers = w.s.stakers.set st { x with rewards := x.rewards.add c } := by rw [hs]
    have hu' : w'.s.unclaimed st = x.rewards.add c := by unfold State.unclaimed; rw [hS, Map.get?_set_self]; rfl
    obtain ⟨k1, k2⟩ := Bank.send_ok hb
    have k1 := k1 d
    have hp1 : Acct.mod .stakers ≠ Acct.mod payer := by intro e; injection e with e; exact hp e.symm
    refine ⟨by rw [hu', hu, Coins.amt_add], ?_, ?_, ?_, ?_⟩
    · rw [k2, if_neg hp1, if_pos rfl]; omega
    · rw [k2, if_pos rfl, if_neg (fun e => hp1 e.symm)]; omega
    · intro a h1 h2
      rw [k2, if_neg h1, if_neg h2]; omega
    · intro a ha
      unfold State.unclaimed
      rw [hS, Map.get?_set_ne _ _ ha]

/-- C18: nothing but payouts to a staker and its own claims changes its unclaimed rewards. -/
theorem C18_only (gov : Addr) (y : Sys) (hy : Reachable gov y) (o : Op) (ho : o.ok) (st : Addr)
    (h1 : ∀ c, o ≠ .claim st c) (h2 : ∀ c, o ≠ .increaseRewards st c) :
    (Sys.step gov y o).w.s.unclaimed st = y.w.s.unclaimed st := by
  have h := hy.inv
  have key : ∀ (s' : State) (a : Addr) (x : Staker), s'.stakers = y.w.s.stakers.set a x →
      (a = st → y.w.s.unclaimed st = x.rewards) → s'.unclaimed st = y.w.s.unclaimed st := by
    intro s' a x hs hc
    by_cases e : st = a
    · rw [hc e.symm]
      unfold State.unclaimed; rw [hs, e, Map.get?_set_self]; rfl
    · unfold State.unclaimed; rw [hs, Map.get?_set_ne _ _ e]
  have same : ∀ s' : State, s'.stakers = y.w.s.stakers → s'.unclaimed st = y.w.s.unclaimed st := by
    intro s' hs; unfold State.unclaimed; rw [hs]
  cases o with
  | createStaker a c d =>
    simp only [Sys.step]
    cases hr : createStaker y.w.s a c d with
    | error e => rfl
    | ok s' =>
      unfold createStaker at hr
      split at hr
      · cases hr
      split at hr
      · cases hr
      rename_i hn
      split at hr
      · cases hr
      cases hr
      refine key _ a ⟨c, Coins.zero, 0⟩ rfl ?_
      rintro rfl
      have hn' := (has_false_iff _ _).1 (by simpa using hn : y.w.s.stakers.has a = false)
      unfold State.unclaimed; rw [hn']; rfl
  | join ans amt m =>
    simp only [Sys.step, joinStep]
    cases hr : joinPool y.w y.now ans amt m with
    | error e => rfl
    | ok w' =>
      obtain ⟨f1, -⟩ := join_same h.mem ho hr
      obtain ⟨g1, -⟩ := noteGift_same m y.w w'
      exact same _ (g1.trans f1.stakers)
  | leave a p =>
    simp only [Sys.step]
    cases hr : leavePool y.w.s y.now p a with
    | error e => rfl
    | ok s' =>
      unfold leavePool at hr
      split at hr
      · cases hr
      rename_i v hv
      have hl1 : LInv (y.w.s.setVal p a { v with leaving := true }) y.now := (setVal_same _ _ _ _).lv h.lv (fun _ _ => rfl)
      obtain ⟨-, -, -, h4⟩ := orderLeave_ok hl1 hr
      exact same s' (by rw [h4]; rfl)
  | updateCommission a c =>
    simp only [Sys.step]
    cases hr : updateCommission y.w.s y.now a c with
    | error e => rfl
    | ok s' =>
      unfold updateCommission at hr
      split at hr
      · cases hr
      split at hr
      · cases hr
      cases hr; exact same _ rfl
  | updateMetadata a i v =>
    simp only [Sys.step]
    cases hr : updateMetadata y.w.s a i v with
    | error e => rfl
    | ok s' =>
      unfold updateMetadata at hr
      split at hr
      · cases hr
      split at hr
      · cases hr
      rename_i x hx
      cases hr
      refine key _ a { x with info := i } rfl ?_
      rintro rfl
      unfold State.unclaimed; rw [hx]; rfl
  | claim a c =>
    simp only [Sys.step]
    cases hr : claimRewards y.w a c with
    | error e => rfl
    | ok w' =>
      obtain ⟨-, x, hx, -, -, hs⟩ := claim_ok hr
      exact key w'.s a { x with rewards := x.rewards.sub c } (by rw [hs]) (by rintro rfl; exact absurd rfl (h1 c))
  | updateParams a p =>
    simp only [Sys.step]
    cases hr : updateParams gov y.w.s a p with
    | error e => rfl
    | ok s' =>
      unfold updateParams at hr
      split at hr
      · cases hr
      split at hr
      · cases hr
      cases hr; exact same _ rfl
  | kick p a => exact same _ (kick_same y.w.s y.now p a).stakers
  | incrementPoints p a =>
    simp only [Sys.step, State.incrementPoints]
    cases hv : y.w.s.vals.get? (p, a) with
    | none => rfl
    | some v => exact same _ rfl
  | resetPoints p a =>
    simp only [Sys.step, State.resetPoints]
    cases hv : y.w.s.vals.get? (p, a) with
    | none => rfl
    | some v => exact same _ rfl
  | increaseRewards a c =>
    simp only [Sys.step]
    cases hr : increaseRewards y.w .pool a c with
    | error e => rfl
    | ok w' =>
      rcases increase_ok hr with ⟨-, rfl⟩ | ⟨x, hx, -, hs⟩
      · rfl
      · exact key w'.s a { x with rewards := x.rewards.add c } (by rw [hs]) (by rintro rfl; exact absurd rfl (h2 c))
  | beginBlock dt =>
    obtain ⟨r1, r2, -⟩ := beginBlock_inv (Nat.le_add_right y.now dt) h.mem h.ch h.lv h.tr h.rate
    show (beginBlock y.w.s (y.now + dt)).unclaimed st = _
    have hr := r1.rest st
    unfold State.unclaimed
    rw [r2.stakers]
    cases ha : (processChanges y.w.s (y.now + dt)).stakers.get? st with
    | none =>
      rw [ha] at hr
      cases hb : y.w.s.stakers.get? st with
      | none => rfl
      | some x => rw [hb] at hr; cases hr
    | some x =>
      rw [ha] at hr
      cases hb : y.w.s.stakers.get? st with
      | none => rw [hb] at hr; cases hr
      | some x' =>
        rw [hb] at hr
        simp only [Option.map_some, Option.some.injEq, Prod.mk.injEq] at hr
        show x.rewards = x'.rewards
        exact hr.1
  | external b g => rfl

/-! ## C52 -/

/-- C52: a parameter update from anybody but the governance authority fails. -/
theorem C52_stakers_params (gov : Addr) (s : State) (a : Addr) (y : ParamsPayload) (h : a ≠ gov) :
    ∃ e, updateParams gov s a y = .error e := by
  unfold updateParams
  split
  · exact ⟨_, rfl⟩
  · rw [if_pos (fun e => h e.symm)]; exact ⟨_, rfl⟩

/-- C52: an accepted update comes from the governance authority and changes nothing but the named parameters. -/
theorem C52_stakers_effect (gov : Addr) (s s' : State) (a : Addr) (y : ParamsPayload)
    (h : updateParams gov s a y = .ok s') :
    a = gov ∧ s' = { s with params := { commissionChangeTime := y.commissionChangeTime.getD s.params.commissionChangeTime,
                                        leavePoolTime := y.leavePoolTime.getD s.params.leavePoolTime } } := by
  unfold updateParams at h
  split at h
  · cases h
  split at h
  · cases h
  rename_i hg
  cases h
  exact ⟨by_contra fun e => hg (fun x => e x.symm), rfl⟩

end Verif.Stakers
