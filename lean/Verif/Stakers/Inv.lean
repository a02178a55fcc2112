import Verif.Stakers.Leaves

/-!
# Every reachable state satisfies the invariants
-/

namespace Verif.Stakers
open Verif

structure Inv (y : Sys) : Prop where
  mem : MemInv y.w.s
  ch : CInv y.w.s y.now
  lv : LInv y.w.s y.now
  tr : TInv y.w.s
  rate : ∀ st x, y.w.s.stakers.get? st = some x → x.commission ≤ Dec.one
  bal : ∀ d, (y.w.b (.mod .stakers)).amt d = y.w.s.totalUnclaimed d + y.w.s.gifts.amt d

/-- the fields outside the memberships and the history -/
structure Same (s s' : State) : Prop where
  stakers : s'.stakers = s.stakers
  changes : s'.changes = s.changes
  changeIdx : s'.changeIdx = s.changeIdx
  cLow : s'.cLow = s.cLow
  cHigh : s'.cHigh = s.cHigh
  leaves : s'.leaves = s.leaves
  leaveIdx : s'.leaveIdx = s.leaveIdx
  lLow : s'.lLow = s.lLow
  lHigh : s'.lHigh = s.lHigh
  params : s'.params = s.params
  gifts : s'.gifts = s.gifts

theorem Same.refl (s : State) : Same s s := ⟨rfl, rfl, rfl, rfl, rfl, rfl, rfl, rfl, rfl, rfl, rfl⟩

theorem Same.trans {s s' s'' : State} (h : Same s s') (h' : Same s' s'') : Same s s'' :=
  ⟨h'.stakers.trans h.stakers, h'.changes.trans h.changes, h'.changeIdx.trans h.changeIdx, h'.cLow.trans h.cLow,
    h'.cHigh.trans h.cHigh, h'.leaves.trans h.leaves, h'.leaveIdx.trans h.leaveIdx, h'.lLow.trans h.lLow,
    h'.lHigh.trans h.lHigh, h'.params.trans h.params, h'.gifts.trans h.gifts⟩

theorem Same.pending {s s' : State} (h : Same s s') (st : Addr) : s'.pending st = s.pending st :=
  pending_eq h.changes h.changeIdx st

theorem Same.announcement {s s' : State} (h : Same s s') (st : Addr) (p : Nat) :
    s'.announcement st p = s.announcement st p := announcement_eq h.leaves h.leaveIdx st p

theorem Same.rate {s s' : State} (h : Same s s') (st : Addr) : s'.rate st = s.rate st := by
  unfold State.rate; rw [h.stakers]

theorem Same.ch {s s' : State} (h : Same s s') {now : Nat} (hc : CInv s now)
    (ht : ∀ st, lastOrder s'.trace st = lastOrder s.trace st) : CInv s' now :=
  hc.of_eq le_rfl h.changes h.changeIdx h.cLow h.cHigh (fun st x => by rw [h.stakers]; exact x) ht

theorem Same.lv {s s' : State} (h : Same s s') {now : Nat} (hc : LInv s now)
    (ht : ∀ st p, lastAnnounce s'.trace st p = lastAnnounce s.trace st p) : LInv s' now :=
  hc.of_eq le_rfl h.leaves h.leaveIdx h.lLow h.lHigh ht

theorem Same.total {s s' : State} (h : Same s s') (d : Denom) : s'.totalUnclaimed d = s.totalUnclaimed d := by
  unfold State.totalUnclaimed; rw [h.stakers]

theorem removeVal_same (s : State) (p : Nat) (st : Addr) : Same s (s.removeVal p st) := by
  unfold State.removeVal
  split
  · exact Same.refl s
  · exact ⟨rfl, rfl, rfl, rfl, rfl, rfl, rfl, rfl, rfl, rfl, rfl⟩

theorem kick_same (s : State) (now p : Nat) (st : Addr) : Same s (s.kick now p st) := by
  unfold State.kick
  split
  · have := removeVal_same s p st
    exact ⟨this.1, this.2, this.3, this.4, this.5, this.6, this.7, this.8, this.9, this.10, this.11⟩
  · exact Same.refl s

theorem setVal_same (s : State) (p : Nat) (st : Addr) (v : Val) : Same s (s.setVal p st v) :=
  ⟨rfl, rfl, rfl, rfl, rfl, rfl, rfl, rfl, rfl, rfl, rfl⟩

theorem addVal_same (s : State) (p : Nat) (st va : Addr) : Same s (s.addVal p st va) := by
  unfold State.addVal
  split
  · exact Same.refl s
  · split
    · exact Same.refl s
    · exact ⟨rfl, rfl, rfl, rfl, rfl, rfl, rfl, rfl, rfl, rfl, rfl⟩

theorem kick_trace (s : State) (now p : Nat) (st : Addr) :
    (s.kick now p st).trace = if s.vals.has (p, st) then .kicked st p now :: s.trace else s.trace := by
  unfold State.kick; split <;> rfl

theorem TInv.kick {s : State} (h : TInv s) (now p : Nat) (st : Addr) : TInv (s.kick now p st) := by
  have hv := kick_vals s now p st
  have ht := kick_trace s now p st
  cases hh : s.vals.has (p, st) with
  | false =>
    have : s.kick now p st = s := by unfold State.kick; rw [hh]; rfl
    rw [this]; exact h
  | true =>
    rw [hh] at ht
    simp only [if_true] at ht
    refine ⟨?_, ?_⟩
    · rw [ht]; exact ⟨by show isMember _ _ _ = true; rw [h.mem, hh], h.ok⟩
    · intro a q
      rw [ht, hv, has_del]
      show (if st = a ∧ p = q then false else isMember s.trace a q) = _
      by_cases c : st = a ∧ p = q
      · rw [if_pos c, c.1, c.2]; simp
      · rw [if_neg c, h.mem]
        have : (q, a) ≠ (p, st) := by intro x; injection x with x1 x2; exact c ⟨x2.symm, x1.symm⟩
        simp [this]

theorem lastOrder_kick (s : State) (now p : Nat) (st a : Addr) :
    lastOrder (s.kick now p st).trace a = lastOrder s.trace a := by
  rw [kick_trace]; cases s.vals.has (p, st) <;> rfl

theorem lastAnnounce_kick (s : State) (now p : Nat) (st a : Addr) (q : Nat) :
    lastAnnounce (s.kick now p st).trace a q = lastAnnounce s.trace a q := by
  rw [kick_trace]; cases s.vals.has (p, st) <;> rfl

theorem addVal_new {s : State} {p : Nat} {st va : Addr} (hs : s.stakers.has st = true) (hn : s.vals.get? (p, st) = none) :
    (s.addVal p st va).vals = s.vals.set (p, st) ⟨va, 0, false⟩ ∧ (s.addVal p st va).trace = s.trace := by
  unfold State.addVal
  rw [hs, (has_false_iff _ _).2 hn]
  exact ⟨rfl, rfl⟩

/-- a state with the same history and memberships up to points and flags -/
theorem TInv.of_eq {s s' : State} (h : TInv s) (ht : s'.trace = s.trace)
    (hv : ∀ k, s'.vals.has k = s.vals.has k) : TInv s' :=
  ⟨by rw [ht]; exact h.ok, fun st p => by rw [ht, hv]; exact h.mem st p⟩

theorem has_setVal {s : State} {p : Nat} {st : Addr} {v w : Val} (hw : s.vals.get? (p, st) = some w) (k : Nat × Addr) :
    (s.setVal p st v).vals.has k = s.vals.has k := by
  show (s.vals.set (p, st) v).has k = _
  rw [has_set]
  by_cases c : k = (p, st)
  · rw [c, (has_iff _ _).2 ⟨w, hw⟩]; simp
  · simp [c]

theorem ensureFreeSlot_same {s s1 : State} {amt : Addr → Nat} {now p : Nat} {st : Addr} (h : MemInv s)
    (hb : ∀ a, amt a < 2 ^ 64 - 1) (hr : s.ensureFreeSlot amt now p st = .ok s1) :
    Same s s1 ∧ (TInv s → TInv s1) ∧ (∀ a, lastOrder s1.trace a = lastOrder s.trace a) ∧
    (∀ a q, lastAnnounce s1.trace a q = lastAnnounce s.trace a q) := by
  rcases ensureFreeSlot_ok h hb hr with ⟨hc, rfl⟩ | ⟨hc, low, hl, -, -, rfl⟩
  · exact ⟨Same.refl _, fun h => h, fun _ => rfl, fun _ _ => rfl⟩
  · exact ⟨kick_same _ _ _ _, fun h => h.kick _ _ _, fun a => lastOrder_kick _ _ _ _ a,
      fun a q => lastAnnounce_kick _ _ _ _ a q⟩

/-- what the join message does to everything but balances -/
theorem join_same {w w' : World} {now : Nat} {ans : PoolAnswer} {amt : Addr → Nat} {m : JoinMsg} (h : MemInv w.s)
    (hb : ∀ a, amt a < 2 ^ 64 - 1) (hr : joinPool w now ans amt m = .ok w') :
    Same w.s w'.s ∧ (TInv w.s → TInv w'.s) ∧ (∀ a, lastOrder w'.s.trace a = lastOrder w.s.trace a) ∧
    (∀ a q, lastAnnounce w'.s.trace a q = lastAnnounce w.s.trace a q) := by
  obtain ⟨-, hst, hown, hnew, s1, he, h1, h2, -, -, e⟩ := joinPool_ok h hb hr
  obtain ⟨g1, g2, g3, g4⟩ := ensureFreeSlot_same h hb he
  have hs1 : s1.stakers.has m.creator = true := by rw [g1.stakers]; exact hst
  have hn1 : s1.vals.get? (m.pool, m.creator) = none := by
    rcases ensureFreeSlot_ok h hb he with ⟨-, rfl⟩ | ⟨-, low, -, -, -, rfl⟩
    · exact hnew
    · rw [kick_vals, Map.get?_del]; split
      · rfl
      · exact hnew
  obtain ⟨a1, a2⟩ := addVal_new (va := m.valaddress) hs1 hn1
  have hsame := addVal_same s1 m.pool m.creator m.valaddress
  rw [e]
  refine ⟨?_, ?_, ?_, ?_⟩
  · have := g1.trans hsame
    exact ⟨this.1, this.2, this.3, this.4, this.5, this.6, this.7, this.8, this.9, this.10, this.11⟩
  · intro ht
    have ht1 := g2 ht
    refine ⟨⟨?_, ht1.ok⟩, ?_⟩
    · show isMember _ _ _ = false
      rw [ht1.mem, (has_false_iff _ _).2 hn1]
    · intro a q
      show (if m.creator = a ∧ m.pool = q then true else isMember s1.trace a q) = (s1.addVal m.pool m.creator m.valaddress).vals.has (q, a)
      rw [a1, has_set]
      by_cases c : m.creator = a ∧ m.pool = q
      · rw [if_pos c, c.1, c.2]; simp
      · rw [if_neg c, ht1.mem]
        have : (q, a) ≠ (m.pool, m.creator) := by intro x; injection x with x1 x2; exact c ⟨x2.symm, x1.symm⟩
        simp [this]
  · intro a; exact g3 a
  · intro a q; exact g4 a q

theorem noteGift_same (m : JoinMsg) (w w' : World) :
    (noteGift m w w').s.stakers = w'.s.stakers ∧ (noteGift m w w').s.vals = w'.s.vals ∧
    (noteGift m w w').s.valIdx = w'.s.valIdx ∧ (noteGift m w w').s.counts = w'.s.counts ∧
    (noteGift m w w').s.active = w'.s.active ∧ (noteGift m w w').s.changes = w'.s.changes ∧
    (noteGift m w w').s.changeIdx = w'.s.changeIdx ∧ (noteGift m w w').s.cLow = w'.s.cLow ∧
    (noteGift m w w').s.cHigh = w'.s.cHigh ∧ (noteGift m w w').s.leaves = w'.s.leaves ∧
    (noteGift m w w').s.leaveIdx = w'.s.leaveIdx ∧ (noteGift m w w').s.lLow = w'.s.lLow ∧
    (noteGift m w w').s.lHigh = w'.s.lHigh ∧ (noteGift m w w').s.params = w'.s.params ∧
    (noteGift m w w').s.trace = w'.s.trace ∧ (noteGift m w w').b = w'.b := by
  unfold noteGift
  split
  · exact ⟨rfl, rfl, rfl, rfl, rfl, rfl, rfl, rfl, rfl, rfl, rfl, rfl, rfl, rfl, rfl, rfl⟩
  · exact ⟨rfl, rfl, rfl, rfl, rfl, rfl, rfl, rfl, rfl, rfl, rfl, rfl, rfl, rfl, rfl, rfl⟩

theorem beginBlock_inv {s : State} {now now' : Nat} (hn : now ≤ now') (hm : MemInv s) (hc : CInv s now) (hl : LInv s now)
    (ht : TInv s) (hr : ∀ st x, s.stakers.get? st = some x → x.commission ≤ Dec.one) :
    CRel now' s (processChanges s now') ∧ LRel now' (processChanges s now') (beginBlock s now') ∧
    MemInv (beginBlock s now') ∧ CInv (beginBlock s now') now' ∧ LInv (beginBlock s now') now' ∧
    TInv (beginBlock s now') ∧ (∀ st x, (beginBlock s now').stakers.get? st = some x → x.commission ≤ Dec.one) ∧
    (∀ d, (beginBlock s now').totalUnclaimed d = s.totalUnclaimed d) ∧ (beginBlock s now').gifts = s.gifts := by
  have hc' : CInv s now' := hc.of_eq hn rfl rfl rfl rfl (fun _ x => x) (fun _ => rfl)
  have r1 := processChanges_rel hc'
  have hl' : LInv (processChanges s now') now' := hl.of_eq hn r1.leaves r1.leaveIdx r1.lLow r1.lHigh r1.announce
  have r2 : LRel now' (processChanges s now') (beginBlock s now') := processLeaves_rel hl'
  refine ⟨r1, r2, ?_, ?_, r2.inv, ?_, ?_, ?_, ?_⟩
  · exact r2.mem (hm.of_eq r1.vals r1.valIdx r1.counts r1.active (fun st x => by rw [r1.has]; exact x))
  · exact r1.inv.of_eq le_rfl r2.changes r2.changeIdx r2.cLow r2.cHigh (fun st x => by rw [r2.stakers]; exact x) r2.order
  · exact r2.trace ⟨r1.trace ht.ok, fun st p => by rw [r1.isMember, r1.vals]; exact ht.mem st p⟩
  · rw [r2.stakers]; exact r1.rates hr
  · intro d
    have : (beginBlock s now').totalUnclaimed d = (processChanges s now').totalUnclaimed d := by
      unfold State.totalUnclaimed; rw [r2.stakers]
    rw [this, r1.total]
  · rw [r2.gifts, r1.gifts]

/-- how a claim succeeds -/
theorem claim_ok {w w' : World} {st : Addr} {c : Coins} (hr : claimRewards w st c = .ok w') :
    c.isZero = false ∧ ∃ x, w.s.stakers.get? st = some x ∧ (∀ d, c.amt d ≤ x.rewards.amt d) ∧
      w.b.send (.mod .stakers) (.user st) c = .ok w'.b ∧
      w'.s = { w.s with stakers := w.s.stakers.set st { x with rewards := x.rewards.sub c } } := by
  unfold claimRewards at hr
  split at hr
  · cases hr
  rename_i hz
  split at hr
  · cases hr
  rename_i x hx
  split at hr
  · cases hr
  rename_i hle
  split at hr
  · cases hr
  rename_i b hb
  cases hr
  exact ⟨by simpa using hz, x, hx, Coins.le_iff.1 (by simpa using hle), hb, rfl⟩

/-- how a payout of commission rewards succeeds -/
theorem increase_ok {w w' : World} {payer : Mod} {st : Addr} {c : Coins} (hr : increaseRewards w payer st c = .ok w') :
    (c.isZero = true ∧ w' = w) ∨ ∃ x, w.s.stakers.get? st = some x ∧
      w.b.send (.mod payer) (.mod .stakers) c = .ok w'.b ∧
      w'.s = { w.s with stakers := w.s.stakers.set st { x with rewards := x.rewards.add c } } := by
  unfold increaseRewards at hr
  split at hr
  · rename_i hz; cases hr; exact Or.inl ⟨hz, rfl⟩
  split at hr
  · cases hr
  rename_i x hx
  split at hr
  · cases hr
  rename_i b hb
  cases hr
  exact Or.inr ⟨x, hx, hb, rfl⟩

theorem has_set_of {K V : Type} [DecidableEq K] [KeyOrd K] {m : Map K V} {k : K} {v : V} {j : K} (h : m.has j = true) :
    (m.set k v).has j = true := by rw [has_set, h]; simp

/-- one staker record changes -/
theorem Inv.setStaker {y : Sys} (h : Inv y) {st : Addr} {x : Staker} {b : Bank}
    (hr : x.commission ≤ Dec.one)
    (hb : ∀ d, (b (.mod .stakers)).amt d + (y.w.s.stakers.at' (fun _ x => x.rewards.amt d) st)
      = (y.w.b (.mod .stakers)).amt d + x.rewards.amt d) :
    Inv ⟨⟨{ y.w.s with stakers := y.w.s.stakers.set st x }, b⟩, y.now⟩ := by
  refine ⟨?_, ?_, ?_, ?_, ?_, ?_⟩
  · exact h.mem.of_eq rfl rfl rfl rfl (fun _ z => has_set_of z)
  · exact h.ch.of_eq le_rfl rfl rfl rfl rfl (fun _ z => has_set_of z) (fun _ => rfl)
  · exact h.lv.of_eq le_rfl rfl rfl rfl rfl (fun _ _ => rfl)
  · exact h.tr.of_eq rfl (fun _ => rfl)
  · intro a z hz
    have hz : (y.w.s.stakers.set st x).get? a = some z := hz
    rw [Map.get?_set] at hz
    split at hz
    · injection hz with hz; rw [← hz]; exact hr
    · exact h.rate a z hz
  · intro d
    show (b (.mod .stakers)).amt d = (y.w.s.stakers.set st x).sum (fun _ x => x.rewards.amt d) + y.w.s.gifts.amt d
    have h1 := y.w.s.stakers.sum_set (fun _ x => x.rewards.amt d) st x
    have h2 := h.bal d
    have h3 := hb d
    unfold State.totalUnclaimed at h2
    omega

theorem Inv.step (gov : Addr) {y : Sys} (h : Inv y) (o : Op) (ho : o.ok) : Inv (Sys.step gov y o) := by
  cases o with
  | createStaker a c d =>
    simp only [Sys.step]
    cases hr : createStaker y.w.s a c d with
    | error e => exact h
    | ok s' =>
      unfold createStaker at hr
      split at hr
      · cases hr
      rename_i hc
      split at hr
      · cases hr
      rename_i hn
      split at hr
      · cases hr
      cases hr
      have hn' := (has_false_iff _ _).1 (by simpa using hn : y.w.s.stakers.has a = false)
      refine h.setStaker (x := ⟨c, Coins.zero, 0⟩) (not_lt.1 hc) ?_
      intro d
      unfold Map.at'
      rw [hn']; simp
  | join ans amt m =>
    simp only [Sys.step, joinStep]
    cases hr : joinPool y.w y.now ans amt m with
    | error e => exact h
    | ok w' =>
      obtain ⟨f1, f2, f3, f4⟩ := join_same h.mem ho hr
      have hm := h.mem.join ho hr
      obtain ⟨-, -, -, -, s1, -, -, -, -, hsend, -⟩ := joinPool_ok h.mem ho hr
      obtain ⟨g1, g2, g3, g4, g5, g6, g7, g8, g9, g10, g11, g12, g13, g14, g15, g16⟩ := noteGift_same m y.w w'
      have hc := f1.ch h.ch f3
      have hl := f1.lv h.lv f4
      refine ⟨?_, ?_, ?_, ?_, ?_, ?_⟩
      · exact hm.of_eq g2 g3 g4 g5 (fun st x => by show (noteGift m y.w w').s.stakers.has st = true; rw [g1]; exact x)
      · exact hc.of_eq le_rfl g6 g7 g8 g9 (fun st x => by show (noteGift m y.w w').s.stakers.has st = true; rw [g1]; exact x)
          (fun st => by show lastOrder (noteGift m y.w w').s.trace st = _; rw [g15])
      · exact hl.of_eq le_rfl g10 g11 g12 g13 (fun st p => by show lastAnnounce (noteGift m y.w w').s.trace st p = _; rw [g15])
      · exact (f2 h.tr).of_eq g15 (fun k => by show (noteGift m y.w w').s.vals.has k = _; rw [g2])
      · intro st x
        show (noteGift m y.w w').s.stakers.get? st = some x → _
        rw [g1, f1.stakers]; exact h.rate st x
      · intro d
        show ((noteGift m y.w w').b (.mod .stakers)).amt d = (noteGift m y.w w').s.totalUnclaimed d + (noteGift m y.w w').s.gifts.amt d
        have ht : (noteGift m y.w w').s.totalUnclaimed d = y.w.s.totalUnclaimed d := by
          unfold State.totalUnclaimed; rw [g1, f1.stakers]
        rw [ht, g16]
        have hb := (Bank.send_ok hsend).2 (.mod .stakers) d
        rw [if_neg (by simp)] at hb
        rw [hb, h.bal d]
        unfold noteGift
        by_cases c : m.dst = .mod .stakers
        · rw [if_pos c.symm, if_pos c]
          show _ = _ + (y.w.s.gifts.add (Coins.single kyve m.amount)).amt d
          rw [Coins.amt_add]; omega
        · rw [if_neg (fun x => c x.symm), if_neg c, f1.gifts]; omega
  | leave a p =>
    simp only [Sys.step]
    cases hr : leavePool y.w.s y.now p a with
    | error e => exact h
    | ok s' =>
      unfold leavePool at hr
      split at hr
      · cases hr
      rename_i v hv
      have hs := setVal_same y.w.s p a { v with leaving := true }
      have hl1 : LInv (y.w.s.setVal p a { v with leaving := true }) y.now := hs.lv h.lv (fun _ _ => rfl)
      obtain ⟨h1, h2, h3, h4⟩ := orderLeave_ok hl1 hr
      have hm1 := h.mem.setVal (v := { v with leaving := true }) hv rfl
      have ht1 : TInv (y.w.s.setVal p a { v with leaving := true }) := h.tr.of_eq rfl (has_setVal hv)
      refine ⟨?_, ?_, h2, ?_, ?_, ?_⟩
      · show MemInv s'
        rw [h4]; exact hm1.of_eq rfl rfl rfl rfl (fun _ x => x)
      · show CInv s' y.now
        rw [h4]; exact h.ch.of_eq le_rfl rfl rfl rfl rfl (fun _ x => x) (fun _ => rfl)
      · show TInv s'
        rw [h4]
        refine ⟨⟨⟨?_, ?_⟩, h.tr.ok⟩, ht1.mem⟩
        · show isMember y.w.s.trace a p = true
          rw [h.tr.mem]; exact (has_iff _ _).2 ⟨v, hv⟩
        · show lastAnnounce y.w.s.trace a p = none
          rw [← h.lv.log]; exact h1
      · intro st x
        show s'.stakers.get? st = some x → _
        rw [h4]; exact h.rate st x
      · intro d
        show (y.w.b _).amt d = s'.totalUnclaimed d + s'.gifts.amt d
        rw [h4]; exact h.bal d
  | updateCommission a c =>
    simp only [Sys.step]
    cases hr : updateCommission y.w.s y.now a c with
    | error e => exact h
    | ok s' =>
      unfold updateCommission at hr
      split at hr
      · cases hr
      rename_i hc
      split at hr
      · cases hr
      rename_i hst
      cases hr
      refine ⟨?_, h.ch.order (by simpa using hst) (not_lt.1 hc), ?_, ?_, h.rate, h.bal⟩
      · exact h.mem.of_eq rfl rfl rfl rfl (fun _ x => x)
      · exact h.lv.of_eq le_rfl rfl rfl rfl rfl (fun _ _ => rfl)
      · exact ⟨⟨trivial, h.tr.ok⟩, h.tr.mem⟩
  | updateMetadata a i v =>
    simp only [Sys.step]
    cases hr : updateMetadata y.w.s a i v with
    | error e => exact h
    | ok s' =>
      unfold updateMetadata at hr
      split at hr
      · cases hr
      split at hr
      · cases hr
      rename_i x hx
      cases hr
      refine h.setStaker (x := { x with info := i }) (h.rate a x hx) ?_
      intro d
      unfold Map.at'
      rw [hx]
  | claim a c =>
    simp only [Sys.step]
    cases hr : claimRewards y.w a c with
    | error e => exact h
    | ok w' =>
      obtain ⟨-, x, hx, hle, hb, hs⟩ := claim_ok hr
      have := h.setStaker (st := a) (x := { x with rewards := x.rewards.sub c }) (b := w'.b) (h.rate a x hx) (by
        intro d
        unfold Map.at'
        rw [hx]
        simp only [Coins.amt_sub]
        obtain ⟨k1, k2⟩ := Bank.send_ok hb
        have k1 := k1 d
        have k2 := k2 (.mod .stakers) d
        rw [if_pos rfl, if_neg (by simp)] at k2
        have := hle d
        omega)
      rw [← hs] at this
      exact this
  | updateParams a p =>
    simp only [Sys.step]
    cases hr : updateParams gov y.w.s a p with
    | error e => exact h
    | ok s' =>
      unfold updateParams at hr
      split at hr
      · cases hr
      split at hr
      · cases hr
      cases hr
      refine ⟨?_, ?_, ?_, ?_, h.rate, h.bal⟩
      · exact h.mem.of_eq rfl rfl rfl rfl (fun _ x => x)
      · exact h.ch.of_eq le_rfl rfl rfl rfl rfl (fun _ x => x) (fun _ => rfl)
      · exact h.lv.of_eq le_rfl rfl rfl rfl rfl (fun _ _ => rfl)
      · exact h.tr.of_eq rfl (fun _ => rfl)
  | kick p st =>
    have hs := kick_same y.w.s y.now p st
    refine ⟨h.mem.kick _ _ _, hs.ch h.ch (lastOrder_kick _ _ _ _), hs.lv h.lv (lastAnnounce_kick _ _ _ _), h.tr.kick _ _ _, ?_, ?_⟩
    · intro a x
      show (y.w.s.kick y.now p st).stakers.get? a = some x → _
      rw [hs.stakers]; exact h.rate a x
    · intro d
      show (y.w.b _).amt d = (y.w.s.kick y.now p st).totalUnclaimed d + (y.w.s.kick y.now p st).gifts.amt d
      rw [hs.total, hs.gifts]; exact h.bal d
  | incrementPoints p st =>
    simp only [Sys.step, State.incrementPoints]
    cases hv : y.w.s.vals.get? (p, st) with
    | none => exact h
    | some v =>
      have hs := setVal_same y.w.s p st { v with points := v.points + 1 }
      exact ⟨h.mem.setVal hv rfl, hs.ch h.ch (fun _ => rfl), hs.lv h.lv (fun _ _ => rfl), h.tr.of_eq rfl (has_setVal hv),
        h.rate, h.bal⟩
  | resetPoints p st =>
    simp only [Sys.step, State.resetPoints]
    cases hv : y.w.s.vals.get? (p, st) with
    | none => exact h
    | some v =>
      have hs := setVal_same y.w.s p st { v with points := 0 }
      exact ⟨h.mem.setVal hv rfl, hs.ch h.ch (fun _ => rfl), hs.lv h.lv (fun _ _ => rfl), h.tr.of_eq rfl (has_setVal hv),
        h.rate, h.bal⟩
  | increaseRewards st c =>
    simp only [Sys.step]
    cases hr : increaseRewards y.w .pool st c with
    | error e => exact h
    | ok w' =>
      rcases increase_ok hr with ⟨-, rfl⟩ | ⟨x, hx, hb, hs⟩
      · exact h
      · have := h.setStaker (st := st) (x := { x with rewards := x.rewards.add c }) (b := w'.b) (h.rate st x hx) (by
          intro d
          unfold Map.at'
          rw [hx]
          simp only [Coins.amt_add]
          have k2 := (Bank.send_ok hb).2 (.mod .stakers) d
          rw [if_neg (by simp), if_pos rfl] at k2
          omega)
        rw [← hs] at this
        exact this
  | beginBlock dt =>
    obtain ⟨-, -, h1, h2, h3, h4, h5, h6, h7⟩ := beginBlock_inv (Nat.le_add_right y.now dt) h.mem h.ch h.lv h.tr h.rate
    refine ⟨h1, h2, h3, h4, h5, ?_⟩
    intro d
    show (y.w.b _).amt d = (beginBlock y.w.s (y.now + dt)).totalUnclaimed d + (beginBlock y.w.s (y.now + dt)).gifts.amt d
    rw [h6, h7]; exact h.bal d
  | external b g =>
    refine ⟨?_, ?_, ?_, ?_, h.rate, ?_⟩
    · exact h.mem.of_eq rfl rfl rfl rfl (fun _ x => x)
    · exact h.ch.of_eq le_rfl rfl rfl rfl rfl (fun _ x => x) (fun _ => rfl)
    · exact h.lv.of_eq le_rfl rfl rfl rfl rfl (fun _ _ => rfl)
    · exact h.tr.of_eq rfl (fun _ => rfl)
    · intro d
      have := h.bal d
      show ((if Acct.mod .stakers = .mod .stakers then (y.w.b (.mod .stakers)).add g else b (.mod .stakers)) : Coins).amt d
        = y.w.s.totalUnclaimed d + (y.w.s.gifts.add g).amt d
      rw [if_pos rfl, Coins.amt_add, Coins.amt_add]; omega

theorem Inv.init (p : Params) (b : Bank) (now : Nat) : Inv (Sys.init p b now) := by
  refine ⟨⟨fun _ _ => rfl, fun _ => rfl, fun _ => rfl, ?_, ?_, ?_, ?_, ?_⟩, ⟨?_, ?_, ?_, ?_, ?_, ?_, le_rfl, fun _ => rfl⟩,
    ⟨?_, ?_, ?_, ?_, le_rfl, fun _ _ => rfl⟩, ⟨trivial, fun _ _ => rfl⟩, ?_, ?_⟩
  · intro p st v h; cases h
  · intro p st v h; cases h
  · intro p st st' v v' h; cases h
  · intro p p' st v v' h; cases h
  · intro p; exact Nat.zero_le _
  · intro st i
    constructor
    · intro h; cases h
    · rintro ⟨e, h, -⟩; cases h
  · intro i e h; cases h
  · intro i j e e' h; cases h
  · intro i e h; cases h
  · intro i e h; cases h
  · intro i e h; cases h
  · intro st p i
    constructor
    · intro h; cases h
    · rintro ⟨e, h, -⟩; cases h
  · intro i e h; cases h
  · intro i j e e' h; cases h
  · intro i e h; cases h
  · intro st x h; cases h
  · intro d
    show ((if Acct.mod .stakers = .mod .stakers then Coins.zero else b (.mod .stakers)) : Coins).amt d = 0 + Coins.zero.amt d
    rw [if_pos rfl]; rfl

theorem Sys.run_snoc (gov : Addr) (y : Sys) (ops : List Op) (o : Op) :
    Sys.run gov y (ops ++ [o]) = Sys.step gov (Sys.run gov y ops) o := by
  unfold Sys.run; rw [List.foldl_append]; rfl

theorem Reachable.inv {gov : Addr} {y : Sys} (h : Reachable gov y) : Inv y := by
  obtain ⟨p, b, now, ops, hok, rfl⟩ := h
  induction ops using List.reverseRecOn with
  | nil => exact Inv.init p b now
  | append_singleton ops o ih =>
    rw [Sys.run_snoc]
    exact (ih (fun x hx => hok x (by simp [hx]))).step gov o (hok o (by simp))

theorem Reachable.step {gov : Addr} {y : Sys} (h : Reachable gov y) (o : Op) (ho : o.ok) : Reachable gov (Sys.step gov y o) := by
  obtain ⟨p, b, now, ops, hok, rfl⟩ := h
  refine ⟨p, b, now, ops ++ [o], ?_, (Sys.run_snoc _ _ _ _).symm⟩
  intro x hx
  rcases List.mem_append.1 hx with hx | hx
  · exact hok x hx
  · rw [List.mem_singleton.1 hx]; exact ho

end Verif.Stakers
