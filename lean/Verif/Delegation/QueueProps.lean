import Verif.Delegation.Properties

/-!
# Properties of the unbonding queue and the redelegation spells (C08, C09)
-/

namespace Verif.Delegation
open Verif

/-! ## The amounts paid -/

/-- Every recorded payment directly follows the undelegation of its entry, and the amount paid is the smaller of the
requested amount and what the delegator owned just before. -/
def PaidOk : List Event → Prop
  | [] => True
  | .paid _ e a _ :: l => PaidOk l ∧ ∃ l', l = .f1 e.staker (.undelegate e.delegator e.amount) :: l' ∧
      a = min e.amount (curDel (ledgerOf l' e.staker).f1 e.delegator)
  | .f1 _ _ :: l => PaidOk l
  | .request _ _ :: l => PaidOk l
  | .redelegated _ _ :: l => PaidOk l

theorem PaidOk.pay {w : World} (h : WInv w) (hp : PaidOk w.s.trace) (t i : Nat) (e : QEntry) :
    PaidOk (payEntry w t i e).s.trace := by
  refine ⟨hp, w.s.trace, rfl, ?_⟩
  show undelegated _ _ _ = _
  rw [undelegated_eq (h.tied.f1inv e.staker), h.tied.at_eq]

theorem PaidOk.loop (fuel t : Nat) {w : World} (h : WInv w) (hp : PaidOk w.s.trace) : PaidOk (queueLoop t fuel w).s.trace := by
  induction fuel generalizing w with
  | zero => exact hp
  | succ n ih =>
    unfold queueLoop
    split
    · exact hp
    · rename_i w' hr
      refine ih (h.queueRound hr) ?_
      unfold queueRound at hr
      split at hr
      · split at hr
        · injection hr with hr; rw [← hr]; exact hp
        · cases hr
      · split at hr
        · injection hr with hr; rw [← hr]; exact hp.pay h _ _ _
        · cases hr

theorem PaidOk.orElse {w : World} (h : PaidOk w.s.trace) (r : Except String World)
    (hr : ∀ w', r = .ok w' → PaidOk w'.s.trace) : PaidOk (orElse w r).s.trace := by
  cases r with
  | error e => exact h
  | ok w' => exact hr w' rfl

theorem Sys.Reachable.paidOk {gov : Addr} {y : Sys} (h : Sys.Reachable gov y) : PaidOk y.w.s.trace := by
  induction h with
  | init p b now hp => trivial
  | @step y a hy hc ih =>
    have hw := hy.winv
    cases a with
    | delegate ex c st n =>
      refine ih.orElse _ (fun w' h => ?_)
      rw [delegateMsg_s h]; exact ih
    | redelegate ex ac m =>
      refine ih.orElse _ (fun w' h => ?_)
      obtain ⟨s, _, hs, _, _, _, _, _, e, _⟩ := redelegateMsg_ok h
      rw [e]
      show PaidOk s.trace
      rw [hs]; exact ih
    | undelegate c st n =>
      refine ih.orElse _ (fun w' h => ?_)
      rw [(undelegateMsg_ok h).1]; exact ih
    | withdraw c st =>
      refine ih.orElse _ (fun w' h => ?_)
      rw [withdrawMsg_s h]; exact ih
    | updateParams a p =>
      refine ih.orElse _ (fun w' h => ?_)
      rw [(updateParams_s h).1]; exact ih
    | payout st c =>
      refine ih.orElse _ (fun w' h => ?_)
      rcases payoutRewards_s h with e | e
      · rw [e]; exact ih
      · rw [e]; exact ih
    | slash st t =>
      show PaidOk (slashDelegators y.w st t).s.trace
      unfold slashDelegators
      split
      · exact ih
      · exact ih
    | beginBlock dt r =>
      show PaidOk (Delegation.beginBlock y.w (y.now + dt) r).s.trace
      rw [beginBlock_eq]
      have h1 : WInv (preQueue y.w r) := by
        unfold preQueue; split
        · exact hw.initMem
        · exact hw
      refine PaidOk.loop _ _ h1 ?_
      rw [(preQueue_eq y.w r).2.2.2.1]; exact ih
    | external b g => exact ih

theorem PaidOk.split {post pre : List Event} {i a t : Nat} {e : QEntry}
    (h : PaidOk (post ++ .paid i e a t :: pre)) :
    ∃ pre', pre = .f1 e.staker (.undelegate e.delegator e.amount) :: pre' ∧
      a = min e.amount (curDel (ledgerOf pre' e.staker).f1 e.delegator) := by
  induction post with
  | nil => exact h.2
  | cons x l ih =>
    apply ih
    cases x with
    | paid _ _ _ _ => exact h.1
    | f1 _ _ => exact h
    | request _ _ => exact h
    | redelegated _ _ => exact h

/-! ## C08 -/

/-- **C08 (exactly once, in order).** In every history the unbonding payments made so far, followed by the entries
still waiting in the queue, are exactly the unbonding requests in the order they were made. -/
theorem C08_once_in_order {gov : Addr} {y : Sys} (h : Sys.Reachable gov y) :
    requests y.w.s.trace = paids y.w.s.trace ++ y.w.s.queue.toList := h.qinv.inv.log

/-- **C08 (never early, never waiting).** A new block pays exactly the waiting requests whose unbonding time has passed
and keeps exactly the others, as long as block time plus unbonding time fits into 64 bits. -/
theorem C08_block {gov : Addr} {y : Sys} (h : Sys.Reachable gov y) (dt : Nat) (r : Bool)
    (ho : y.now + dt + y.w.s.params.unbonding < 2 ^ 64) :
    paids (y.step gov (.beginBlock dt r)).w.s.trace = paids y.w.s.trace ++
      y.w.s.queue.toList.filter (fun p => decide (p.2.creation + y.w.s.params.unbonding ≤ y.now + dt)) ∧
    (y.step gov (.beginBlock dt r)).w.s.queue.toList =
      y.w.s.queue.toList.filter (fun p => decide (y.now + dt < p.2.creation + y.w.s.params.unbonding)) := by
  have h1 : QInv' (preQueue y.w r).s (y.now + dt) := (h.qinv.pre r).of_eq (Nat.le_add_right _ _) rfl rfl rfl rfl rfl
  obtain ⟨e1, _, _, e4, e5, _⟩ := preQueue_eq y.w r
  have hs := queueLoop_spec (now := y.now + dt) (t := y.now + dt) _ h1.inv
    (Nat.le_add_left (preQueue y.w r).s.queue.size ((preQueue y.w r).s.high - (preQueue y.w r).s.low))
  obtain ⟨_, _, _, _, _, _, hq, hp, _⟩ := hs
  have htw := takeWhile_due h1.inv (le_refl _) (by rw [e5]; exact ho)
  have hq' : (y.step gov (.beginBlock dt r)).w.s.queue.toList = _ := hq
  have hp' : paids (y.step gov (.beginBlock dt r)).w.s.trace = _ := hp
  rw [htw.2, e1, e5] at hq'
  rw [htw.1, e1, e4, e5] at hp'
  exact ⟨hp', hq'⟩

/-- **C08 (never early, never waiting), for every history.** A message never pays an unbonding request. -/
theorem C08_only_blocks {gov : Addr} (y : Sys) (a : Act) (ha : ∀ dt r, a ≠ .beginBlock dt r) :
    paids (y.step gov a).w.s.trace = paids y.w.s.trace := by
  have key : ∀ (w : World) (r : Except String World), (∀ w', r = .ok w' → paids w'.s.trace = paids w.s.trace) →
      paids (orElse w r).s.trace = paids w.s.trace := by
    intro w r hr
    cases r with
    | error e => rfl
    | ok w' => exact hr w' rfl
  cases a with
  | delegate ex c st n => exact key _ _ (fun w' h => by rw [delegateMsg_s h]; rfl)
  | redelegate ex ac m =>
    refine key _ _ (fun w' h => ?_)
    obtain ⟨s, _, hs, _, _, _, _, _, e, _⟩ := redelegateMsg_ok h
    rw [e]
    show paids s.trace = _
    rw [hs]
  | undelegate c st n => exact key _ _ (fun w' h => by rw [(undelegateMsg_ok h).1]; rfl)
  | withdraw c st => exact key _ _ (fun w' h => by rw [withdrawMsg_s h]; rfl)
  | updateParams a p => exact key _ _ (fun w' h => by rw [(updateParams_s h).1])
  | payout st c =>
    refine key _ _ (fun w' h => ?_)
    rcases payoutRewards_s h with e | e
    · rw [e]
    · rw [e]; rfl
  | slash st t =>
    show paids (slashDelegators y.w st t).s.trace = _
    unfold slashDelegators
    split <;> rfl
  | beginBlock dt r => exact absurd rfl (ha dt r)
  | external b g => rfl

/-- **C08 (never too much).** Every payment ever recorded is the smaller of the requested amount and what the delegator
owned, in the bookkeeping of C05, right before it. -/
theorem C08_amount {gov : Addr} {y : Sys} (h : Sys.Reachable gov y) (post pre : List Event) (i a t : Nat) (e : QEntry)
    (ht : y.w.s.trace = post ++ .paid i e a t :: pre) :
    a ≤ e.amount ∧ ∃ pre', pre = .f1 e.staker (.undelegate e.delegator e.amount) :: pre' ∧
      a = min e.amount (curDel (ledgerOf pre' e.staker).f1 e.delegator) := by
  have := h.paidOk
  rw [ht] at this
  obtain ⟨pre', h1, h2⟩ := this.split
  exact ⟨by omega, pre', h1, h2⟩

/-! ## C09 -/

/-- **C09.** Whenever a redelegation succeeds at time `now`, the delegator has, including this one, at most the allowed
number of redelegations with times `t` such that `now ≤ t + cooldown`, it had none at this block time before, and none
at a later one (histories in which the cooldown is never raised). -/
theorem C09_window {gov : Addr} {y : Sys} (h : Sys.Cool gov y) {ex ac : Bool} {m : RedelegateMsg} {w' : World}
    (hok : redelegateMsg y.w y.now ex ac m = .ok w') :
    redelegations m.creator w'.s.trace = y.now :: redelegations m.creator y.w.s.trace ∧
    ((redelegations m.creator w'.s.trace).filter (fun t => decide (y.now ≤ t + y.w.s.params.cooldown))).length
      ≤ y.w.s.params.maxSpells ∧
    (∀ t ∈ redelegations m.creator y.w.s.trace, t < y.now) := by
  have hs := h.sinv
  have hc := h.small
  obtain ⟨h1, h2, h3, h4⟩ := hs.redelegate hc.1 hc.2 hok
  refine ⟨?_, h2, ?_⟩
  · rw [h3, if_pos rfl]
  · intro t ht
    have := hs.past m.creator t ht
    rcases Nat.lt_or_ge t y.now with hlt | hge
    · exact hlt
    · have : t = y.now := by omega
      subst this; exact absurd ht h4

theorem count_window (l : List Nat) (hd : l.Pairwise (· > ·)) (c k : Nat)
    (h : ∀ i (hi : i < l.length), ((l.drop i).filter (fun t => decide (l[i] ≤ t + c))).length ≤ k) (s : Nat) :
    (l.filter (fun t => decide (s ≤ t ∧ t ≤ s + c))).length ≤ k := by
  induction l with
  | nil => simp
  | cons a l ih =>
    obtain ⟨hp1, hp2⟩ := List.pairwise_cons.1 hd
    by_cases ha : s ≤ a ∧ a ≤ s + c
    · have h0 := h 0 (by simp)
      simp only [List.drop_zero, List.getElem_cons_zero] at h0
      refine le_trans (List.Sublist.length_le ?_) h0
      refine List.monotone_filter_right _ ?_
      intro t ht
      simp only [decide_eq_true_eq] at ht ⊢
      omega
    · rw [List.filter_cons_of_neg (by simpa using ha)]
      apply ih hp2
      intro i hi
      have := h (i + 1) (by simpa using hi)
      simpa using this

/-- the bound at every point of the recorded history -/
def WindowOk (k c : Nat) (l : List Nat) : Prop :=
  ∀ i (hi : i < l.length), ((l.drop i).filter (fun t => decide (l[i] ≤ t + c))).length ≤ k

theorem WindowOk.cons {k c a : Nat} {l : List Nat} (h : WindowOk k c l)
    (ha : ((a :: l).filter (fun t => decide (a ≤ t + c))).length ≤ k) : WindowOk k c (a :: l) := by
  intro i hi
  cases i with
  | zero => simpa using ha
  | succ i => simpa using h i (by simpa using hi)

/-- Histories in which the cooldown and the number of spells stay as they were at the start. -/
inductive Sys.Steady (gov : Addr) (c k : Nat) : Sys → Prop
  | init (p : Params) (b : Bank) (now : Nat) : p.validate = true → p.cooldown = c → p.maxSpells = k → c < 2 ^ 63 →
      now < 2 ^ 63 → Steady gov c k (Sys.init p b now)
  | step {y : Sys} (a : Act) : Steady gov c k y → Calm (y.step gov a).w.s →
      (y.step gov a).w.s.params.cooldown = c → (y.step gov a).w.s.params.maxSpells = k → (y.step gov a).now < 2 ^ 63 →
      Steady gov c k (y.step gov a)

theorem Sys.Steady.params {gov : Addr} {c k : Nat} {y : Sys} (h : Sys.Steady gov c k y) :
    y.w.s.params.cooldown = c ∧ y.w.s.params.maxSpells = k := by
  cases h with
  | init p b now hp h1 h2 _ _ => exact ⟨h1, h2⟩
  | step a _ _ h1 h2 _ => exact ⟨h1, h2⟩

theorem Sys.Steady.cool {gov : Addr} {c k : Nat} {y : Sys} (h : Sys.Steady gov c k y) : Sys.Cool gov y := by
  induction h with
  | init p b now hp h1 h2 h3 h4 => exact .init p b now hp (by omega) h4
  | step a hy hc h1 h2 h3 ih => exact .step a ih hc (by rw [h1, hy.params.1]) h3

/-- only a successful redelegation is recorded as one -/
theorem redelegations_step {gov : Addr} {y : Sys} (hy : Sys.Cool gov y) (a : Act) (who : Addr) :
    redelegations who (y.step gov a).w.s.trace = redelegations who y.w.s.trace ∨
    ∃ ex ac m w', m.creator = who ∧ redelegateMsg y.w y.now ex ac m = .ok w' ∧ (y.step gov a).w = w' := by
  have key : ∀ (r : Except String World),
      (∀ w', r = .ok w' → redelegations who w'.s.trace = redelegations who y.w.s.trace) →
      redelegations who (orElse y.w r).s.trace = redelegations who y.w.s.trace := by
    intro r hr
    cases r with
    | error e => rfl
    | ok w' => exact hr w' rfl
  cases a with
  | delegate ex c st n => exact Or.inl (key _ (fun w' h => by rw [delegateMsg_s h]; rfl))
  | redelegate ex ac m =>
    cases hr : redelegateMsg y.w y.now ex ac m with
    | error e => left; show redelegations who (orElse y.w (redelegateMsg y.w y.now ex ac m)).s.trace = _; rw [hr]; rfl
    | ok w' =>
      have e : (y.step gov (.redelegate ex ac m)).w = w' := by
        show orElse y.w (redelegateMsg y.w y.now ex ac m) = w'; rw [hr]; rfl
      by_cases hm : m.creator = who
      · exact Or.inr ⟨ex, ac, m, w', hm, hr, e⟩
      · left
        rw [e, (hy.sinv.redelegate hy.small.1 hy.small.2 hr).2.2.1 who, if_neg hm]
  | undelegate c st n => exact Or.inl (key _ (fun w' h => by rw [(undelegateMsg_ok h).1]; rfl))
  | withdraw c st => exact Or.inl (key _ (fun w' h => by rw [withdrawMsg_s h]; rfl))
  | updateParams a p => exact Or.inl (key _ (fun w' h => by rw [(updateParams_s h).1]))
  | payout st c =>
    refine Or.inl (key _ (fun w' h => ?_))
    rcases payoutRewards_s h with e | e
    · rw [e]
    · rw [e]; rfl
  | slash st t =>
    left
    show redelegations who (slashDelegators y.w st t).s.trace = _
    unfold slashDelegators
    split <;> rfl
  | beginBlock dt r =>
    left
    have h1 : QInv' (preQueue y.w r).s (y.now + dt) :=
      (hy.reachable.qinv.pre r).of_eq (Nat.le_add_right _ _) rfl rfl rfl rfl rfl
    have hs := queueLoop_spec (now := y.now + dt) (t := y.now + dt) _ h1.inv
      (Nat.le_add_left (preQueue y.w r).s.queue.size ((preQueue y.w r).s.high - (preQueue y.w r).s.low))
    have := hs.2.2.2.2.1 who
    rw [(preQueue_eq y.w r).2.2.2.1] at this
    exact this
  | external b g => exact Or.inl rfl

theorem Sys.Steady.window {gov : Addr} {c k : Nat} {y : Sys} (h : Sys.Steady gov c k y) (who : Addr) :
    WindowOk k c (redelegations who y.w.s.trace) := by
  induction h with
  | init p b now hp _ _ _ _ => intro i hi; exact absurd hi (by simp [Sys.init, redelegations])
  | @step y a hy hc h1 h2 h3 ih =>
    rcases redelegations_step hy.cool a who with e | ⟨ex, ac, m, w', hm, hok, e⟩
    · rw [e]; exact ih
    · rw [e]
      obtain ⟨g1, g2, _⟩ := C09_window hy.cool hok
      subst hm
      rw [hy.params.1, hy.params.2] at g2
      rw [g1] at g2 ⊢
      exact ih.cons g2

/-- **C09.** With a constant cooldown `c` and a constant number `k` of spells, a delegator never has more than `k`
redelegations inside any time window `[s, s + c]`, and all its redelegations have different times. -/
theorem C09_every_window {gov : Addr} {c k : Nat} {y : Sys} (h : Sys.Steady gov c k y) (who : Addr) (s : Nat) :
    ((redelegations who y.w.s.trace).filter (fun t => decide (s ≤ t ∧ t ≤ s + c))).length ≤ k ∧
    (redelegations who y.w.s.trace).Pairwise (· > ·) := by
  have hd := h.cool.sinv.desc who
  exact ⟨count_window _ hd c k (h.window who) s, hd⟩

/-- **C09 (a free spell can be used).** A redelegation of an amount the delegator owns, to an existing active staker,
succeeds if fewer than the allowed number of its redelegations lie in the current window and none at this time. -/
theorem C09_available {gov : Addr} {y : Sys} (h : Sys.Cool gov y) (m : RedelegateMsg)
    (hdel : (y.w.s.at m.src).dels.has m.creator = true) (hamt : m.amount ≤ curDel (y.w.s.at m.src) m.creator)
    (hfree : ((redelegations m.creator y.w.s.trace).filter (fun t => decide (y.now ≤ t + y.w.s.params.cooldown))).length
      < y.w.s.params.maxSpells)
    (hnow : y.now ∉ redelegations m.creator y.w.s.trace) :
    ∃ w', redelegateMsg y.w y.now true true m = .ok w' := by
  have hs := h.sinv
  have hc := h.small
  have hsmall : ∀ t, y.w.s.spells.get? (m.creator, t) = some () → t < 2 ^ 63 := by
    intro t ht
    have := hs.past _ t (hs.sub _ t ht)
    omega
  have hclean := cleanSpells_get (s := y.w.s) (now := y.now) m.creator hc.1 hsmall
  -- the remaining entries are redelegations in the window
  have hsub : ∀ t ∈ (cleanSpells y.w.s y.now m.creator).spellsOf m.creator,
      t ∈ redelegations m.creator y.w.s.trace ∧ y.now ≤ t + y.w.s.params.cooldown := by
    intro t ht
    rw [spellsOf_eq, hclean] at ht
    split at ht
    · cases ht
    · rename_i hne
      refine ⟨hs.sub _ t ht, ?_⟩
      by_contra hlt
      exact hne ⟨rfl, by omega⟩
  have hlen : ((cleanSpells y.w.s y.now m.creator).spellsOf m.creator).length < y.w.s.params.maxSpells := by
    refine lt_of_le_of_lt ?_ hfree
    have hnd : ((cleanSpells y.w.s y.now m.creator).spellsOf m.creator).Nodup :=
      List.Pairwise.imp (fun h => Nat.ne_of_lt h) (spellsOf_sorted _ _)
    refine (List.subperm_of_subset hnd ?_).length_le
    intro t ht
    obtain ⟨h1, h2⟩ := hsub t ht
    exact List.mem_filter.2 ⟨h1, by simpa using h2⟩
  have hlast : ((cleanSpells y.w.s y.now m.creator).spellsOf m.creator).getLast? ≠ some y.now := by
    intro e
    exact hnow (hsub _ (List.mem_of_getLast? e)).1
  have hcons : ∃ s, consumeSpell y.w.s y.now m.creator = .ok s := by
    unfold consumeSpell takeSpell
    have : (cleanSpells y.w.s y.now m.creator).params = y.w.s.params := rfl
    rw [this, if_neg (by omega), if_neg hlast]
    exact ⟨_, rfl⟩
  obtain ⟨s, hs'⟩ := hcons
  have hf : s.f1 = y.w.s.f1 := by rw [consumeSpell_ok hs']
  have hat : s.at m.src = y.w.s.at m.src := by unfold State.at; rw [hf]
  have hund : undelegated (s.at m.src) m.creator m.amount = m.amount := by
    rw [hat, undelegated_eq (h.reachable.winv.tied.f1inv m.src)]
    exact Nat.min_eq_left hamt
  unfold redelegateMsg
  simp only [hdel, Bool.not_true, Bool.false_eq_true, if_false, hs']
  rw [if_neg (by omega)]
  unfold finishRedelegate
  rw [if_neg (by simpa using hund)]
  exact ⟨_, rfl⟩

end Verif.Delegation
