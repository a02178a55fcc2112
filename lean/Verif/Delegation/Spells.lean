import Verif.Delegation.Queue

/-!
# Redelegation spells (proofs)
-/

namespace Verif.Delegation
open Verif

/-- Histories in which the redelegation cooldown is never raised, and cooldown and block times fit into `int64`. -/
inductive Sys.Cool (gov : Addr) : Sys → Prop
  | init (p : Params) (b : Bank) (now : Nat) : p.validate = true → p.cooldown < 2 ^ 63 → now < 2 ^ 63 →
      Cool gov (Sys.init p b now)
  | step {y : Sys} (a : Act) : Cool gov y → Calm (y.step gov a).w.s →
      (y.step gov a).w.s.params.cooldown ≤ y.w.s.params.cooldown → (y.step gov a).now < 2 ^ 63 →
      Cool gov (y.step gov a)

theorem Sys.Cool.reachable {gov : Addr} {y : Sys} (h : Sys.Cool gov y) : Sys.Reachable gov y := by
  induction h with
  | init p b now hp _ _ => exact .init p b now hp
  | step a _ hc _ _ ih => exact .step a ih hc

theorem Sys.Cool.small {gov : Addr} {y : Sys} (h : Sys.Cool gov y) :
    y.w.s.params.cooldown < 2 ^ 63 ∧ y.now < 2 ^ 63 := by
  induction h with
  | init p b now hp h1 h2 => exact ⟨h1, h2⟩
  | step a _ hc h1 h2 ih => exact ⟨lt_of_le_of_lt h1 ih.1, h2⟩

theorem spellsOf_eq (s : State) (who : Addr) :
    ∀ t, t ∈ s.spellsOf who ↔ s.spells.get? (who, t) = some () := by
  intro t
  unfold State.spellsOf
  rw [List.mem_map]
  constructor
  · rintro ⟨k, hk, rfl⟩
    rw [List.mem_filter] at hk
    obtain ⟨v, hv⟩ := (Map.mem_keys_iff _ _).1 hk.1
    have : k.1 = who := by simpa using hk.2
    rw [← this]; exact hv
  · intro h
    exact ⟨(who, t), List.mem_filter.2 ⟨(Map.mem_keys_iff _ _).2 ⟨(), h⟩, by simp⟩, rfl⟩

theorem spellsOf_sorted (s : State) (who : Addr) : (s.spellsOf who).Pairwise (· < ·) := by
  unfold State.spellsOf
  rw [List.pairwise_map]
  have h0 : s.spells.keys.Pairwise (fun a b => KeyOrd.lt a b = true) := by
    unfold Map.keys
    rw [List.pairwise_map]
    exact s.spells.sorted
  have h1 := h0.filter (fun k => k.1 == who)
  refine List.Pairwise.imp_of_mem ?_ h1
  intro a b ha hb hab
  have ea : a.1 = who := by simpa using (List.mem_filter.1 ha).2
  have eb : b.1 = who := by simpa using (List.mem_filter.1 hb).2
  have e : a.1 = b.1 := by rw [ea, eb]
  simp only [KeyOrd.lt, Bool.or_eq_true, Bool.and_eq_true, decide_eq_true_eq] at hab
  rcases hab with h | h
  · exfalso; rw [e] at h; simp at h
  · exact h.2

theorem get?_dropExpired (l : List Nat) (m : Map (Addr × Nat) Unit) (over : Nat → Bool) (who : Addr) (k : Addr × Nat) :
    (dropExpired m over who l).get? k = if k.1 = who ∧ k.2 ∈ l.takeWhile over then none else m.get? k := by
  induction l generalizing m with
  | nil => simp [dropExpired]
  | cons t l ih =>
    unfold dropExpired
    rw [List.takeWhile_cons]
    by_cases ho : over t = true
    · rw [if_pos ho, ih, if_pos ho, Map.get?_del]
      by_cases h1 : k.1 = who ∧ k.2 ∈ l.takeWhile over
      · rw [if_pos h1, if_pos ⟨h1.1, List.mem_cons_of_mem _ h1.2⟩]
      · rw [if_neg h1]
        by_cases h2 : k = (who, t)
        · rw [if_pos h2, if_pos]
          subst h2; simp
        · rw [if_neg h2, if_neg]
          rintro ⟨h3, h4⟩
          rcases List.mem_cons.1 h4 with h5 | h5
          · exact h2 (Prod.ext h3 h5)
          · exact h1 ⟨h3, h5⟩
    · rw [if_neg ho, if_neg ho]; simp

/-- is the entry created at `t` still on cooldown at `now`? -/
theorem expired_iff {s : State} {now t : Nat} (hc : s.params.cooldown < 2 ^ 63) (ht : t < 2 ^ 63) :
    expired s now t = true ↔ t + s.params.cooldown < now := by
  unfold expired i64
  rw [if_pos hc, if_pos ht]
  simp only [decide_eq_true_eq]
  omega

/-- After the clean-up exactly the entries on cooldown are left. -/
theorem cleanSpells_get {s : State} {now : Nat} (who : Addr) (hc : s.params.cooldown < 2 ^ 63)
    (ht : ∀ t, s.spells.get? (who, t) = some () → t < 2 ^ 63) (k : Addr × Nat) :
    (cleanSpells s now who).spells.get? k
      = if k.1 = who ∧ k.2 + s.params.cooldown < now then none else s.spells.get? k := by
  show (dropExpired s.spells (expired s now) who (s.spellsOf who)).get? k = _
  rw [get?_dropExpired]
  have hsort := spellsOf_sorted s who
  have hmem := spellsOf_eq s who
  have htw : ∀ t, t ∈ (s.spellsOf who).takeWhile (expired s now) ↔ t ∈ s.spellsOf who ∧ t + s.params.cooldown < now := by
    have hl : ∀ t ∈ s.spellsOf who, t < 2 ^ 63 := fun t h => ht t ((hmem t).1 h)
    generalize s.spellsOf who = l at hsort hl
    clear hmem
    induction l with
    | nil => intro t; simp
    | cons x l ih =>
      obtain ⟨h1, h2⟩ := List.pairwise_cons.1 hsort
      intro t
      rw [List.takeWhile_cons]
      have hx := expired_iff (now := now) hc (hl x (by simp))
      by_cases he : expired s now x = true
      · rw [if_pos he, List.mem_cons, List.mem_cons, ih h2 (fun t h => hl t (List.mem_cons_of_mem _ h))]
        constructor
        · rintro (e | ⟨e1, e2⟩)
          · subst e; exact ⟨Or.inl rfl, hx.1 he⟩
          · exact ⟨Or.inr e1, e2⟩
        · rintro ⟨e | e, e2⟩
          · exact Or.inl e
          · exact Or.inr ⟨e, e2⟩
      · rw [if_neg he]
        have hx' : ¬ x + s.params.cooldown < now := fun h => he (hx.2 h)
        simp only [List.not_mem_nil, List.mem_cons, false_iff]
        rintro ⟨e | e, e2⟩
        · subst e; exact hx' e2
        · have := h1 t e; omega
  by_cases hk : k.1 = who
  · by_cases h2 : k.2 + s.params.cooldown < now
    · have e2 : (if k.1 = who ∧ k.2 + s.params.cooldown < now then none else s.spells.get? k) = none := if_pos ⟨hk, h2⟩
      rw [e2]
      by_cases h3 : k.2 ∈ s.spellsOf who
      · exact if_pos ⟨hk, (htw _).2 ⟨h3, h2⟩⟩
      · rw [if_neg (fun h => h3 ((htw _).1 h.2).1)]
        have := mt (hmem k.2).2 h3
        cases hh : s.spells.get? k with
        | none => rfl
        | some u =>
          exfalso; apply this
          rw [← hk]; exact hh
    · rw [if_neg (fun h => h2 ((htw _).1 h.2).2), if_neg (fun h => h2 h.2)]
  · rw [if_neg (fun h => hk h.1), if_neg (fun h => hk h.1)]

/-- The spell entries against the recorded redelegations. -/
structure SInv (s : State) (now : Nat) : Prop where
  sub : ∀ who t, s.spells.get? (who, t) = some () → t ∈ redelegations who s.trace
  keep : ∀ who t, t ∈ redelegations who s.trace → now ≤ t + s.params.cooldown → s.spells.get? (who, t) = some ()
  past : ∀ who t, t ∈ redelegations who s.trace → t ≤ now
  desc : ∀ who, (redelegations who s.trace).Pairwise (· > ·)

theorem SInv.of_eq {s s' : State} {now now' : Nat} (h : SInv s now) (hn : now ≤ now') (hs : s'.spells = s.spells)
    (hr : ∀ who, redelegations who s'.trace = redelegations who s.trace)
    (hc : s'.params.cooldown ≤ s.params.cooldown) : SInv s' now' := by
  refine ⟨?_, ?_, ?_, ?_⟩
  · intro who t; rw [hs, hr]; exact h.sub who t
  · intro who t; rw [hs, hr]; intro h1 h2; exact h.keep who t h1 (by omega)
  · intro who t; rw [hr]; intro h1; exact le_trans (h.past who t h1) hn
  · intro who; rw [hr]; exact h.desc who

theorem consumeSpell_spec {s s' : State} {now : Nat} {who : Addr} (h : consumeSpell s now who = .ok s') :
    s'.spells = (cleanSpells s now who).spells.set (who, now) () ∧
    ((cleanSpells s now who).spellsOf who).length < s.params.maxSpells ∧
    ((cleanSpells s now who).spellsOf who).getLast? ≠ some now := by
  unfold consumeSpell takeSpell at h
  split at h
  · cases h
  · rename_i h1
    split at h
    · cases h
    · rename_i h2
      injection h with h
      refine ⟨by rw [← h], ?_, h2⟩
      have : (cleanSpells s now who).params = s.params := rfl
      rw [this] at h1
      omega

theorem getLast?_max {l : List Nat} (hs : l.Pairwise (· < ·)) {x : Nat} (hx : x ∈ l) (hmax : ∀ t ∈ l, t ≤ x) :
    l.getLast? = some x := by
  induction l with
  | nil => cases hx
  | cons a l ih =>
    obtain ⟨h1, h2⟩ := List.pairwise_cons.1 hs
    cases l with
    | nil => simp at hx; subst hx; rfl
    | cons b t =>
      rw [List.getLast?_cons_cons]
      apply ih h2
      · rcases List.mem_cons.1 hx with e | e
        · exfalso
          have := h1 b (by simp)
          have := hmax b (by simp)
          omega
        · exact e
      · intro t ht; exact hmax t (List.mem_cons_of_mem _ ht)

theorem SInv.redelegate {w w' : World} {now : Nat} (h : SInv w.s now) (hc : w.s.params.cooldown < 2 ^ 63)
    (hn : now < 2 ^ 63) {ex ac : Bool} {m : RedelegateMsg} (hok : redelegateMsg w now ex ac m = .ok w') :
    SInv w'.s now ∧
    ((redelegations m.creator w'.s.trace).filter (fun t => decide (now ≤ t + w.s.params.cooldown))).length
      ≤ w.s.params.maxSpells ∧
    (∀ who, redelegations who w'.s.trace
      = if m.creator = who then now :: redelegations who w.s.trace else redelegations who w.s.trace) ∧
    now ∉ redelegations m.creator w.s.trace := by
  obtain ⟨s, hs, hs', _, _, _, _, _, e, _⟩ := redelegateMsg_ok hok
  obtain ⟨h1, h2, h3⟩ := consumeSpell_spec hs
  have hsmall : ∀ t, w.s.spells.get? (m.creator, t) = some () → t < 2 ^ 63 := by
    intro t ht
    have := h.past _ t (h.sub _ t ht)
    omega
  have hclean := cleanSpells_get (s := w.s) (now := now) m.creator hc hsmall
  have htr : ∀ who, redelegations who w'.s.trace
      = if m.creator = who then now :: redelegations who w.s.trace else redelegations who w.s.trace := by
    intro who
    rw [e]
    have : redelegations who s.trace = redelegations who w.s.trace := by rw [hs']
    rw [← this]
    rfl
  have hsp : w'.s.spells = (cleanSpells w.s now m.creator).spells.set (m.creator, now) () := by
    rw [e]; exact h1
  have hpar : w'.s.params = w.s.params := by
    rw [e]
    show s.params = _
    rw [hs']
  have hnot : now ∉ redelegations m.creator w.s.trace := by
    intro hm
    have hin := h.keep m.creator now hm (by omega)
    apply h3
    apply getLast?_max (spellsOf_sorted _ _)
    · rw [spellsOf_eq, hclean, if_neg (by simp)]; exact hin
    · intro t ht
      rw [spellsOf_eq, hclean] at ht
      split at ht
      · cases ht
      · exact h.past _ t (h.sub _ t ht)
  have hkeep : ∀ who t, t ∈ redelegations who w'.s.trace → now ≤ t + w.s.params.cooldown →
      w'.s.spells.get? (who, t) = some () := by
    intro who t
    rw [htr, hsp, Map.get?_set]
    intro h4 h5
    split
    · rfl
    · rename_i hne
      have h6 : t ∈ redelegations who w.s.trace := by
        split at h4
        · rename_i hw
          rcases List.mem_cons.1 h4 with h7 | h7
          · exfalso; apply hne; rw [hw, h7]
          · exact h7
        · exact h4
      rw [hclean, if_neg (by simp only; omega)]
      exact h.keep who t h6 h5
  have hinv : SInv w'.s now := by
    refine ⟨?_, ?_, ?_, ?_⟩
    · intro who t
      rw [hsp, Map.get?_set, htr]
      intro h4
      split at h4
      · rename_i hk
        cases hk
        simp
      · rw [hclean] at h4
        split at h4
        · cases h4
        · have := h.sub who t h4
          split
          · exact List.mem_cons_of_mem _ this
          · exact this
    · rw [hpar]; exact hkeep
    · intro who t
      rw [htr]
      intro h4
      split at h4
      · rcases List.mem_cons.1 h4 with h7 | h7
        · omega
        · exact h.past who t h7
      · exact h.past who t h4
    · intro who
      rw [htr]
      split
      · rename_i hw
        subst hw
        rw [List.pairwise_cons]
        refine ⟨?_, h.desc _⟩
        intro t ht
        have h4 := h.past _ t ht
        have : t ≠ now := by rintro rfl; exact hnot ht
        omega
      · exact h.desc who
  refine ⟨hinv, ?_, htr, hnot⟩
  have hnd : ((redelegations m.creator w'.s.trace).filter (fun t => decide (now ≤ t + w.s.params.cooldown))).Nodup := by
    apply List.Nodup.filter
    exact (hinv.desc m.creator).imp (fun h => Nat.ne_of_gt h)
  have hsub : ((redelegations m.creator w'.s.trace).filter (fun t => decide (now ≤ t + w.s.params.cooldown)))
      ⊆ now :: (cleanSpells w.s now m.creator).spellsOf m.creator := by
    intro t ht
    rw [List.mem_filter] at ht
    have h4 := hkeep m.creator t ht.1 (by simpa using ht.2)
    rw [hsp, Map.get?_set] at h4
    split at h4
    · rename_i hk; cases hk; simp
    · rw [List.mem_cons]; right
      rw [spellsOf_eq]; exact h4
  have := (List.subperm_of_subset hnd hsub).length_le
  simp only [List.length_cons] at this
  omega

theorem SInv.orElse {w : World} {now : Nat} (h : SInv w.s now) (r : Except String World)
    (hr : ∀ w', r = .ok w' → SInv w'.s now) : SInv (Delegation.orElse w r).s now := by
  cases r with
  | error e => exact h
  | ok w' => exact hr w' rfl

theorem Sys.Cool.sinv {gov : Addr} {y : Sys} (h : Sys.Cool gov y) : SInv y.w.s y.now := by
  induction h with
  | init p b now hp h1 h2 =>
    refine ⟨?_, ?_, ?_, ?_⟩
    · intro who t h; simp [Sys.init] at h
    · intro who t h; cases h
    · intro who t h; cases h
    · intro who; exact List.Pairwise.nil
  | @step y a hy hc hcool hnow ih =>
    have hq := hy.reachable.qinv
    obtain ⟨hs1, hs2⟩ := hy.small
    cases a with
    | delegate ex c st n =>
      refine ih.orElse _ (fun w' h => ?_)
      rw [delegateMsg_s h]
      exact ih.of_eq (le_refl _) rfl (fun _ => rfl) (le_refl _)
    | redelegate ex ac m => exact ih.orElse _ (fun w' h => (ih.redelegate hs1 hs2 h).1)
    | undelegate c st n =>
      refine ih.orElse _ (fun w' h => ?_)
      rw [(undelegateMsg_ok h).1]
      exact ih.of_eq (le_refl _) rfl (fun _ => rfl) (le_refl _)
    | withdraw c st =>
      refine ih.orElse _ (fun w' h => ?_)
      rw [withdrawMsg_s h]
      exact ih.of_eq (le_refl _) rfl (fun _ => rfl) (le_refl _)
    | updateParams a p =>
      have key : ∀ r : Except String World, (Delegation.orElse y.w r).s.params.cooldown ≤ y.w.s.params.cooldown →
          (∀ w', r = .ok w' → w' = ⟨{ y.w.s with params := p.apply y.w.s.params }, y.w.b⟩) →
          SInv (Delegation.orElse y.w r).s y.now := by
        intro r h1 h2
        cases r with
        | error e => exact ih
        | ok w' =>
          have := h2 w' rfl
          subst this
          exact ih.of_eq (le_refl _) rfl (fun _ => rfl) h1
      exact key _ hcool (fun w' h => (updateParams_s h).1)
    | payout st c =>
      refine ih.orElse _ (fun w' h => ?_)
      rcases payoutRewards_s h with e | e
      · rw [e]; exact ih
      · rw [e]; exact ih.of_eq (le_refl _) rfl (fun _ => rfl) (le_refl _)
    | slash st t =>
      show SInv (slashDelegators y.w st t).s y.now
      unfold slashDelegators
      split
      · exact ih
      · exact ih.of_eq (le_refl _) rfl (fun _ => rfl) (le_refl _)
    | beginBlock dt r =>
      have h1 := (hq.pre r).inv
      obtain ⟨_, i2, _, i4, i5, _⟩ := queueLoop_spec (t := y.now + dt) _ h1
        (Nat.le_add_left _ ((preQueue y.w r).s.high - (preQueue y.w r).s.low))
      obtain ⟨_, _, _, e4, e5, e6⟩ := preQueue_eq y.w r
      refine ih.of_eq (Nat.le_add_right _ _) (i4.trans e6) (fun who => (i5 who).trans (by rw [e4])) ?_
      exact le_of_eq (congrArg Params.cooldown (i2.trans e5))
    | external b g => exact ih.of_eq (le_refl _) rfl (fun _ => rfl) (le_refl _)

end Verif.Delegation
