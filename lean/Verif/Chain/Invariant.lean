import Verif.Chain.Project
import Verif.Bundles.Lookup

/-!
# The invariant of x/bundles inside the chain
-/

set_option linter.dupNamespace false
namespace Verif

namespace Stakers

/-- a staker is never removed -/
theorem step_has {gov : Addr} {y : Sys} (h : Inv y) {op : Op} (ho : op.ok) {a : Addr}
    (ha : y.w.s.stakers.has a = true) : (Sys.step gov y op).w.s.stakers.has a = true := by
  cases op with
  | createStaker c k d =>
    show (orElseS y.w (createStaker y.w.s c k d)).s.stakers.has a = true
    unfold createStaker
    repeat' split
    all_goals first | exact ha | exact has_set_of ha
  | join ans amt m =>
    show (joinStep y.w y.now ans amt m).s.stakers.has a = true
    unfold joinStep
    cases hr : joinPool y.w y.now ans amt m with
    | error e => exact ha
    | ok w =>
      show (noteGift m y.w w).s.stakers.has a = true
      rw [(noteGift_same m y.w w).1, (join_same h.mem ho hr).1.stakers]
      exact ha
  | leave c p =>
    show (orElseS y.w (leavePool y.w.s y.now p c)).s.stakers.has a = true
    unfold leavePool State.orderLeave
    repeat' split
    all_goals exact ha
  | updateCommission c k =>
    show (orElseS y.w (updateCommission y.w.s y.now c k)).s.stakers.has a = true
    unfold updateCommission
    repeat' split
    all_goals exact ha
  | updateMetadata c i v =>
    show (orElseS y.w (updateMetadata y.w.s c i v)).s.stakers.has a = true
    unfold updateMetadata
    repeat' split
    all_goals first | exact ha | exact has_set_of ha
  | claim c x =>
    show (orElse y.w (claimRewards y.w c x)).s.stakers.has a = true
    cases hr : claimRewards y.w c x with
    | error e => exact ha
    | ok w =>
      obtain ⟨-, x, -, -, -, hs⟩ := claim_ok hr
      show w.s.stakers.has a = true
      rw [hs]; exact has_set_of ha
  | updateParams c p =>
    show (orElseS y.w (updateParams gov y.w.s c p)).s.stakers.has a = true
    unfold updateParams
    repeat' split
    all_goals exact ha
  | kick p st =>
    show (y.w.s.kick y.now p st).stakers.has a = true
    rw [(kick_same _ _ _ _).stakers]; exact ha
  | incrementPoints p st =>
    show (y.w.s.incrementPoints p st).1.stakers.has a = true
    unfold State.incrementPoints; split <;> exact ha
  | resetPoints p st =>
    show (y.w.s.resetPoints p st).stakers.has a = true
    unfold State.resetPoints; split <;> exact ha
  | increaseRewards st c =>
    show (orElse y.w (increaseRewards y.w .pool st c)).s.stakers.has a = true
    cases hr : increaseRewards y.w .pool st c with
    | error e => exact ha
    | ok w =>
      show w.s.stakers.has a = true
      rcases increase_ok hr with ⟨-, rfl⟩ | ⟨x, -, -, hs⟩
      · exact ha
      · rw [hs]; exact has_set_of ha
  | beginBlock dt =>
    show (beginBlock y.w.s (y.now + dt)).stakers.has a = true
    obtain ⟨h1, h2, -⟩ := beginBlock_inv (Nat.le_add_right y.now dt) h.mem h.ch h.lv h.tr h.rate
    rw [h2.stakers]
    have hr : y.w.s.rate a ≠ none := by
      obtain ⟨x, hx⟩ := (has_iff _ _).1 ha
      unfold State.rate; rw [hx]; simp
    have hr' : (processChanges y.w.s (y.now + dt)).rate a ≠ none := by
      rcases h1.each a with ⟨-, e⟩ | ⟨c, t, -, -, -, e⟩
      · rw [e]; exact hr
      · rw [e]; simp
    rw [has_iff]
    unfold State.rate at hr'
    cases hg : (processChanges y.w.s (y.now + dt)).stakers.get? a with
    | none => rw [hg] at hr'; exact absurd rfl hr'
    | some x => exact ⟨x, rfl⟩
  | external b g => exact ha

end Stakers

namespace Chain
open Chain
open Bundles (Proposal VoteDist FBundle Chained NoOverflow Indexed)

/-- what holds of the current proposal of every pool -/
structure PropOk (c : Chain) (id : Nat) (p : Proposal) : Prop where
  /-- nobody votes twice -/
  nodup : (voters p).Nodup
  voter : ∀ a ∈ voters p, c.st.stakers.has a = true
  next : ∀ a, p.nextUploader = some a → c.st.stakers.has a = true
  /-- no bundle, no votes -/
  empty : p.storageId = 0 → p = Proposal.blank p.nextUploader p.updatedAt
  full : p.storageId ≠ 0 → 0 < p.bundleSize ∧ ∃ u, p.uploader = some u ∧ u ∈ p.valid
  time : p.updatedAt ≤ c.now

/-- what holds of a finalized bundle -/
structure FinOk (c : Chain) (f : FBundle) : Prop where
  stored : f.storageId ≠ 0
  majority : f.totalPower < 2 * f.validPower
  uploader : ∃ u, f.uploader = some u ∧ c.st.stakers.has u = true
  time : f.finalizedAt ≤ c.now

/-- x/bundles inside the chain -/
structure BunInv (c : Chain) : Prop where
  prop : ∀ id, PropOk c id (c.proposal id)
  key : ∀ id, c.bun.proposals.has id = true → c.pool.pools.has id = true
  chained : ∀ id p, c.pool.pools.get? id = some p → Chained c.bun id p.totalBundles p.currentIndex
  orphan : ∀ id i, c.pool.pools.get? id = none → c.bun.finalized.get? (id, i) = none
  indexed : ∀ id, NoOverflow c.bun id → Indexed c.bun id
  params : c.bun.params.validate = true
  fin : ∀ id i f, c.bun.finalized.get? (id, i) = some f → FinOk c f

theorem PropOk.mono {c c' : Chain} {id : Nat} {p : Proposal} (h : PropOk c id p)
    (hs : ∀ a, c.st.stakers.has a = true → c'.st.stakers.has a = true) (ht : c.now ≤ c'.now) : PropOk c' id p :=
  ⟨h.nodup, fun a ha => hs a (h.voter a ha), fun a ha => hs a (h.next a ha), h.empty, h.full, h.time.trans ht⟩

theorem FinOk.mono {c c' : Chain} {f : FBundle} (h : FinOk c f)
    (hs : ∀ a, c.st.stakers.has a = true → c'.st.stakers.has a = true) (ht : c.now ≤ c'.now) : FinOk c' f :=
  ⟨h.stored, h.majority, (by obtain ⟨u, hu, hh⟩ := h.uploader; exact ⟨u, hu, hs u hh⟩), h.time.trans ht⟩

theorem proposal_set (c : Chain) (id j : Nat) (p : Proposal) :
    (c.setProposal id p).proposal j = if j = id then p else c.proposal j := by
  show ((c.bun.proposals.set id p).get? j).getD _ = _
  rw [Map.get?_set]
  split
  · rfl
  · rfl

/-- the proposals and bundles are untouched -/
theorem BunInv.frame {c c' : Chain} (h : BunInv c) (hb : c'.bun = c.bun)
    (hp : ∀ id p', c'.pool.pools.get? id = some p' → ∃ p, c.pool.pools.get? id = some p ∧
      p'.totalBundles = p.totalBundles ∧ p'.currentIndex = p.currentIndex)
    (hp' : ∀ id, c.pool.pools.has id = true → c'.pool.pools.has id = true)
    (hs : ∀ a, c.st.stakers.has a = true → c'.st.stakers.has a = true) (ht : c.now ≤ c'.now) : BunInv c' := by
  have e : ∀ id, c'.proposal id = c.proposal id := fun id => by unfold Chain.proposal; rw [hb]
  refine ⟨fun id => ?_, fun id h1 => ?_, fun id p' h1 => ?_, fun id i h1 => ?_, fun id => ?_, ?_, fun id i f h1 => ?_⟩
  · rw [e]; exact (h.prop id).mono hs ht
  · rw [hb] at h1; exact hp' id (h.key id h1)
  · obtain ⟨p, hq, e1, e2⟩ := hp id p' h1
    rw [hb, e1, e2]; exact h.chained id p hq
  · rw [hb]
    cases hq : c.pool.pools.get? id with
    | none => exact h.orphan id i hq
    | some p =>
      have := hp' id ((Stakers.has_iff _ _).2 ⟨p, hq⟩)
      obtain ⟨q, hq'⟩ := (Stakers.has_iff _ _).1 this
      rw [h1] at hq'; cases hq'
  · rw [hb]; exact h.indexed id
  · rw [hb]; exact h.params
  · rw [hb] at h1; exact (h.fin id i f h1).mono hs ht

/-- nothing of pools or x/bundles changes -/
theorem BunInv.quiet {c c' : Chain} (h : BunInv c) (hb : c'.bun = c.bun) (hp : c'.pool = c.pool)
    (hs : ∀ a, c.st.stakers.has a = true → c'.st.stakers.has a = true) (ht : c.now ≤ c'.now) : BunInv c' :=
  h.frame hb (fun id p' h1 => ⟨p', by rw [hp] at h1; exact h1, rfl, rfl⟩) (fun id h1 => by rw [hp]; exact h1) hs ht

/-- a new proposal -/
theorem BunInv.setProposal {c : Chain} (h : BunInv c) {id : Nat} {p : Proposal} (hp : c.pool.pools.has id = true)
    (hq : PropOk c id p) : BunInv (c.setProposal id p) := by
  refine ⟨fun j => ?_, fun j h1 => ?_, ?_, h.orphan, h.indexed, h.params, ?_⟩
  · rw [proposal_set]
    split
    · rename_i e; subst e; exact hq.mono (fun _ x => x) le_rfl
    · exact (h.prop j).mono (fun _ x => x) le_rfl
  · have h2 : (c.bun.proposals.set id p).has j = true := h1
    rw [Stakers.has_set] at h2
    by_cases e : j = id
    · subst e; exact hp
    · simp only [e, decide_false, Bool.false_or] at h2; exact h.key j h2
  · intro j q hq'
    have := h.chained j q hq'
    exact ⟨this.dense, this.first, this.next, this.final, this.empty⟩
  · intro j i f hf
    exact (h.fin j i f hf).mono (fun _ x => x) le_rfl

theorem blank_ok {c : Chain} {id : Nat} {n : Option Addr} (hn : Micro.Named c n) {t : Nat} (ht : t ≤ c.now) :
    PropOk c id (Proposal.blank n t) :=
  ⟨List.nodup_nil, (fun a ha => by cases ha), hn, fun _ => rfl, fun h => absurd rfl h, ht⟩

theorem castOr_eq (p : Proposal) (a : Addr) (v : Vote) :
    Micro.castOr p a v = p ∨
    (v = .valid ∧ Micro.castOr p a v = { p with abstain := p.abstain.erase a, valid := p.valid ++ [a] }) ∨
    (v = .invalid ∧ Micro.castOr p a v = { p with abstain := p.abstain.erase a, invalid := p.invalid ++ [a] }) ∨
    (v = .abstain ∧ a ∉ p.abstain ∧ Micro.castOr p a v = { p with abstain := p.abstain ++ [a] }) := by
  unfold Micro.castOr castVote
  cases v with
  | unspecified => exact Or.inl rfl
  | valid => exact Or.inr (Or.inl ⟨rfl, rfl⟩)
  | invalid => exact Or.inr (Or.inr (Or.inl ⟨rfl, rfl⟩))
  | abstain =>
    by_cases h : a ∈ p.abstain
    · left; simp [h]
    · right; right; right; exact ⟨rfl, h, by simp [h]⟩

theorem cast_ok {c : Chain} {id : Nat} {a : Addr} {v : Vote} (h : PropOk c id (c.proposal id))
    (ha : c.st.stakers.has a = true) (h0 : (c.proposal id).storageId ≠ 0) (hv : a ∉ (c.proposal id).valid)
    (hi : a ∉ (c.proposal id).invalid) : PropOk c id (Micro.castOr (c.proposal id) a v) := by
  generalize c.proposal id = p at *
  have hd := h.nodup
  unfold voters at hd
  rw [List.nodup_append, List.nodup_append] at hd
  obtain ⟨⟨d1, d2, d3⟩, d4, d5⟩ := hd
  have hmem : ∀ x, x ∈ p.abstain.erase a ↔ x ≠ a ∧ x ∈ p.abstain := fun x => d4.mem_erase_iff
  have hvo : ∀ x, x ∈ p.valid ∨ x ∈ p.invalid ∨ x ∈ p.abstain → c.st.stakers.has x = true := by
    intro x hx
    refine h.voter x ?_
    unfold voters
    simp only [List.mem_append]
    tauto
  rcases castOr_eq p a v with e | ⟨-, e⟩ | ⟨-, e⟩ | ⟨-, hn, e⟩
  · rw [e]; exact h
  · rw [e]
    refine ⟨?_, ?_, h.next, fun hs => absurd hs h0, fun hs => ?_, h.time⟩
    · unfold voters
      simp only [List.nodup_append, List.mem_append, List.mem_singleton, List.nodup_cons, List.not_mem_nil,
        not_false_eq_true, List.nodup_nil, and_true]
      refine ⟨⟨⟨d1, trivial, ?_⟩, d2, ?_⟩, d4.erase a, ?_⟩
      · rintro x hx y rfl e2; subst e2; exact hv hx
      · rintro x (hx | rfl) y hy e2
        · exact d3 x hx y hy e2
        · subst e2; exact hi hy
      · rintro x hx y hy e2
        rw [hmem] at hy
        subst e2
        rcases hx with (hx | rfl) | hx
        · exact d5 x (by simp [hx]) x hy.2 rfl
        · exact hy.1 rfl
        · exact d5 x (by simp [hx]) x hy.2 rfl
    · intro x hx
      unfold voters at hx
      simp only [List.mem_append, List.mem_singleton, hmem] at hx
      rcases hx with ((hx | rfl) | hx) | hx
      · exact hvo x (Or.inl hx)
      · exact ha
      · exact hvo x (Or.inr (Or.inl hx))
      · exact hvo x (Or.inr (Or.inr hx.2))
    · obtain ⟨h1, u, hu, hm⟩ := h.full hs
      exact ⟨h1, u, hu, List.mem_append.2 (Or.inl hm)⟩
  · rw [e]
    refine ⟨?_, ?_, h.next, fun hs => absurd hs h0, fun hs => h.full hs, h.time⟩
    · unfold voters
      simp only [List.nodup_append, List.mem_append, List.mem_singleton, List.nodup_cons, List.not_mem_nil,
        not_false_eq_true, List.nodup_nil, and_true]
      refine ⟨⟨d1, ⟨d2, trivial, ?_⟩, ?_⟩, d4.erase a, ?_⟩
      · rintro x hx y rfl e2; subst e2; exact hi hx
      · rintro x hx y (hy | rfl) e2
        · exact d3 x hx y hy e2
        · subst e2; exact hv hx
      · rintro x hx y hy e2
        rw [hmem] at hy
        subst e2
        rcases hx with hx | hx | rfl
        · exact d5 x (by simp [hx]) x hy.2 rfl
        · exact d5 x (by simp [hx]) x hy.2 rfl
        · exact hy.1 rfl
    · intro x hx
      unfold voters at hx
      simp only [List.mem_append, List.mem_singleton, hmem] at hx
      rcases hx with (hx | hx | rfl) | hx
      · exact hvo x (Or.inl hx)
      · exact hvo x (Or.inr (Or.inl hx))
      · exact ha
      · exact hvo x (Or.inr (Or.inr hx.2))
  · rw [e]
    refine ⟨?_, ?_, h.next, fun hs => absurd hs h0, fun hs => h.full hs, h.time⟩
    · unfold voters
      simp only [List.nodup_append, List.mem_append, List.mem_singleton, List.nodup_cons, List.not_mem_nil,
        not_false_eq_true, List.nodup_nil, and_true]
      refine ⟨⟨d1, d2, d3⟩, ⟨d4, trivial, ?_⟩, ?_⟩
      · rintro x hx y rfl e2; subst e2; exact hn hx
      · rintro x hx y (hy | rfl) e2
        · exact d5 x (List.mem_append.2 hx) y hy e2
        · subst e2
          rcases hx with hx | hx
          · exact hv hx
          · exact hi hx
    · intro x hx
      unfold voters at hx
      simp only [List.mem_append, List.mem_singleton] at hx
      rcases hx with (hx | hx) | hx | rfl
      · exact hvo x (Or.inl hx)
      · exact hvo x (Or.inr (Or.inl hx))
      · exact hvo x (Or.inr (Or.inr hx))
      · exact ha

/-! ## finalizing -/

theorem fin_get (s : Bundles.State) (id n : Nat) (f : FBundle) (j i : Nat) :
    (s.setFinalized id n f).finalized.get? (j, i) = if j = id ∧ i = n then some f else s.finalized.get? (j, i) := by
  show (s.finalized.set (id, n) f).get? (j, i) = _
  rw [Map.get?_set]
  simp only [Prod.mk.injEq]

/-- a chain of bundles gets longer -/
theorem chained_snoc {s : Bundles.State} {id n last : Nat} (h : Chained s id n last) {f : FBundle}
    (hf : f.fromIndex = last) : Chained (s.setFinalized id n f) id (n + 1) f.toIndex := by
  have hn : s.finalized.get? (id, n) = none := by
    cases hg : s.finalized.get? (id, n) with
    | none => rfl
    | some g => exact absurd ((h.dense n).1 ⟨g, hg⟩) (lt_irrefl _)
  have g : ∀ i, (s.setFinalized id n f).finalized.get? (id, i) = if i = n then some f else s.finalized.get? (id, i) := by
    intro i; rw [fin_get]; simp
  refine ⟨fun i => ?_, fun x hx => ?_, fun i x y hx hy => ?_, fun i x hx hi => ?_, fun h => by omega⟩
  · rw [g]
    by_cases e : i = n
    · simp [e]
    · rw [if_neg e, h.dense i]; omega
  · rw [g] at hx
    split at hx
    · rename_i e
      cases hx
      rw [hf]; exact h.empty e.symm
    · exact h.first x hx
  · rw [g] at hx hy
    have hin : i ≠ n := by
      rintro rfl
      rw [if_neg (by omega)] at hy
      have := (h.dense (i + 1)).1 ⟨y, hy⟩; omega
    rw [if_neg hin] at hx
    split at hy
    · rename_i e
      cases hy
      rw [hf]; exact (h.final i x hx e).symm
    · exact h.next i x y hx hy
  · rw [g] at hx
    rw [if_pos (by omega)] at hx
    cases hx; rfl

/-- the other pools do not change -/
theorem chained_other {s : Bundles.State} {id n j m last : Nat} {f : FBundle} (h : Chained s j m last) (hj : j ≠ id) :
    Chained (s.setFinalized id n f) j m last := by
  have g : ∀ i, (s.setFinalized id n f).finalized.get? (j, i) = s.finalized.get? (j, i) := by
    intro i; rw [fin_get, if_neg (fun e => hj e.1)]
  exact ⟨fun i => by rw [g]; exact h.dense i, fun x hx => h.first x (by rwa [g] at hx),
    fun i x y hx hy => h.next i x y (by rwa [g] at hx) (by rwa [g] at hy),
    fun i x hx => h.final i x (by rwa [g] at hx), h.empty⟩

/-- the index after a new bundle -/
theorem indexed_snoc {s : Bundles.State} {id n last : Nat} (h : Chained s id n last) {f : FBundle}
    (hf : f.fromIndex = last) (ho : NoOverflow (s.setFinalized id n f) id)
    (hx : NoOverflow s id → Indexed s id) : Indexed (s.setFinalized id n f) id := by
  have hn : s.finalized.get? (id, n) = none := by
    cases hg : s.finalized.get? (id, n) with
    | none => rfl
    | some g => exact absurd ((h.dense n).1 ⟨g, hg⟩) (lt_irrefl _)
  have g : ∀ i, (s.setFinalized id n f).finalized.get? (id, i) = if i = n then some f else s.finalized.get? (id, i) := by
    intro i; rw [fin_get]; simp
  have ho' : NoOverflow s id := by
    intro i x hx
    refine ho i x ?_
    rw [g, if_neg]; exact hx
    rintro rfl; rw [hn] at hx; cases hx
  have hI := hx ho'
  have hch := chained_snoc h hf
  intro x i
  have gi : (s.setFinalized id n f).index.get? (id, x) = if x = f.fromIndex then some n else s.index.get? (id, x) := by
    show (s.index.set (id, f.fromIndex) n).get? (id, x) = _
    rw [Map.get?_set]
    simp only [Prod.mk.injEq, true_and]
  rw [gi]
  constructor
  · intro h1
    split at h1
    · rename_i e
      cases h1
      exact ⟨f, by rw [g]; simp, e.symm⟩
    · obtain ⟨y, hy, hy'⟩ := (hI x i).1 h1
      refine ⟨y, ?_, hy'⟩
      rw [g, if_neg]; exact hy
      rintro rfl; rw [hn] at hy; cases hy
  · rintro ⟨y, hy, rfl⟩
    have hf' : (s.setFinalized id n f).finalized.get? (id, n) = some f := by rw [g]; simp
    by_cases e : y.fromIndex = f.fromIndex
    · rw [if_pos e]
      have h4 := (ho _ _ hy).1
      have h5 := (ho _ _ hf').1
      have := (Bundles.C30_unique hch ho (x := f.fromIndex) hy hf' ⟨by omega, by omega⟩ ⟨by omega, by omega⟩).1
      rw [this]
    · rw [if_neg e]
      refine (hI _ _).2 ⟨y, ?_, rfl⟩
      rw [g] at hy
      split at hy
      · cases hy; exact absurd rfl e
      · exact hy

theorem indexed_other {s : Bundles.State} {id n j : Nat} {f : FBundle} (hj : j ≠ id)
    (hx : NoOverflow s j → Indexed s j) : NoOverflow (s.setFinalized id n f) j → Indexed (s.setFinalized id n f) j := by
  have g : ∀ i, (s.setFinalized id n f).finalized.get? (j, i) = s.finalized.get? (j, i) := by
    intro i; rw [fin_get, if_neg (fun e => hj e.1)]
  intro ho x i
  have gi : (s.setFinalized id n f).index.get? (j, x) = s.index.get? (j, x) := by
    show (s.index.set (id, f.fromIndex) n).get? (j, x) = _
    rw [Map.get?_set, if_neg]
    rintro ⟨⟩; exact hj rfl
  rw [gi, g]
  exact hx (fun i y hy => ho i y (by rw [g]; exact hy)) x i

theorem inc_get {s : Pool.State} (hk : ∀ k p, s.pools.get? k = some p → p.id = k) {id : Nat} {p : Pool.Pool}
    (hp : s.pools.get? id = some p) (i k sm j : Nat) :
    (Pool.incrementBundleInformation s id i k sm).pools.get? j =
      if j = id then some { p with currentIndex := i, totalBundles := p.totalBundles + 1, currentKey := k,
                                    currentSummary := sm } else s.pools.get? j := by
  unfold Pool.incrementBundleInformation
  rw [hp]
  show (s.pools.set p.id _).get? j = _
  rw [Map.get?_set, hk id p hp]

theorem BunInv.finalize {c : Chain} (h : BunInv c) (hP : Pool.Inv c.pool) {id : Nat} {v : VoteDist}
    (hp : c.pool.pools.has id = true) (h0 : (c.proposal id).storageId ≠ 0) (hv : v.total < 2 * v.valid) :
    BunInv (c.finalize id v) := by
  obtain ⟨pl, hpl⟩ := (Stakers.has_iff _ _).1 hp
  unfold Chain.finalize
  rw [hpl]
  simp only
  have hg := inc_get hP.key hpl (u64add pl.currentIndex (c.proposal id).bundleSize) (c.proposal id).toKey
    (c.proposal id).summary
  generalize Pool.incrementBundleInformation c.pool id (u64add pl.currentIndex (c.proposal id).bundleSize)
    (c.proposal id).toKey (c.proposal id).summary = P at hg ⊢
  have hch := h.chained id pl hpl
  have hfrom : (c.bundleOf pl (c.proposal id) v).fromIndex = pl.currentIndex := rfl
  refine ⟨fun j => (h.prop j).mono (fun _ x => x) le_rfl, fun j hj => ?_, fun j q hq => ?_, fun j i hj => ?_,
    fun j => ?_, h.params, fun j i f hf => ?_⟩
  · have := h.key j hj
    obtain ⟨q, hq⟩ := (Stakers.has_iff _ _).1 this
    rw [Stakers.has_iff]
    show ∃ v, P.pools.get? j = some v
    rw [hg]
    split
    · exact ⟨_, rfl⟩
    · exact ⟨q, hq⟩
  · have hq' : P.pools.get? j = some q := hq
    rw [hg] at hq'
    split at hq'
    · rename_i e
      subst e
      cases hq'
      exact chained_snoc hch hfrom
    · rename_i e
      exact chained_other (h.chained j q hq') e
  · have hj' : P.pools.get? j = none := hj
    rw [hg] at hj'
    split at hj'
    · cases hj'
    · rename_i e
      show (c.bun.setFinalized id _ _).finalized.get? (j, i) = none
      rw [fin_get, if_neg (fun x => e x.1)]
      exact h.orphan j i hj'
  · by_cases e : j = id
    · subst e
      exact fun ho => indexed_snoc hch hfrom ho (h.indexed j)
    · exact indexed_other e (h.indexed j)
  · have hf' : (c.bun.setFinalized id pl.totalBundles (c.bundleOf pl (c.proposal id) v)).finalized.get? (j, i) = some f := hf
    rw [fin_get] at hf'
    split at hf'
    · cases hf'
      obtain ⟨-, u, hu, hm⟩ := (h.prop id).full h0
      exact ⟨h0, hv, ⟨u, hu, (h.prop id).voter u (by unfold voters; simp [hm])⟩, le_rfl⟩
    · exact (h.fin j i f hf').mono (fun _ x => x) le_rfl

/-! ## parameters, blocks -/

theorem getD_ok {α : Type} {P : α → Prop} {o : Option α} {x y : α} (h : P (o.getD x)) (hy : P y) : P (o.getD y) := by
  cases o with
  | none => exact hy
  | some z => exact h

theorem params_ok {gov : Addr} {s s' : Bundles.State} {a : Addr} {y : Bundles.ParamsPayload}
    (h : s.params.validate = true) (hr : Bundles.updateParams gov s a y = .ok s') :
    s'.params.validate = true ∧ s'.proposals = s.proposals ∧ s'.finalized = s.finalized ∧ s'.index = s.index := by
  unfold Bundles.updateParams at hr
  split at hr
  · cases hr
  · rename_i hd
    split at hr
    · cases hr
    · cases hr
      refine ⟨?_, rfl, rfl, rfl⟩
      simp only [Bundles.Params.validate, Bundles.ParamsPayload.apply, Bool.not_eq_true', Bool.and_eq_true, Bool.not_eq_false,
        decide_eq_true_eq] at hd h ⊢
      obtain ⟨⟨d1, d2⟩, d3⟩ := hd
      obtain ⟨⟨h1, h2⟩, h3⟩ := h
      refine ⟨⟨decide_eq_true ?_, decide_eq_true ?_⟩, decide_eq_true ?_⟩
      · exact getD_ok (P := fun x => 0 < x) (of_decide_eq_true d1) h1
      · exact getD_ok (P := fun x => x ≤ Dec.one) (of_decide_eq_true d2) h2
      · exact getD_ok (P := fun x => 0 < x) (of_decide_eq_true d3) h3

/-- only parameters and the index change -/
theorem BunInv.sameStore {c : Chain} (h : BunInv c) {s : Bundles.State} (h1 : s.proposals = c.bun.proposals)
    (h2 : s.finalized = c.bun.finalized) (h3 : s.params.validate = true)
    (h4 : ∀ id, NoOverflow c.bun id → Indexed s id) : BunInv { c with bun := s } := by
  have e : ∀ id, ({ c with bun := s } : Chain).proposal id = c.proposal id := by
    intro id; show (s.proposals.get? id).getD _ = _; rw [h1]; rfl
  refine ⟨fun id => by rw [e]; exact (h.prop id).mono (fun _ x => x) le_rfl, fun id hh => ?_, fun id p hp => ?_,
    fun id i hh => ?_, fun id ho => ?_, h3, fun id i f hf => ?_⟩
  · have hh' : s.proposals.has id = true := hh
    rw [h1] at hh'; exact h.key id hh'
  · have := h.chained id p hp
    exact ⟨(by show ∀ i, (∃ f, s.finalized.get? _ = _) ↔ _; rw [h2]; exact this.dense),
      (by show ∀ f, s.finalized.get? _ = _ → _; rw [h2]; exact this.first),
      (by show ∀ i f g, s.finalized.get? _ = _ → s.finalized.get? _ = _ → _; rw [h2]; exact this.next),
      (by show ∀ i f, s.finalized.get? _ = _ → _; rw [h2]; exact this.final), this.empty⟩
  · show s.finalized.get? _ = none; rw [h2]; exact h.orphan id i hh
  · refine h4 id (fun i f hf => ho i f ?_)
    show s.finalized.get? _ = _; rw [h2]; exact hf
  · have hf' : s.finalized.get? (id, i) = some f := hf
    rw [h2] at hf'
    exact (h.fin id i f hf').mono (fun _ x => x) le_rfl

theorem pool_op {gov : Addr} {s : Pool.State} (hs : Pool.Spec.Reachable gov s) (now : Nat) {op : Pool.Op}
    {c : Chain} (ho : Micro.PoolOk c op) (id : Nat) :
    (∀ p', (Pool.step gov s now op).pools.get? id = some p' → ∃ p, s.pools.get? id = some p ∧
      p'.totalBundles = p.totalBundles ∧ p'.currentIndex = p.currentIndex) ∧
    (s.pools.has id = true → (Pool.step gov s now op).pools.has id = true) := by
  have hI := hs.inv
  have hI' := (pool_step hs now op).inv
  have hc := pool_count (gov := gov) hI now (op := op) (by rintro m rfl; exact ho.elim)
  constructor
  · intro p' hp'
    have hlt := (hI'.dense id).1 ⟨p', hp'⟩
    rw [hc] at hlt
    obtain ⟨p, hp⟩ := (hI.dense id).2 hlt
    refine ⟨p, hp, ?_⟩
    rcases Pool.C40_progress gov s hs now id op p p' hp hp' with ⟨-, h2, -, h4⟩ | ⟨i, k, sm, rfl, -⟩
    · exact ⟨h4, h2⟩
    · exact ho.elim
  · intro h
    rw [Stakers.has_iff] at h ⊢
    rw [hI'.dense, hc, ← hI.dense]; exact h

theorem index_restart {s : Bundles.State} (hch : ∀ id, ∃ n last, Chained s id n last) (id : Nat) (ho : NoOverflow s id) :
    Indexed s.initMemStore id := by
  obtain ⟨n, last, h⟩ := hch id
  exact Bundles.indexed_initMemStore h ho

theorem BunInv.micro {gov : Addr} {c : Chain} (μ : Micro) (h : BunInv c) (hs : StR gov c) (hpo : PoolR gov c)
    (ho : μ.Ok gov c) : BunInv (μ.run gov c) := by
  have hSt := hs.inv
  cases μ with
  | del act => exact h.quiet rfl rfl (fun _ x => x) le_rfl
  | st op =>
    refine h.quiet rfl rfl (fun a ha => Stakers.step_has (op := op) hSt ?_ ha) le_rfl
    cases op <;> trivial
  | join m =>
    obtain ⟨ha, c', h'⟩ := ho
    have e : (Micro.join m).run gov c = c' := by
      show c.orElse (c.join m) = _
      rw [h']; rfl
    rw [e]
    obtain ⟨w, hw, rfl⟩ := join_eq h'
    refine h.quiet rfl rfl (fun a hx => ?_) le_rfl
    show (Stakers.noteGift m c.sw w).s.stakers.has a = true
    rw [(Stakers.noteGift_same m c.sw w).1, (Stakers.join_same hSt.mem ha hw).1.stakers]
    exact hx
  | fund op => exact h.quiet rfl rfl (fun _ x => x) le_rfl
  | pool op =>
    exact h.frame rfl (fun id => (pool_op hpo c.now ho id).1) (fun id => (pool_op hpo c.now ho id).2)
      (fun _ x => x) le_rfl
  | createPool m =>
    obtain ⟨c', h'⟩ := ho
    have e : (Micro.createPool m).run gov c = c' := by
      show c.orElse (Chain.createPool gov c m) = _
      rw [h']; rfl
    rw [e]
    obtain ⟨s, hs, rfl⟩ := createPool_eq h'
    obtain ⟨-, c0, -, c1, c2⟩ := Pool.C40_create_effect gov c.pool s hpo c.now m hs
    have hget : ∀ id, s.pools.get? id = if id = c.pool.count then some { m.pool c.now with id := c.pool.count } else
        c.pool.pools.get? id := by
      intro id
      split
      · rename_i e; subst e; exact c1
      · rename_i e; exact c2 id e
    have horph := h.orphan c.pool.count
    refine ⟨fun id => (h.prop id).mono (fun _ x => x) le_rfl, fun id hh => ?_, fun id p hp => ?_, fun id i hh => ?_,
      h.indexed, h.params, fun id i f hf => (h.fin id i f hf).mono (fun _ x => x) le_rfl⟩
    · have := h.key id hh
      rw [Stakers.has_iff] at this ⊢
      show ∃ v, s.pools.get? id = some v
      rw [hget]
      split
      · exact ⟨_, rfl⟩
      · exact this
    · have hp' : s.pools.get? id = some p := hp
      rw [hget] at hp'
      split at hp'
      · rename_i e
        subst e
        cases hp'
        have hz : ∀ i, c.bun.finalized.get? (c.pool.count, i) = none := fun i => horph i c0
        refine ⟨fun i => ?_, fun f hf => ?_, fun i f g hf => ?_, fun i f hf => ?_, fun _ => rfl⟩
        · show (∃ f, c.bun.finalized.get? _ = some f) ↔ i < 0
          rw [hz]; simp
        · have : c.bun.finalized.get? (c.pool.count, 0) = some f := hf
          rw [hz] at this; cases this
        · have : c.bun.finalized.get? (c.pool.count, i) = some f := hf
          rw [hz] at this; cases this
        · have : c.bun.finalized.get? (c.pool.count, i) = some f := hf
          rw [hz] at this; cases this
      · exact h.chained id p hp'
    · have hh' : s.pools.get? id = none := hh
      rw [hget] at hh'
      split at hh'
      · cases hh'
      · exact h.orphan id i hh'
  | pay b hl => exact h.quiet rfl rfl (fun _ x => x) le_rfl
  | blank id n => exact h.setProposal ho.1 (blank_ok ho.2 le_rfl)
  | next id n t =>
    obtain ⟨h1, h2, h3⟩ := ho
    have hp := h.prop id
    refine h.setProposal h1 ⟨hp.nodup, hp.voter, h2, fun h0 => ?_, hp.full, ?_⟩
    · have := hp.empty h0
      show ({ c.proposal id with nextUploader := n, updatedAt := t } : Proposal) = _
      rw [this]; rfl
    · rcases h3 with h3 | h3
      · exact h3 ▸ hp.time
      · exact h3 ▸ le_rfl
  | cast id a v =>
    obtain ⟨h1, h2, h3, h4, h5⟩ := ho
    exact h.setProposal h1 (cast_ok (h.prop id) h2 h3 h4 h5)
  | register m n =>
    obtain ⟨h1, h2, h3, h4, h5⟩ := ho
    show BunInv (c.register m n)
    unfold Chain.register
    split
    · exact h
    · refine h.setProposal h1 ⟨?_, ?_, h3, fun h0 => absurd h0 h4, fun _ => ⟨h5, m.staker, rfl, ?_⟩, le_rfl⟩
      · show ([m.staker] ++ [] ++ []).Nodup
        simp
      · intro a ha
        have : a ∈ [m.staker] ++ [] ++ [] := ha
        simp at this
        rw [this]; exact h2
      · show m.staker ∈ [m.staker]
        simp
  | progress id l =>
    exact h.sameStore (s := { c.bun with progress := c.bun.progress.set id l }) rfl rfl h.params (h.indexed)
  | finalize id v => exact h.finalize hpo.inv ho.1 ho.2.1 ho.2.2
  | bundlesParams a y =>
    show BunInv (c.orElse ((Bundles.updateParams gov c.bun a y).map (fun s => { c with bun := s })))
    cases hr : Bundles.updateParams gov c.bun a y with
    | error e => exact h
    | ok s =>
      obtain ⟨h1, h2, h3, h4⟩ := params_ok h.params hr
      refine h.sameStore h2 h3 h1 (fun id ho x i => ?_)
      rw [h4, h3]; exact h.indexed id ho x i
  | block dt r =>
    have hx : BunInv (c.newBlock dt r) := by
      have hb : BunInv { c with now := c.now + dt } := h.quiet rfl rfl (fun _ x => x) (Nat.le_add_right _ _)
      show BunInv { c with now := c.now + dt, bun := if r then c.bun.initMemStore else c.bun }
      cases r with
      | false => exact hb
      | true =>
        refine hb.sameStore (s := c.bun.initMemStore) rfl rfl h.params (fun id ho => ?_)
        cases hq : c.pool.pools.get? id with
        | some p => exact Bundles.indexed_initMemStore (h.chained id p hq) ho
        | none =>
          have hz : ∀ i, c.bun.finalized.get? (id, i) = none := fun i => h.orphan id i hq
          have hch : Chained c.bun id 0 0 :=
            ⟨(fun i => by rw [hz]; simp), (fun f hf => by rw [hz] at hf; cases hf),
             (fun i f g hf => by rw [hz] at hf; cases hf), (fun i f hf => by rw [hz] at hf; cases hf), (fun _ => rfl)⟩
          exact Bundles.indexed_initMemStore hch ho
    refine hx.quiet rfl rfl (fun a ha => ?_) le_rfl
    exact Stakers.step_has (gov := gov) (op := .beginBlock dt) hSt trivial ha
  | external b gd gs gf => exact h.quiet rfl rfl (fun _ x => x) le_rfl
  | crash => exact h.quiet rfl rfl (fun _ x => x) le_rfl

theorem BunInv.init (dp : Delegation.Params) (sp : Stakers.Params) (bp : Bundles.Params) (b : Bank) (now : Nat)
    (hb : bp.validate = true) : BunInv (Chain.init dp sp bp b now) := by
  refine ⟨fun id => ?_, fun id h => ?_, fun id p h => ?_, fun _ _ _ => rfl, fun id _ x i => ?_, hb, fun _ _ _ h => ?_⟩
  · exact blank_ok (n := none) (fun a h => by cases h) (Nat.zero_le _)
  · cases h
  · cases h
  · constructor
    · intro h; cases h
    · rintro ⟨f, h, -⟩; cases h
  · cases h

/-! ## every reachable state -/

/-- everything that holds in every reachable state -/
structure Good (gov : Addr) (c : Chain) : Prop where
  mods : Modules gov c
  bun : BunInv c
  sane : Sane c

theorem amount_le_totalAll (s : Delegation.State) (a : Addr) : s.amount a ≤ Delegation.totalAll s := by
  unfold Delegation.totalAll Delegation.State.amount Delegation.State.at
  cases hg : s.f1.get? a with
  | none => exact Nat.zero_le _
  | some f => exact Map.le_sum s.f1 (fun _ f => f.d.total) hg

theorem Good.sound {gov : Addr} {c : Chain} (h : Good gov c) : Sound c := by
  refine ⟨fun id a hm => ?_, fun id h0 => ?_, fun a => ?_⟩
  · obtain ⟨v, hv⟩ := (Stakers.has_iff _ _).1 hm
    exact h.mods.st.inv.mem.mem _ _ v hv
  · rw [(h.bun.prop id).empty h0]; rfl
  · have := amount_le_totalAll c.del a
    have := h.sane.small
    omega

theorem Good.steps {gov : Addr} {c c' : Chain} (h : Good gov c) (hs : Steps gov c c') (hc : Sane c') : Good gov c' := by
  have := Steps.invariant (P := fun c => Modules gov c ∧ BunInv c)
    (fun c μ hP ho hc => ⟨hP.1.micro μ ho hc, hP.2.micro μ hP.1.st hP.1.pool ho⟩) hs hc.calm ⟨h.mods, h.bun⟩
  exact ⟨this.1, this.2, hc⟩

theorem Good.init (gov : Addr) (dp : Delegation.Params) (sp : Stakers.Params) (bp : Bundles.Params) (b : Bank)
    (now : Nat) (hd : dp.validate = true) (hb : bp.validate = true) : Good gov (Chain.init dp sp bp b now) :=
  ⟨Modules.init gov dp sp bp b now hd, BunInv.init dp sp bp b now hb,
    ⟨fun st => (by show (0 : Nat) < Dec.one; decide), (by show (0 : Nat) < 2 ^ 63; decide)⟩⟩

theorem Reachable.good {gov : Addr} {c : Chain} (h : Reachable gov c) : Good gov c := by
  induction h with
  | init dp sp bp b now hd hb => exact Good.init gov dp sp bp b now hd hb
  | step op _ hs ih => exact ih.steps (step_steps ih.sound op) hs

end Chain
end Verif
