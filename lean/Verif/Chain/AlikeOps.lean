import Verif.Chain.Alike
import Verif.Chain.Project
import Verif.Delegation.Matured

/-!
# Operations on alike states

Every operation is answered alike on alike chains and leads to alike chains.
-/

set_option linter.dupNamespace false

namespace Verif.Chain
open Verif
open Verif.Bundles (Proposal FBundle VoteDist Status Reward)

namespace Chain

variable {E : List Addr → List Addr → Prop} (hE : Lists E) {z : Bool}

/-! ### slashes in any order -/

theorem swap_slashes (hE : Lists E) (c : Chain) (id : Nat) {a b : Addr} (h : a ≠ b) (ta tb : Delegation.SlashType) :
    Rel E true ((c.slashAndRemove id a ta).slashAndRemove id b tb) ((c.slashAndRemove id b tb).slashAndRemove id a ta) := by
  have hk := Stakers.kick_comm c.st c.now id h
  rcases Delegation.slash_comm c.dw h ta tb with hd | hd
  · left
    refine ((Sim.refl hE c).withDel hd).setSt (s := (c.st.kick c.now id a).kick c.now id b) ?_
    exact hk
  · exact Or.inr ⟨rfl, Or.inl hd.1, Or.inl hd.2⟩

/-- what is asked of the lists of stakers to be slashed -/
def Slashes (E : List Addr → List Addr → Prop) (z : Bool) : Prop :=
  ∀ (id : Nat) (ty : Addr → Delegation.SlashType) (l l' : List Addr), E l l' →
    ∀ c c' : Chain, Rel E z c c' → Rel E z (slashBy id ty l c) (slashBy id ty l' c')

theorem slashBy_rel (id : Nat) (ty : Addr → Delegation.SlashType) (l : List Addr) :
    ∀ {c c' : Chain}, Rel E z c c' → Rel E z (slashBy id ty l c) (slashBy id ty l c') := by
  induction l with
  | nil => exact fun h => h
  | cons a l ih => exact fun h => ih (h.slashAndRemove id a (ty a))

theorem slashes_eq : Slashes Eq false := fun id ty l _ e _ _ h => e ▸ slashBy_rel id ty l h

theorem slashes_perm : Slashes List.Perm true := by
  intro id ty l l' hp
  induction hp with
  | nil => exact fun _ _ h => h
  | cons a _ ih => exact fun c c' h => ih _ _ (h.slashAndRemove id a (ty a))
  | swap a b l =>
    intro c c' h
    refine slashBy_rel id ty l ?_
    by_cases e : b = a
    · subst e; exact (h.slashAndRemove id b _).slashAndRemove id b _
    · exact (swap_slashes lists_perm c id e (ty b) (ty a)).trans ((h.slashAndRemove id a _).slashAndRemove id b _)
  | trans _ _ ih1 ih2 => exact fun c c' h => (ih1 _ _ (Or.inl (Sim.refl lists_perm c))).trans (ih2 _ _ h)

/-! ### answers -/

/-- the same error, or related results -/
def ExRel {α β : Type} (R : α → β → Prop) : Except String α → Except String β → Prop
  | .error e, .error e' => e = e'
  | .ok a, .ok b => R a b
  | _, _ => False

theorem ExRel.of_map {α γ : Type} {f : α → γ} {r r' : Except String α} (h : r.map f = r'.map f) :
    ExRel (fun a b => f a = f b) r r' := by
  cases r <;> cases r' <;> simp only [Except.map, Except.ok.injEq, Except.error.injEq, reduceCtorEq] at h
  · exact h
  · exact h

theorem ExRel.map {α β γ δ : Type} {R : α → β → Prop} {S : γ → δ → Prop} {f : α → γ} {g : β → δ} {r : Except String α}
    {r' : Except String β} (h : ExRel R r r') (hf : ∀ a b, R a b → S (f a) (g b)) : ExRel S (r.map f) (r'.map g) := by
  cases r <;> cases r' <;> first | exact h.elim | exact h | exact hf _ _ h

theorem ExRel.mono {α β : Type} {R S : α → β → Prop} {r : Except String α} {r' : Except String β} (h : ExRel R r r')
    (hf : ∀ a b, R a b → S a b) : ExRel S r r' := by
  cases r <;> cases r' <;> first | exact h.elim | exact h | exact hf _ _ h

theorem ExRel.same {α : Type} {R : α → α → Prop} (hR : ∀ a, R a a) (r : Except String α) : ExRel R r r := by
  cases r
  · rfl
  · exact hR _

/-- the tally went alike -/
def OutRel (E : List Addr → List Addr → Prop) (z : Bool) : Out → Out → Prop
  | .done c v, .done c' v' => Rel E z c c' ∧ v = v'
  | .failed c, .failed c' => Rel E z c c'
  | .panicked, .panicked => True
  | _, _ => False

namespace PropSim
variable {p p' : Proposal}
theorem storageId (h : PropSim E p p') : p.storageId = p'.storageId := (congrArg Proposal.storageId h.rest :)
theorem uploader (h : PropSim E p p') : p.uploader = p'.uploader := (congrArg Proposal.uploader h.rest :)
theorem nextUploader (h : PropSim E p p') : p.nextUploader = p'.nextUploader := (congrArg Proposal.nextUploader h.rest :)
theorem dataSize (h : PropSim E p p') : p.dataSize = p'.dataSize := (congrArg Proposal.dataSize h.rest :)
theorem bundleSize (h : PropSim E p p') : p.bundleSize = p'.bundleSize := (congrArg Proposal.bundleSize h.rest :)
theorem updatedAt (h : PropSim E p p') : p.updatedAt = p'.updatedAt := (congrArg Proposal.updatedAt h.rest :)
theorem fromKey (h : PropSim E p p') : p.fromKey = p'.fromKey := (congrArg Proposal.fromKey h.rest :)
theorem toKey (h : PropSim E p p') : p.toKey = p'.toKey := (congrArg Proposal.toKey h.rest :)
theorem summary (h : PropSim E p p') : p.summary = p'.summary := (congrArg Proposal.summary h.rest :)
theorem dataHash (h : PropSim E p p') : p.dataHash = p'.dataHash := (congrArg Proposal.dataHash h.rest :)
theorem storageProviderId (h : PropSim E p p') : p.storageProviderId = p'.storageProviderId :=
  (congrArg Proposal.storageProviderId h.rest :)
theorem compressionId (h : PropSim E p p') : p.compressionId = p'.compressionId := (congrArg Proposal.compressionId h.rest :)
/-- another next uploader, at another time -/
theorem next (h : PropSim E p p') (o : Option Addr) (t : Nat) :
    PropSim E { p with nextUploader := o, updatedAt := t } { p' with nextUploader := o, updatedAt := t } := by
  refine ⟨?_, h.valid, h.invalid, h.abstain⟩
  show ({ noVotes p with nextUploader := o, updatedAt := t } : Proposal) = { noVotes p' with nextUploader := o, updatedAt := t }
  rw [h.rest]
end PropSim

/-! ### tally -/

section tally
variable {c c' : Chain} {p p' : Proposal}
include hE

theorem payouts_sim (h : Sim E c c') (id : Nat) (total : Coins) : c.payouts id total = c'.payouts id total := by
  have hp := h.prop hE id
  have ha : ∀ u, c.payoutArgs id u total = c'.payoutArgs id u total := by
    intro u
    unfold payoutArgs
    rw [h.params, h.fund, hp.storageProviderId, hp.dataSize, h.amount,
      show c.st.commission u = c'.st.commission u from (congrArg (fun x : Chain => x.st.commission u) h.core :)]
  unfold payouts
  rw [hp.uploader]
  cases (c'.proposal id).uploader with
  | none => rfl
  | some u => show Bundles.calculatePayouts _ _ = Bundles.calculatePayouts _ _; rw [h.stakers, ha]

omit hE in
theorem payDelegators_sim (h : Sim E c c') (u : Addr) (r : Reward) :
    match c.payDelegators u r, c'.payDelegators u r with
    | .ok d, .ok d' => Sim E d d'
    | .error d, .error d' => Sim E d d'
    | _, _ => False := by
  have hr := ExRel.of_map (show (Delegation.payoutRewards c.dw .pool u r.delegation).map Delegation.World.er
      = (Delegation.payoutRewards c'.dw .pool u r.delegation).map Delegation.World.er by
    rw [← Delegation.er_payoutRewards, h.dw, Delegation.er_payoutRewards])
  unfold payDelegators
  cases e1 : Delegation.payoutRewards c.dw .pool u r.delegation <;>
    cases e2 : Delegation.payoutRewards c'.dw .pool u r.delegation <;> rw [e1, e2] at hr
  · exact h
  · exact hr.elim
  · exact hr.elim
  · exact h.withDel hr

omit hE in
theorem payUploader_sim (h : Sim E c c') (u : Addr) (r : Reward) :
    match c.payUploader u r, c'.payUploader u r with
    | .ok d, .ok d' => Sim E d d'
    | .error d, .error d' => Sim E d d'
    | _, _ => False := by
  have hr := ExRel.of_map (show (Stakers.increaseRewards c.sw .pool u (r.commission.add r.storage)).map Stakers.World.er
      = (Stakers.increaseRewards c'.sw .pool u (r.commission.add r.storage)).map Stakers.World.er by
    rw [← Stakers.er_increaseRewards, h.sw, Stakers.er_increaseRewards])
  unfold payUploader
  cases e1 : Stakers.increaseRewards c.sw .pool u (r.commission.add r.storage) <;>
    cases e2 : Stakers.increaseRewards c'.sw .pool u (r.commission.add r.storage) <;> rw [e1, e2] at hr
  · exact h
  · exact hr.elim
  · exact hr.elim
  · exact payDelegators_sim (h.withSt hr) u r

omit hE in
theorem payReward_sim (h : Sim E c c') (u : Option Addr) (r : Reward) :
    match c.payReward u r, c'.payReward u r with
    | .ok d, .ok d' => Sim E d d'
    | .error d, .error d' => Sim E d d'
    | _, _ => False := by
  unfold payReward
  rw [h.b]
  cases c'.b.send (.mod .pool) (.mod .treasury) r.treasury with
  | error e => exact h
  | ok b =>
    cases u with
    | none => exact h.setBank b
    | some u => exact payUploader_sim (h.setBank b) u r

theorem tallyPay_sim (hS : Slashes E z) (h : Sim E c c') (hp : PropSim E p p') (id : Nat) (v : VoteDist) (total : Coins) :
    OutRel E z (c.tallyPay id p v total) (c'.tallyPay id p' v total) := by
  unfold tallyPay
  rw [payouts_sim hE h, hp.uploader]
  cases c'.payouts id total with
  | none => trivial
  | some r =>
    have := payReward_sim h p'.uploader r
    show OutRel E z (match c.payReward p'.uploader r with | .error c' => _ | .ok c' => _)
      (match c'.payReward p'.uploader r with | .error c' => _ | .ok c' => _)
    cases e1 : c.payReward p'.uploader r <;> cases e2 : c'.payReward p'.uploader r <;> rw [e1, e2] at this
    · exact Or.inl this
    · exact this.elim
    · exact this.elim
    · refine ⟨?_, rfl⟩
      rw [slashInvalid_by, slashInvalid_by]
      exact hS id _ _ _ hp.invalid _ _ (Or.inl this)

theorem tallyInflation_sim (hS : Slashes E z) (h : Sim E c c') (hp : PropSim E p p') (id : Nat) (v : VoteDist)
    (charged : Coins) : OutRel E z (c.tallyInflation id p v charged) (c'.tallyInflation id p' v charged) := by
  have e : Pool.chargeInflationPool c.pool c.b id = Pool.chargeInflationPool c'.pool c'.b id := by rw [h.pool, h.b]
  unfold tallyInflation
  rw [e]
  cases Pool.chargeInflationPool c'.pool c'.b id with
  | error e => trivial
  | ok r =>
    refine tallyPay_sim hE hS (c := { c with b := r.2.1, halted := c.halted || r.2.2 })
      (c' := { c' with b := r.2.1, halted := c'.halted || r.2.2 }) (h.of_core ?_ rfl rfl) hp id v _
    show ({ c.er with b := r.2.1, halted := c.er.halted || r.2.2 } : Chain)
      = { c'.er with b := r.2.1, halted := c'.er.halted || r.2.2 }
    rw [h.core]

theorem tallyValid_sim (hS : Slashes E z) (h : Sim E c c') (hp : PropSim E p p') (id : Nat) (v : VoteDist) :
    OutRel E z (c.tallyValid id p v) (c'.tallyValid id p' v) := by
  unfold tallyValid
  rw [h.fund, h.b]
  cases Funders.chargeFundersOfPool c'.fund c'.b id with
  | error e => exact Or.inl h
  | ok r => exact tallyInflation_sim hE hS (h.withFund _) hp id v r.1

theorem tallyOutcome_sim (hS : Slashes E z) (h : Sim E c c') (hp : PropSim E p p') (id : Nat) (v : VoteDist) :
    OutRel E z (c.tallyOutcome id p v) (c'.tallyOutcome id p' v) := by
  unfold tallyOutcome
  cases v.status with
  | valid => exact tallyValid_sim hE hS h hp id v
  | invalid =>
    refine ⟨?_, rfl⟩
    rw [slashValid_by, slashValid_by, hp.uploader]
    exact hS id _ _ _ hp.valid _ _ (Or.inl h)
  | unspecified => exact ⟨Or.inl h, rfl⟩
  | noQuorum => exact ⟨Or.inl h, rfl⟩

theorem tally_sim (hS : Slashes E z) (h : Sim E c c') (hp : PropSim E p p') (id : Nat) :
    OutRel E z (c.tally id p) (c'.tally id p') := by
  unfold tally
  rw [dist_sim hE (nonVoters_sim hE h id)]
  exact tallyOutcome_sim hE hS (nonVoters_sim hE h id) hp id _

end tally

/-! ### what stopped stays stopped -/

theorem stopped_of {c d : Chain} (h : Stopped c) (hd : d.del.halted = c.del.halted) (hc : d.crashed = c.crashed) :
    Stopped d := by
  unfold Stopped; rw [hd, hc]; exact h

theorem stopped_withDel {c : Chain} (h : Stopped c) {w : Delegation.World} (hw : c.del.halted = true → w.s.halted = true) :
    Stopped (c.withDel w) := h.imp hw id

theorem performOp_stays {w : Delegation.World} (h : w.s.halted = true) (st : Addr) (op : Delegation.Op) (who : Addr) :
    (Delegation.performOp w st op who).s.halted = true := by
  show (w.s.halted || _) = true
  rw [h]; rfl

theorem beginBlock_stays {w : Delegation.World} (h : w.s.halted = true) (now : Nat) (r : Bool) :
    (Delegation.beginBlock w now r).s.halted = true := by
  rw [← Bool.not_eq_false]
  intro hf
  have h1 := Delegation.queueLoop_halted now _ _ hf
  have h2 : (if r then (⟨Delegation.initMemStore w.s, w.b⟩ : Delegation.World) else w).s.halted = w.s.halted := by
    cases r
    · rfl
    · show (Delegation.initMemStore w.s).er.halted = _
      unfold Delegation.initMemStore
      rw [Delegation.er_setIndexes]; rfl
  rw [h2, h] at h1
  cases h1

theorem delStep_stays (gov : Addr) {y : Delegation.Sys} (h : y.w.s.halted = true) (act : Delegation.Act) :
    (y.step gov act).w.s.halted = true := by
  have orElse_stays : ∀ r : Except String Delegation.World, (∀ w, r = .ok w → w.s.halted = true) →
      (Delegation.orElse y.w r).s.halted = true := by
    intro r hr
    cases r with
    | error e => exact h
    | ok w => exact hr w rfl
  cases act with
  | delegate ex c st n =>
    refine orElse_stays _ fun w hw => ?_
    unfold Delegation.delegateMsg at hw
    split at hw
    · cases hw
    · split at hw
      · cases hw
      · injection hw with hw; subst hw; exact performOp_stays h _ _ _
  | redelegate ex ac m =>
    refine orElse_stays _ fun w hw => ?_
    unfold Delegation.redelegateMsg at hw
    split at hw
    · cases hw
    · split at hw
      · cases hw
      · split at hw
        · cases hw
        · split at hw
          · cases hw
          · split at hw
            · cases hw
            · rename_i s hs
              have hs' : s.halted = true := by
                unfold Delegation.consumeSpell Delegation.takeSpell at hs
                split at hs
                · cases hs
                · split at hs
                  · cases hs
                  · injection hs with hs; subst hs; exact h
              unfold Delegation.finishRedelegate at hw
              split at hw
              · cases hw
              · injection hw with hw; subst hw
                exact performOp_stays (performOp_stays (w := ⟨s, y.w.b⟩) hs' _ _ _) _ _ _
  | undelegate c st n =>
    refine orElse_stays _ fun w hw => ?_
    unfold Delegation.undelegateMsg at hw
    split at hw
    · cases hw
    · injection hw with hw; subst hw; exact h
  | withdraw c st =>
    refine orElse_stays _ fun w hw => ?_
    unfold Delegation.withdrawMsg at hw
    split at hw
    · cases hw
    · split at hw
      · cases hw
      · injection hw with hw; subst hw; exact h
  | updateParams a p =>
    refine orElse_stays _ fun w hw => ?_
    unfold Delegation.updateParams at hw
    split at hw
    · cases hw
    · split at hw
      · cases hw
      · injection hw with hw; subst hw; exact h
  | payout st c =>
    refine orElse_stays _ fun w hw => ?_
    unfold Delegation.payoutRewards at hw
    split at hw
    · injection hw with hw; subst hw; exact h
    · split at hw
      · cases hw
      · split at hw
        · cases hw
        · injection hw with hw; subst hw; exact h
  | slash st t =>
    show (Delegation.slashDelegators y.w st t).s.halted = true
    unfold Delegation.slashDelegators
    split
    · exact h
    · show (y.w.s.halted || _) = true
      rw [h]; rfl
  | beginBlock dt r => exact beginBlock_stays h _ r
  | external b g => exact h

theorem micro_stopped (gov : Addr) {c : Chain} (h : Stopped c) (μ : Micro) : Stopped (μ.run gov c) := by
  have orElse_stays : ∀ r : Except String Chain, (∀ d, r = .ok d → Stopped d) → Stopped (c.orElse r) := by
    intro r hr
    cases r with
    | error e => exact h
    | ok d => exact hr d rfl
  cases μ with
  | del act => exact stopped_withDel h (fun hh => delStep_stays gov (y := ⟨c.dw, c.now⟩) hh act)
  | st op => exact h
  | join m =>
    refine orElse_stays _ fun d hd => ?_
    unfold Chain.join at hd
    split at hd
    · cases hd
    · injection hd with hd; subst hd; exact h
  | fund op => exact h
  | pool op => exact h
  | createPool m =>
    refine orElse_stays _ fun d hd => ?_
    unfold Chain.createPool at hd
    split at hd
    · cases hd
    · injection hd with hd; subst hd; exact h
  | pay b hl => exact h
  | blank id n => exact h
  | next id n t => exact h
  | cast id a v => exact h
  | register m n =>
    show Stopped (c.register m n)
    unfold Chain.register
    split
    · exact h
    · exact h
  | progress id l => exact h
  | finalize id v =>
    show Stopped (c.finalize id v)
    unfold Chain.finalize
    split
    · exact h
    · exact h
  | bundlesParams a y =>
    refine orElse_stays _ fun d hd => ?_
    obtain ⟨s, _, rfl⟩ := map_ok hd
    exact h
  | block dt r => exact h.imp (fun hh => beginBlock_stays (w := (c.newBlock dt r).dw) hh _ r) id
  | external b gd gs gf => exact h
  | crash => exact Or.inr rfl

theorem _root_.Verif.Chain.Steps.stopped {gov : Addr} {c c' : Chain} (h : Steps gov c c') (hs : Stopped c) : Stopped c' := by
  induction h with
  | refl => exact hs
  | tail μ _ _ ih => exact micro_stopped gov ih μ

theorem _root_.Verif.Chain.QSteps.stopped {gov : Addr} {c c' : Chain} (h : QSteps gov c c') (hs : Stopped c) : Stopped c' := by
  induction h with
  | refl => exact hs
  | tail q _ _ _ ih => exact micro_stopped gov ih q.micro

/-! ### after the tally -/

theorem Rel.lift {c c' d d' : Chain} (h : Rel E z c c') (f : Sim E c c' → Sim E d d') (g : Stopped c → Stopped d)
    (g' : Stopped c' → Stopped d') : Rel E z d d' := by
  rcases h with h | ⟨hz, h1, h2⟩
  · exact Or.inl (f h)
  · exact Or.inr ⟨hz, g h1, g' h2⟩

theorem stopped_finalize {c : Chain} (h : Stopped c) (id : Nat) (v : VoteDist) : Stopped (c.finalize id v) :=
  micro_stopped 0 h (.finalize id v)

theorem stopped_register {c : Chain} (h : Stopped c) (m : SubmitMsg) (n : Option Addr) : Stopped (c.register m n) :=
  micro_stopped 0 h (.register m n)

theorem stopped_pointLate {c : Chain} (h : Stopped c) (id : Nat) (o : Option Addr) : Stopped (c.pointLate id o) :=
  (pointLate_q 0 c id o).stopped h

section after
variable {c c' : Chain} {p p' : Proposal}
include hE

theorem finalize_sim (h : Sim E c c') (id : Nat) (v : VoteDist) : Sim E (c.finalize id v) (c'.finalize id v) := by
  have hp := h.prop hE id
  unfold finalize
  rw [h.pool]
  cases c'.pool.pools.get? id with
  | none => exact h
  | some pl =>
    have hb : c.bundleOf pl (c.proposal id) v = c'.bundleOf pl (c'.proposal id) v := by
      unfold bundleOf
      rw [hp.storageId, hp.uploader, hp.bundleSize, hp.fromKey, hp.toKey, hp.summary, hp.dataHash, hp.storageProviderId,
        hp.compressionId, h.now]
    show Sim E { c with bun := _, pool := _ } { c' with bun := _, pool := _ }
    rw [hb, hp.bundleSize, hp.toKey, hp.summary]
    refine h.of_core ?_ rfl rfl
    generalize Pool.incrementBundleInformation c'.pool id (u64add pl.currentIndex (c'.proposal id).bundleSize)
            (c'.proposal id).toKey (c'.proposal id).summary = ps
    generalize c'.bundleOf pl (c'.proposal id) v = fb
    show ({ c.er with
      bun := { c.er.bun with finalized := c.er.bun.finalized.set (id, pl.totalBundles) fb }
      pool := ps } : Chain) = { c'.er with
      bun := { c'.er.bun with finalized := c'.er.bun.finalized.set (id, pl.totalBundles) fb }
      pool := ps }
    rw [h.core]

omit hE in
theorem choice_sim (h : Sim E c c') (id : Nat) (l : List Addr) : c.choice id l = c'.choice id l := h.choice id l

theorem choiceFrom_sim (h : Sim E c c') (id : Nat) {l l' : List Addr} (hl : E l l') :
    c.choiceFrom id l = c'.choiceFrom id l' := by
  have hc : ∀ vs : List Bundles.Val, Bundles.complement vs l = Bundles.complement vs l' := by
    intro vs
    unfold Bundles.complement
    refine List.filter_congr fun a _ => ?_
    simp only [(hE.perm hl).mem_iff]
  unfold choiceFrom Bundles.chooseFromList
  rw [hc, h.members, h.amount, show c.bun.progressOf id = c'.bun.progressOf id from
    (congrArg (fun x : Chain => x.bun.progressOf id) h.core :)]

theorem register_sim (h : Sim E c c') (m : SubmitMsg) (n : Option Addr) : Sim E (c.register m n) (c'.register m n) := by
  unfold register
  rw [h.pool, h.now]
  cases c'.pool.pools.get? m.pool with
  | none => exact h
  | some pl => exact h.setProposal _ (PropSim.refl hE _)

theorem drop_sim (h : Sim E c c') (id : Nat) (n : Option Addr) : Sim E (c.drop id n) (c'.drop id n) := by
  unfold drop
  rw [h.now]
  exact h.setProposal _ (PropSim.refl hE _)

theorem submitFirst_sim (h : Sim E c c') (m : SubmitMsg) : Sim E (c.submitFirst m) (c'.submitFirst m) := by
  unfold submitFirst
  rw [choice_sim h]
  exact register_sim hE (h.setProgress _ _) m _

theorem submitNext_sim (h : Sim E c c') (hp : PropSim E p p') (m : SubmitMsg) (v : VoteDist) :
    Sim E (c.submitNext m p v) (c'.submitNext m p' v) := by
  unfold submitNext
  rw [choiceFrom_sim hE h m.pool hp.valid]
  exact register_sim hE (finalize_sim hE (h.setProgress _ _) _ _) m _

theorem submitTallied_sim (hp : PropSim E p p') (m : SubmitMsg) {o o' : Out} (h : OutRel E z o o') :
    ExRel (Rel E z) (submitTallied m p o) (submitTallied m p' o') := by
  cases o <;> cases o' <;> first | exact h.elim | skip
  · rename_i c v c' v'
    obtain ⟨h, rfl⟩ := h
    have st : ∀ (d : Chain) (q : Proposal), Stopped d → Stopped (d.submitNext m q v) := by
      intro d q hd
      unfold submitNext
      exact stopped_register (stopped_finalize (c := d.setProgress m.pool _) hd _ _) _ _
    cases hv : v.status with
    | valid =>
      simp only [submitTallied, hv]
      exact h.lift (fun h => submitNext_sim hE h hp m v) (st c p) (st c' p')
    | invalid =>
      simp only [submitTallied, hv]
      rw [hp.nextUploader]
      exact h.lift (fun h => drop_sim hE h _ _) id id
    | unspecified => simp only [submitTallied, hv]; rfl
    | noQuorum => simp only [submitTallied, hv]; rfl
  · rfl
  · rfl

theorem submit_sim (hS : Slashes E z) (h : Sim E c c') (m : SubmitMsg) : ExRel (Rel E z) (c.submit m) (c'.submit m) := by
  have hp := h.prop hE m.pool
  have e1 : c.canPropose m.pool m.staker m.creator m.fromIndex = c'.canPropose m.pool m.staker m.creator m.fromIndex := by
    unfold canPropose
    rw [h.runError, h.authorized, h.pool, hp.nextUploader, h.now, hp.updatedAt, hp.bundleSize]
  have e2 : c.submitArgs m = c'.submitArgs m := by
    unfold submitArgs
    rw [h.pool, hp.bundleSize]
  unfold submit
  rw [e1, e2]
  cases c'.canPropose m.pool m.staker m.creator m.fromIndex with
  | some e => rfl
  | none =>
    cases c'.submitArgs m with
    | some e => rfl
    | none =>
      show ExRel (Rel E z) ((c.resetPoints m.pool m.staker).submitGo m) ((c'.resetPoints m.pool m.staker).submitGo m)
      have h' := h.resetPoints m.pool m.staker
      have hp' := h'.prop hE m.pool
      unfold submitGo
      rw [hp'.storageId]
      split
      · exact Or.inl (submitFirst_sim hE h' m)
      · exact submitTallied_sim hE hp' m (tally_sim hE hS h' hp' m.pool)

theorem skipOutcome_sim (h : Sim E c c') (hp : PropSim E p p') (id : Nat) (v : VoteDist) (n : Option Addr) :
    Sim E (c.skipOutcome id p v n) (c'.skipOutcome id p' v n) := by
  unfold skipOutcome
  rw [h.now]
  cases v.status with
  | valid => exact (finalize_sim hE h id v).setProposal id (PropSim.refl hE _)
  | invalid => exact drop_sim hE h id n
  | unspecified => exact h.setProposal id (hp.next n _)
  | noQuorum => exact h.setProposal id (hp.next n _)

omit hE in
theorem stopped_skipOutcome (h : Stopped c) (id : Nat) (v : VoteDist) (n : Option Addr) :
    Stopped (c.skipOutcome id p v n) := by
  unfold skipOutcome
  cases v.status with
  | valid => exact stopped_finalize h id v
  | invalid => exact h
  | unspecified => exact h
  | noQuorum => exact h

theorem skip_sim (hS : Slashes E z) (h : Sim E c c') (m : SkipMsg) : ExRel (Rel E z) (c.skip m) (c'.skip m) := by
  have hp := h.prop hE m.pool
  have e1 : c.canPropose m.pool m.staker m.creator m.fromIndex = c'.canPropose m.pool m.staker m.creator m.fromIndex := by
    unfold canPropose
    rw [h.runError, h.authorized, h.pool, hp.nextUploader, h.now, hp.updatedAt, hp.bundleSize]
  unfold skip
  rw [e1]
  cases c'.canPropose m.pool m.staker m.creator m.fromIndex with
  | some e => rfl
  | none =>
    have ht := tally_sim hE hS (h.resetPoints m.pool m.staker) hp m.pool
    show ExRel (Rel E z) (skipTallied m _ _) (skipTallied m _ _)
    generalize (c.resetPoints m.pool m.staker).tally m.pool (c.proposal m.pool) = o at ht ⊢
    generalize (c'.resetPoints m.pool m.staker).tally m.pool (c'.proposal m.pool) = o' at ht ⊢
    cases o <;> cases o' <;> first | exact ht.elim | skip
    · rename_i d v d' v'
      obtain ⟨hd, rfl⟩ := ht
      refine hd.lift (fun h => ?_) (fun h => stopped_skipOutcome (c := d.setProgress m.pool _) h _ _ _)
        (fun h => stopped_skipOutcome (c := d'.setProgress m.pool _) h _ _ _)
      rw [choice_sim h]
      exact skipOutcome_sim hE (h.setProgress _ _) hp m.pool v _
    · rfl
    · rfl

theorem claim_sim (h : Sim E c c') (cr st : Addr) (id : Nat) : ExRel (Rel E z) (c.claim cr st id) (c'.claim cr st id) := by
  have hp := h.prop hE id
  unfold claim
  rw [h.runError, h.authorized, hp.nextUploader, h.now]
  split
  · rfl
  · split
    · rfl
    · split
      · rfl
      · exact Or.inl (h.setProposal id (hp.next _ _))

theorem castVote_sim (hp : PropSim E p p') (a : Addr) (v : Vote) : ExRel (PropSim E) (castVote p a v) (castVote p' a v) := by
  cases v with
  | unspecified => rfl
  | valid => exact ⟨hp.rest, hE.app a hp.valid, hp.invalid, hE.rem a hp.abstain⟩
  | invalid => exact ⟨hp.rest, hp.valid, hE.app a hp.invalid, hE.rem a hp.abstain⟩
  | abstain =>
    unfold castVote
    by_cases e : a ∈ p.abstain
    · rw [if_pos e, if_pos ((hE.perm hp.abstain).mem_iff.1 e)]; rfl
    · rw [if_neg e, if_neg (fun x => e ((hE.perm hp.abstain).mem_iff.2 x))]
      exact ⟨hp.rest, hp.valid, hp.invalid, hE.app a hp.abstain⟩

theorem canVote_sim (h : Sim E c c') (id : Nat) (st vo : Addr) (s : Nat) : c.canVote id st vo s = c'.canVote id st vo s := by
  have hp := h.prop hE id
  unfold canVote
  simp only [h.runError, h.authorized, hp.storageId, (hE.perm hp.valid).mem_iff, (hE.perm hp.invalid).mem_iff]

theorem vote_sim (h : Sim E c c') (m : VoteMsg) : ExRel (Sim E) (c.vote m) (c'.vote m) := by
  unfold vote
  rw [canVote_sim hE h]
  cases c'.canVote m.pool m.staker m.creator m.storageId with
  | some e => rfl
  | none =>
    have := castVote_sim hE (h.prop hE m.pool) m.staker m.vote
    show ExRel (Sim E) (match castVote (c.proposal m.pool) m.staker m.vote with | .error e => _ | .ok p => _)
      (match castVote (c'.proposal m.pool) m.staker m.vote with | .error e => _ | .ok p => _)
    cases e1 : castVote (c.proposal m.pool) m.staker m.vote <;> cases e2 : castVote (c'.proposal m.pool) m.staker m.vote <;>
      rw [e1, e2] at this
    · exact this
    · exact this.elim
    · exact this.elim
    · exact (h.setProposal _ this).resetPoints _ _

end after

end Chain
end Verif.Chain
