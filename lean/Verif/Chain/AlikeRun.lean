import Verif.Chain.AlikeOps

/-!
# Blocks and histories of alike states
-/

set_option linter.dupNamespace false

namespace Verif.Chain
open Verif
open Verif.Bundles (Proposal FBundle VoteDist Status Reward)

namespace Chain

variable {E : List Addr → List Addr → Prop} (hE : Lists E) {z : Bool}

/-! ### end block -/

/-- alike, both panicked, or (if `z`) everything is stopped -/
def VRel (E : List Addr → List Addr → Prop) (z : Bool) (o o' : Option Chain) : Prop :=
  OptSim (Sim E) o o' ∨ (z = true ∧ (∀ d, o = some d → Stopped d) ∧ ∀ d, o' = some d → Stopped d)

theorem VRel.of_rel {c c' : Chain} (h : Rel E z c c') : VRel E z (some c) (some c') := by
  rcases h with h | ⟨hz, h1, h2⟩
  · exact Or.inl h
  · exact Or.inr ⟨hz, fun d hd => by cases hd; exact h1, fun d hd => by cases hd; exact h2⟩

section visit
variable {c c' : Chain} {p p' : Proposal}
include hE

theorem visitStopped_sim (h : Sim E c c') (id : Nat) (e : RunErr) : Sim E (c.visitStopped id e) (c'.visitStopped id e) := by
  have hp := h.prop hE id
  unfold visitStopped
  rw [hp.storageId, hp.nextUploader]
  split
  · exact drop_sim hE h id none
  · split
    · refine h.setProposal id ?_
      have := hp.next none (c.proposal id).updatedAt
      rw [show ({ c'.proposal id with nextUploader := none, updatedAt := (c.proposal id).updatedAt } : Proposal)
        = { c'.proposal id with nextUploader := none } by rw [hp.updatedAt]] at this
      exact this
    · exact h

theorem visitNoQuorum_sim (h : Sim E c c') (id : Nat) : Sim E (c.visitNoQuorum id) (c'.visitNoQuorum id) := by
  have hn := nonVoters_sim hE h id
  unfold visitNoQuorum
  rw [choice_sim hn]
  exact drop_sim hE (hn.setProgress _ _) _ _

omit hE in
theorem pointLate_sim (h : Sim E c c') (id : Nat) (o : Option Addr) : Sim E (c.pointLate id o) (c'.pointLate id o) := by
  unfold pointLate
  cases o with
  | none => exact h
  | some a =>
    show Sim E (if c.member id a then _ else _) (if c'.member id a then _ else _)
    rw [h.member]
    split
    · exact h.addPoint id a
    · exact h

theorem visitValid_sim (h : Sim E c c') (hp : PropSim E p p') (id : Nat) (v : VoteDist) :
    Sim E (c.visitValid id p v) (c'.visitValid id p' v) := by
  unfold visitValid
  rw [choiceFrom_sim hE h id hp.valid, h.now]
  exact (finalize_sim hE (h.setProgress _ _) _ _).setProposal _ (PropSim.refl hE _)

theorem visitOther_sim (h : Sim E c c') (id : Nat) : Sim E (c.visitOther id) (c'.visitOther id) := by
  unfold visitOther
  rw [choice_sim h]
  exact drop_sim hE (h.setProgress _ _) _ _

omit hE in
theorem stopped_visitValid (h : Stopped c) (id : Nat) (v : VoteDist) : Stopped (c.visitValid id p v) := by
  unfold visitValid
  exact stopped_of (stopped_finalize (c := c.setProgress id _) h id v) rfl rfl

omit hE in
theorem stopped_visitTallied (id : Nat) {o : Out} (ho : o.All Stopped) : ∀ d, visitTallied id p o = some d → Stopped d := by
  intro d hd
  cases o with
  | panicked => cases hd
  | failed e => cases hd; exact ho
  | done e v =>
    cases hd
    refine stopped_pointLate ?_ _ _
    split
    · exact stopped_visitValid ho _ _
    · exact stopped_of ho rfl rfl

theorem visitTallied_sim (hp : PropSim E p p') (id : Nat) {o o' : Out} (h : OutRel E z o o') :
    VRel E z (visitTallied id p o) (visitTallied id p' o') := by
  cases o <;> cases o' <;> first | exact h.elim | skip
  · rename_i d v d' v'
    obtain ⟨hd, rfl⟩ := h
    refine VRel.of_rel ?_
    rw [hp.nextUploader]
    refine hd.lift (fun h => pointLate_sim ?_ _ _) (fun h => stopped_pointLate ?_ _ _) (fun h => stopped_pointLate ?_ _ _)
    · split
      · exact visitValid_sim hE h hp id v
      · exact visitOther_sim hE h id
    · split
      · exact stopped_visitValid h _ _
      · exact stopped_of h rfl rfl
    · split
      · exact stopped_visitValid h _ _
      · exact stopped_of h rfl rfl
  · exact VRel.of_rel h
  · exact Or.inl trivial

theorem visitEmpty_sim (h : Sim E c c') (id : Nat) : Sim E (c.visitEmpty id) (c'.visitEmpty id) := by
  have hp := h.prop hE id
  unfold visitEmpty
  rw [choice_sim h, hp.nextUploader, h.now]
  exact pointLate_sim ((h.setProgress _ _).setProposal _ (hp.next _ _)) _ _

omit hE in
theorem stopped_visitEmpty (h : Stopped c) (id : Nat) : Stopped (c.visitEmpty id) := by
  unfold visitEmpty
  refine stopped_pointLate ?_ _ _
  exact h

omit hE in
theorem stopped_tally (h : Stopped c) (id : Nat) (p : Proposal) : (c.tally id p).All Stopped := by
  have := tally_q 0 c id p
  cases e : c.tally id p with
  | panicked => trivial
  | failed d => rw [e] at this; exact this.stopped h
  | done d v => rw [e] at this; exact this.stopped h

theorem visit_sim (hS : Slashes E z) (h : Sim E c c') (id interval : Nat) : VRel E z (c.visit id interval) (c'.visit id interval) := by
  have hp := h.prop hE id
  unfold visit
  rw [h.runError]
  cases c'.runError id with
  | some e => exact VRel.of_rel (Or.inl (visitStopped_sim hE h id e))
  | none =>
    show VRel E z (c.visitRunning id interval) (c'.visitRunning id interval)
    unfold visitRunning visitTimeout
    rw [h.now, hp.updatedAt, hp.storageId, dist_sim hE h, h.params]
    split
    · exact VRel.of_rel (Or.inl h)
    · split
      · exact VRel.of_rel (Or.inl (visitNoQuorum_sim hE h id))
      · split
        · exact VRel.of_rel (Or.inl h)
        · split
          · exact visitTallied_sim hE hp id (tally_sim hE hS h hp id)
          · exact VRel.of_rel (Or.inl (visitEmpty_sim hE h id))

omit hE in
theorem stopped_visit (h : Stopped c) (id interval : Nat) : ∀ d, c.visit id interval = some d → Stopped d := by
  intro d hd
  unfold visit at hd
  cases e : c.runError id with
  | some e' =>
    rw [e] at hd
    cases hd
    unfold visitStopped
    split
    · exact h
    · split
      · exact h
      · exact h
  | none =>
    rw [e] at hd
    replace hd : c.visitRunning id interval = some d := hd
    unfold visitRunning visitTimeout at hd
    split at hd
    · cases hd; exact h
    · split at hd
      · cases hd
        unfold visitNoQuorum
        exact stopped_of ((nonVoters_q 0 c id).stopped h) rfl rfl
      · split at hd
        · cases hd; exact h
        · split at hd
          · exact stopped_visitTallied id (stopped_tally h id _) d hd
          · cases hd; exact stopped_visitEmpty h id

theorem visits_rel (hS : Slashes E z) (l : List (Nat × Pool.Pool)) : ∀ {c c' : Chain}, Rel E z c c' →
    VRel E z (visits l c) (visits l c') := by
  have hst : ∀ (l : List (Nat × Pool.Pool)) (c : Chain), Stopped c → ∀ d, visits l c = some d → Stopped d := by
    intro l
    induction l with
    | nil => intro c h d hd; cases hd; exact h
    | cons e l ih =>
      intro c h d hd
      unfold visits at hd
      cases hv : c.visit e.1 e.2.uploadInterval with
      | none => rw [hv] at hd; cases hd
      | some c1 => rw [hv] at hd; exact ih c1 (stopped_visit h _ _ c1 hv) d hd
  induction l with
  | nil => exact fun h => VRel.of_rel h
  | cons e l ih =>
    intro c c' h
    rcases h with h | ⟨hz, h1, h2⟩
    · have hv := visit_sim hE hS h e.1 e.2.uploadInterval
      unfold visits
      rcases hv with hv | ⟨hz, h1, h2⟩
      · cases e1 : c.visit e.1 e.2.uploadInterval <;> cases e2 : c'.visit e.1 e.2.uploadInterval <;> rw [e1, e2] at hv
        · exact Or.inl trivial
        · exact hv.elim
        · exact hv.elim
        · exact ih (Or.inl hv)
      · right
        refine ⟨hz, fun d hd => ?_, fun d hd => ?_⟩
        · cases e1 : c.visit e.1 e.2.uploadInterval with
          | none => rw [e1] at hd; cases hd
          | some c1 => rw [e1] at hd; exact hst l c1 (h1 c1 e1) d hd
        · cases e1 : c'.visit e.1 e.2.uploadInterval with
          | none => rw [e1] at hd; cases hd
          | some c1 => rw [e1] at hd; exact hst l c1 (h2 c1 e1) d hd
    · exact Or.inr ⟨hz, hst _ _ h1, hst _ _ h2⟩

theorem endBlock_sim (hS : Slashes E z) (h : Sim E c c') : Rel E z c.endBlock c'.endBlock := by
  have hu : Sim E c.upgradePools c'.upgradePools := by
    have e : Pool.handlePoolUpgrades c.pool c.now = Pool.handlePoolUpgrades c'.pool c'.now := by rw [h.pool, h.now]
    unfold upgradePools
    rw [e]
    exact h.setPool _
  have hv := visits_rel hE hS (c'.upgradePools.pool.pools.toList) (Or.inl hu : Rel E z _ _)
  have crash : Sim E { c with crashed := true } { c' with crashed := true } := by
    refine h.of_core ?_ rfl rfl
    show ({ c.er with crashed := true } : Chain) = { c'.er with crashed := true }
    rw [h.core]
  unfold endBlock
  rw [hu.pool]
  cases e1 : visits c'.upgradePools.pool.pools.toList c.upgradePools <;>
    cases e2 : visits c'.upgradePools.pool.pools.toList c'.upgradePools <;> rw [e1, e2] at hv
  · exact Or.inl crash
  · rcases hv with hv | ⟨hz, _, h2⟩
    · exact hv.elim
    · exact Or.inr ⟨hz, Or.inr rfl, h2 _ rfl⟩
  · rcases hv with hv | ⟨hz, h1, _⟩
    · exact hv.elim
    · exact Or.inr ⟨hz, h1 _ rfl, Or.inr rfl⟩
  · rcases hv with hv | ⟨hz, h1, h2⟩
    · exact Or.inl hv
    · exact Or.inr ⟨hz, h1 _ rfl, h2 _ rfl⟩

end visit

/-! ### begin block -/

section begin
variable {c c' : Chain}

theorem inflTransfers_sim (l : List (Nat × Nat)) : ∀ {c c' : Chain}, Sim E c c' →
    OptSim (Sim E) (inflTransfers l c) (inflTransfers l c') := by
  induction l with
  | nil => exact fun h => h
  | cons t l ih =>
    intro c c' h
    have ht : OptSim (Sim E) (c.inflTransfer t) (c'.inflTransfer t) := by
      unfold inflTransfer
      rw [h.b, h.halted]
      split
      · refine h.of_core ?_ rfl rfl
        generalize (c'.b.orKeep (c'.b.send (.mod .feeCollector) (.pool t.1) (Coins.single kyve t.2))) = x
        generalize (c'.halted || Bank.failed (c'.b.send (.mod .feeCollector) (.pool t.1) (Coins.single kyve t.2))) = y
        show ({ c.er with b := x, halted := y } : Chain) = { c'.er with b := x, halted := y }
        rw [h.core]
      · trivial
    unfold inflTransfers
    cases e1 : c.inflTransfer t <;> cases e2 : c'.inflTransfer t <;> rw [e1, e2] at ht
    · trivial
    · exact ht.elim
    · exact ht.elim
    · exact ih ht

theorem newBlock_sim (h : Sim E c c') (dt : Nat) (r r' : Bool) : Sim E (c.newBlock dt r) (c'.newBlock dt r') := by
  have e : ∀ (c : Chain) (r : Bool), (c.newBlock dt r).er = { c.er with now := c.er.now + dt } := by
    intro c r; cases r <;> rfl
  have p : ∀ (c : Chain) (r : Bool), (c.newBlock dt r).bun.proposals = c.bun.proposals := by
    intro c r; cases r <;> rfl
  exact h.of_core (by rw [e, e, h.core]) (p c r) (p c' r')

theorem beginBlock_sim (h : Sim E c c') (dt pr te : Nat) (r r' : Bool) :
    Sim E (c.beginBlock dt pr te r) (c'.beginBlock dt pr te r') := by
  have hn := newBlock_sim h dt r r'
  have hs : OptSim (Sim E) ((c.newBlock dt r).splitInflation pr te) ((c'.newBlock dt r').splitInflation pr te) := by
    have hi : (c.newBlock dt r).inflPools = (c'.newBlock dt r').inflPools :=
      (congrArg (fun x : Chain => x.inflPools) hn.core :)
    unfold splitInflation
    rw [hi, hn.pool]
    exact inflTransfers_sim _ hn
  unfold beginBlock
  generalize (c.newBlock dt r).splitInflation pr te = o at hs ⊢
  generalize (c'.newBlock dt r').splitInflation pr te = o' at hs ⊢
  cases o <;> cases o'
  · refine h.of_core ?_ rfl rfl
    show ({ c.er with crashed := true } : Chain) = { c'.er with crashed := true }
    rw [h.core]
  · exact hs.elim
  · exact hs.elim
  · rename_i d d'
    replace hs : Sim E d d' := hs
    show Sim E (d.queues r) (d'.queues r')
    have hd := Delegation.er_beginBlock d.dw d'.dw d.now r r' hs.dw
    have hst := Stakers.er_beginBlock d.st d'.st d.now hs.st
    unfold queues
    rw [← hs.now]
    exact (hs.withDel hd).setSt hst

end begin

/-! ### all operations -/

/-- the same operation, except that the node may have been restarted before the block or not -/
inductive Op.Same : Op → Op → Prop
  | refl (op : Op) : Op.Same op op
  | restart (dt pr te : Nat) (r r' : Bool) : Op.Same (.beginBlock dt pr te r) (.beginBlock dt pr te r')

section exec
variable {c c' : Chain}

theorem sw_sim (h : Sim E c c') {f : Stakers.World → Except String Stakers.World}
    (hf : ∀ w, (f w.er).map Stakers.World.er = (f w).map Stakers.World.er) :
    ExRel (Rel E z) ((f c.sw).map c.withSt) ((f c'.sw).map c'.withSt) :=
  (ExRel.of_map (show (f c.sw).map Stakers.World.er = (f c'.sw).map Stakers.World.er by rw [← hf, h.sw, hf])).map
    fun _ _ e => Or.inl (h.withSt e)

theorem st_sim (h : Sim E c c') {f : Stakers.State → Except String Stakers.State}
    (hf : ∀ s, (f s.er).map Stakers.State.er = (f s).map Stakers.State.er) :
    ExRel (Rel E z) ((f c.st).map (fun s => { c with st := s })) ((f c'.st).map (fun s => { c' with st := s })) :=
  (ExRel.of_map (show (f c.st).map Stakers.State.er = (f c'.st).map Stakers.State.er by rw [← hf, h.st, hf])).map
    fun _ _ e => Or.inl (h.setSt e)

theorem dw_sim (h : Sim E c c') {f : Delegation.World → Except String Delegation.World}
    (hf : ∀ w, (f w.er).map Delegation.World.er = (f w).map Delegation.World.er) :
    ExRel (Rel E z) ((f c.dw).map c.withDel) ((f c'.dw).map c'.withDel) :=
  (ExRel.of_map (show (f c.dw).map Delegation.World.er = (f c'.dw).map Delegation.World.er by rw [← hf, h.dw, hf])).map
    fun _ _ e => Or.inl (h.withDel e)

theorem map_er_st {f : Stakers.State → Except String Stakers.State} (hf : ∀ s, f s.er = (f s).map Stakers.State.er)
    (s : Stakers.State) : (f s.er).map Stakers.State.er = (f s).map Stakers.State.er := by
  rw [hf]; cases f s <;> rfl

theorem kickAll_sim (id : Nat) (l : List Addr) : ∀ {c c' : Chain}, Sim E c c' → Sim E (kickAll id l c) (kickAll id l c') := by
  induction l with
  | nil => exact fun h => h
  | cons a l ih => exact fun h => ih (h.kick id a)

theorem drain_sim (h : Sim E c c') (id : Nat) : ExRel (Rel E z) (c.drain id) (c'.drain id) := by
  unfold drain
  rw [h.b]
  split
  · exact Or.inl h
  · split
    · rfl
    · cases c'.b.send (.pool id) (.mod .treasury) (Coins.single kyve ((c'.b (.pool id)).amt kyve)) with
      | error e => rfl
      | ok b => exact Or.inl (h.setBank b)

theorem createStaker_sim (h : Sim E c c') (a : Addr) (k : Dec) (n : Nat) :
    ExRel (Rel E z) (c.createStaker a k n) (c'.createStaker a k n) := by
  have h1 := ExRel.of_map (show (Stakers.createStaker c.st a k true).map Stakers.State.er
      = (Stakers.createStaker c'.st a k true).map Stakers.State.er by
    rw [← Stakers.er_createStaker, h.st, Stakers.er_createStaker])
  have h2 := ExRel.of_map (show (Delegation.delegateMsg c.dw true a a n).map Delegation.World.er
      = (Delegation.delegateMsg c'.dw true a a n).map Delegation.World.er by
    rw [← Delegation.er_delegateMsg, h.dw, Delegation.er_delegateMsg])
  unfold createStaker
  cases e1 : Stakers.createStaker c.st a k true <;> cases e2 : Stakers.createStaker c'.st a k true <;> rw [e1, e2] at h1
  · exact h1
  · exact h1.elim
  · exact h1.elim
  · cases e3 : Delegation.delegateMsg c.dw true a a n <;> cases e4 : Delegation.delegateMsg c'.dw true a a n <;> rw [e3, e4] at h2
    · exact h2
    · exact h2.elim
    · exact h2.elim
    · exact Or.inl ((h.withDel h2).setSt h1)

theorem join_sim (h : Sim E c c') (m : Stakers.JoinMsg) : ExRel (Rel E z) (c.join m) (c'.join m) := by
  have ha : c.poolAnswer m.pool = c'.poolAnswer m.pool := (congrArg (fun x : Chain => x.poolAnswer m.pool) h.core :)
  have h1 := ExRel.of_map (show (Stakers.joinPool c.sw c'.now (c'.poolAnswer m.pool) c'.del.amount m).map Stakers.World.er
      = (Stakers.joinPool c'.sw c'.now (c'.poolAnswer m.pool) c'.del.amount m).map Stakers.World.er by
    rw [← Stakers.er_joinPool, h.sw, Stakers.er_joinPool])
  unfold join
  rw [h.now, ha, h.amount]
  cases e1 : Stakers.joinPool c.sw c'.now (c'.poolAnswer m.pool) c'.del.amount m <;>
    cases e2 : Stakers.joinPool c'.sw c'.now (c'.poolAnswer m.pool) c'.del.amount m <;> rw [e1, e2] at h1
  · exact h1
  · exact h1.elim
  · exact h1.elim
  · rename_i w w'
    left
    have hw : (Stakers.noteGift m c.sw w).er = (Stakers.noteGift m c'.sw w').er := by
      rw [← Stakers.er_noteGift, ← Stakers.er_noteGift, h.sw, show w.er = w'.er from h1]
    refine (h.withSt hw).of_core ?_ rfl rfl
    show (((c.er).withSt (Stakers.noteGift m c.sw w).er).noteGifts m) = (((c'.er).withSt (Stakers.noteGift m c'.sw w').er).noteGifts m)
    rw [h.core, hw]

theorem disablePool_sim (gov : Addr) (h : Sim E c c') (a : Addr) (id : Nat) :
    ExRel (Rel E z) (disablePool gov c a id) (disablePool gov c' a id) := by
  have e : Pool.disable gov c.pool a id = Pool.disable gov c'.pool a id := by rw [h.pool]
  unfold disablePool
  rw [e, h.members]
  cases Pool.disable gov c'.pool a id with
  | error e => rfl
  | ok s => exact drain_sim (kickAll_sim id _ (h.setPool s)) id

theorem createPool_sim (gov : Addr) (h : Sim E c c') (m : Pool.CreateMsg) :
    ExRel (Rel E z) (createPool gov c m) (createPool gov c' m) := by
  have e : Pool.create gov c.pool c.now m = Pool.create gov c'.pool c'.now m := by rw [h.pool, h.now]
  have e' : c.fund.createFundingState c.pool.count = c'.fund.createFundingState c'.pool.count := by rw [h.fund, h.pool]
  unfold createPool
  rw [e, e']
  cases Pool.create gov c'.pool c'.now m with
  | error e => rfl
  | ok s => exact Or.inl ((h.setPool s).setFund _)

theorem pool_sim (h : Sim E c c') {r r' : Except String Pool.State} (e : r = r') :
    ExRel (Rel E z) (r.map (fun s => { c with pool := s })) (r'.map (fun s => { c' with pool := s })) := by
  subst e
  exact (ExRel.same (fun _ => rfl) r).map (fun a b e => by subst e; exact Or.inl (h.setPool a))

theorem fund_sim (h : Sim E c c') {r r' : Except String Funders.State} (e : r = r') :
    ExRel (Rel E z) (r.map (fun s => { c with fund := s })) (r'.map (fun s => { c' with fund := s })) := by
  subst e
  exact (ExRel.same (fun _ => rfl) r).map (fun a b e => by subst e; exact Or.inl (h.setFund a))

theorem fundBank_sim (h : Sim E c c') {r r' : Except String (Funders.State × Bank)} (e : r = r') :
    ExRel (Rel E z) (r.map (fun s => { c with fund := s.1, b := s.2 })) (r'.map (fun s => { c' with fund := s.1, b := s.2 })) := by
  subst e
  exact (ExRel.same (fun _ => rfl) r).map (fun a b e => by subst e; exact Or.inl (h.setFundBank a.1 a.2))

theorem bundlesParams_sim (gov : Addr) (h : Sim E c c') (a : Addr) (y : Bundles.ParamsPayload) :
    ExRel (Rel E z) ((Bundles.updateParams gov c.bun a y).map (fun s => { c with bun := s }))
      ((Bundles.updateParams gov c'.bun a y).map (fun s => { c' with bun := s })) := by
  unfold Bundles.updateParams
  split
  · rfl
  · split
    · rfl
    · left
      refine h.of_core ?_ rfl rfl
      show ({ c.er with bun := { c.er.bun with params := y.apply c.bun.params } } : Chain)
        = { c'.er with bun := { c'.er.bun with params := y.apply c'.bun.params } }
      rw [h.core, h.params]

include hE in
/-- every operation gives the same answer on alike chains, and alike chains -/
theorem exec_sim (gov : Addr) (hS : Slashes E z) (h : Sim E c c') {op op' : Op} (ho : Op.Same op op') :
    ExRel (Rel E z) (exec gov c op) (exec gov c' op') := by
  cases ho with
  | restart dt pr te r r' => exact Or.inl (beginBlock_sim h dt pr te r r')
  | refl op =>
  cases op with
  | submit m => exact submit_sim hE hS h m
  | vote m => exact (vote_sim hE h m).mono fun _ _ h => Or.inl h
  | skip m => exact skip_sim hE hS h m
  | claim cr st id => exact claim_sim hE h cr st id
  | createStaker a k n => exact createStaker_sim h a k n
  | join m => exact join_sim h m
  | leave a id =>
    have := st_sim (z := z) h (f := fun s => Stakers.leavePool s c'.now id a) (fun s => Stakers.er_leavePool s _ id a)
    show ExRel (Rel E z) ((Stakers.leavePool c.st c.now id a).map _) _
    rw [show Stakers.leavePool c.st c.now id a = Stakers.leavePool c.st c'.now id a by rw [h.now]]
    exact this
  | updateCommission a k =>
    have := st_sim (z := z) h (f := fun s => Stakers.updateCommission s c'.now a k) (fun s => Stakers.er_updateCommission s _ a k)
    show ExRel (Rel E z) ((Stakers.updateCommission c.st c.now a k).map _) _
    rw [show Stakers.updateCommission c.st c.now a k = Stakers.updateCommission c.st c'.now a k by rw [h.now]]
    exact this
  | updateMetadata a i v =>
    exact st_sim h (f := fun s => Stakers.updateMetadata s a i v) (map_er_st (f := fun s => Stakers.updateMetadata s a i v) fun s => Stakers.er_updateMetadata s a i v)
  | claimRewards a x =>
    exact sw_sim h (f := fun w => Stakers.claimRewards w a x)
      (fun w => by rw [Stakers.er_claimRewards]; cases Stakers.claimRewards w a x <;> rfl)
  | delegate a st n =>
    show ExRel (Rel E z) (c.delegate a st n) (c'.delegate a st n)
    unfold delegate
    rw [h.stakers]
    exact dw_sim h (f := fun w => Delegation.delegateMsg w (c'.st.stakers.has st) a st n)
      (fun w => Delegation.er_delegateMsg w _ a st n)
  | redelegate m =>
    show ExRel (Rel E z) (c.redelegate m) (c'.redelegate m)
    unfold redelegate
    rw [h.stakers, h.now, h.valsOf]
    exact dw_sim h (f := fun w => Delegation.redelegateMsg w c'.now (c'.st.stakers.has m.dst) (!(c'.st.valsOf m.dst).isEmpty) m)
      (fun w => Delegation.er_redelegateMsg w _ _ _ m)
  | undelegate a st n =>
    show ExRel (Rel E z) ((Delegation.undelegateMsg c.dw c.now a st n).map _) ((Delegation.undelegateMsg c'.dw c'.now a st n).map _)
    rw [h.now]
    exact dw_sim h (f := fun w => Delegation.undelegateMsg w c'.now a st n) (fun w => Delegation.er_undelegateMsg w _ a st n)
  | withdraw a st =>
    exact dw_sim h (f := fun w => Delegation.withdrawMsg w a st) (fun w => Delegation.er_withdrawMsg w a st)
  | createFunder a => exact fund_sim h (by rw [h.fund])
  | fund m => exact fundBank_sim h (by rw [h.fund, h.b, h.pool])
  | defund m => exact fundBank_sim h (by rw [h.fund, h.b])
  | createPool m => exact createPool_sim gov h m
  | updatePool a id u => exact pool_sim h (by rw [h.pool])
  | enablePool a id => exact pool_sim h (by rw [h.pool])
  | disablePool a id => exact disablePool_sim gov h a id
  | scheduleUpgrade m => exact pool_sim h (by rw [h.pool, h.now])
  | cancelUpgrade a r => exact pool_sim h (by rw [h.pool])
  | bundlesParams a y => exact bundlesParams_sim gov h a y
  | delegationParams a y =>
    exact dw_sim h (f := fun w => Delegation.updateParams gov w a y) (fun w => Delegation.er_updateParams gov w a y)
  | stakersParams a y =>
    exact st_sim h (f := fun s => Stakers.updateParams gov s a y) (map_er_st (f := fun s => Stakers.updateParams gov s a y) fun s => Stakers.er_updateParams gov s a y)
  | poolParams a y => exact pool_sim h (by rw [h.pool])
  | fundersParams a p => exact fund_sim h (by rw [h.fund])
  | beginBlock dt pr te r => exact Or.inl (beginBlock_sim h dt pr te r r)
  | endBlock => exact endBlock_sim hE hS h
  | external b gd gs gf =>
    left
    refine h.of_core ?_ rfl rfl
    show (c.er).external b gd gs gf = (c'.er).external b gd gs gf
    rw [h.core]

end exec

end Chain
end Verif.Chain
