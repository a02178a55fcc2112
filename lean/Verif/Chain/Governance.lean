import Verif.Chain.Pools

/-!
# C52: what only governance can do

Every message with an authority fails for anybody else; the parameters of every module and the settings of every pool
change by those messages only.
-/

set_option linter.dupNamespace false

namespace Verif.Chain
open Verif
open Chain
open Verif.Bundles (Proposal VoteDist Status)

/-- the authority a message names: parameter updates and everything that creates or configures pools -/
def Chain.Op.authority : Chain.Op → Option Addr
  | .createPool m => some m.authority
  | .updatePool a _ _ => some a
  | .enablePool a _ => some a
  | .disablePool a _ => some a
  | .scheduleUpgrade m => some m.authority
  | .cancelUpgrade a _ => some a
  | .bundlesParams a _ => some a
  | .delegationParams a _ => some a
  | .stakersParams a _ => some a
  | .poolParams a _ => some a
  | .fundersParams a _ => some a
  | _ => none

namespace Chain

theorem map_error {ε α β : Type} {x : Except ε α} {f : α → β} (h : ∃ e, x = .error e) : ∃ e, x.map f = .error e := by
  obtain ⟨e, rfl⟩ := h; exact ⟨e, rfl⟩

/-- C52: a governance message from anybody else fails and changes nothing. -/
theorem C52_refused (gov : Addr) (c : Chain) (op : Op) (a : Addr) (h : op.authority = some a) (ha : a ≠ gov) :
    (∃ e, exec gov c op = .error e) ∧ c.step gov op = c := by
  have ha' : gov ≠ a := fun e => ha e.symm
  have key : ∃ e, exec gov c op = .error e := by
    cases op with
    | createPool m =>
      obtain rfl : m.authority = a := Option.some.inj h
      show ∃ e, createPool gov c m = .error e
      have : ∃ e, Pool.create gov c.pool c.now m = .error e := by
        unfold Pool.create
        split
        · exact ⟨_, rfl⟩
        · exact ⟨_, rfl⟩
      obtain ⟨e, he⟩ := this
      exact ⟨e, by unfold createPool; rw [he]⟩
    | updatePool b id u =>
      obtain rfl : b = a := Option.some.inj h
      refine map_error ?_
      unfold Pool.update
      split
      · exact ⟨_, rfl⟩
      · exact ⟨_, rfl⟩
    | enablePool b id =>
      obtain rfl : b = a := Option.some.inj h
      refine map_error ?_
      unfold Pool.enable
      rw [if_pos ha']; exact ⟨_, rfl⟩
    | disablePool b id =>
      obtain rfl : b = a := Option.some.inj h
      show ∃ e, disablePool gov c b id = .error e
      unfold disablePool Pool.disable
      rw [if_pos ha']; exact ⟨_, rfl⟩
    | scheduleUpgrade m =>
      obtain rfl : m.authority = a := Option.some.inj h
      refine map_error ?_
      unfold Pool.schedule
      rw [if_pos ha']; exact ⟨_, rfl⟩
    | cancelUpgrade b r =>
      obtain rfl : b = a := Option.some.inj h
      refine map_error ?_
      unfold Pool.cancel
      rw [if_pos ha']; exact ⟨_, rfl⟩
    | bundlesParams b y =>
      obtain rfl : b = a := Option.some.inj h
      refine map_error ?_
      unfold Bundles.updateParams
      split
      · exact ⟨_, rfl⟩
      · exact ⟨_, rfl⟩
    | delegationParams b y =>
      obtain rfl : b = a := Option.some.inj h
      refine map_error ?_
      unfold Delegation.updateParams
      split
      · exact ⟨_, rfl⟩
      · exact ⟨_, rfl⟩
    | stakersParams b y =>
      obtain rfl : b = a := Option.some.inj h
      exact map_error (Stakers.C52_stakers_params gov c.st b y ha)
    | poolParams b y =>
      obtain rfl : b = a := Option.some.inj h
      refine map_error ?_
      unfold Pool.updateParams
      split
      · exact ⟨_, rfl⟩
      · exact ⟨_, rfl⟩
    | fundersParams b p =>
      obtain rfl : b = a := Option.some.inj h
      refine map_error ?_
      unfold Funders.updateParams
      split
      · exact ⟨_, rfl⟩
      · exact ⟨_, rfl⟩
    | _ => cases h
  refine ⟨key, ?_⟩
  obtain ⟨e, he⟩ := key
  unfold step
  split
  · rfl
  · rw [he]; rfl

/-! ## parameters -/

/-- the parameters of the five modules -/
structure SameParams (c c' : Chain) : Prop where
  bun : c'.bun.params = c.bun.params
  del : c'.del.params = c.del.params
  st : c'.st.params = c.st.params
  fund : c'.fund.params = c.fund.params
  pool : c'.pool.params = c.pool.params

theorem SameParams.refl (c : Chain) : SameParams c c := ⟨rfl, rfl, rfl, rfl, rfl⟩
theorem SameParams.trans {c c' c'' : Chain} (h : SameParams c c') (h' : SameParams c' c'') : SameParams c c'' :=
  ⟨h'.bun.trans h.bun, h'.del.trans h.del, h'.st.trans h.st, h'.fund.trans h.fund, h'.pool.trans h.pool⟩

theorem charge_params (gov : Addr) (w : Funders.World) (id : Nat) :
    (Funders.step gov w (.charge id)).s.params = w.s.params := by
  have loop : ∀ (fs : List Funders.Funding) (x : Funders.Charge), (fs.foldl Funders.chargeOne x).s.params = x.s.params := by
    intro fs
    induction fs with
    | nil => intro x; rfl
    | cons f t ih => intro x; rw [List.foldl_cons, ih]; rfl
  show (Funders.orElseC w (Funders.chargeFundersOfPool w.s w.b id)).s.params = _
  unfold Funders.chargeFundersOfPool
  split
  · rfl
  · rename_i l hl
    dsimp only
    split
    · rfl
    · split
      · rfl
      · show (Funders.State.setActive _ _ _).params = _
        exact loop _ ⟨w.s, l, Coins.zero⟩

theorem Quiet.sameParams (gov : Addr) (c : Chain) (q : Quiet) : SameParams c (q.micro.run gov c) := by
  cases q with
  | slash a t =>
    refine ⟨rfl, ?_, rfl, rfl, rfl⟩
    show (Delegation.slashDelegators c.dw a t).s.params = _
    unfold Delegation.slashDelegators
    split <;> rfl
  | payout a x =>
    refine ⟨rfl, ?_, rfl, rfl, rfl⟩
    show (Delegation.orElse c.dw (Delegation.payoutRewards c.dw .pool a x)).s.params = _
    cases h : Delegation.payoutRewards c.dw .pool a x with
    | error e => rfl
    | ok w =>
      rcases Delegation.payoutRewards_s h with e | e
      · show w.s.params = _; rw [e]; rfl
      · show w.s.params = _; rw [e]; rfl
  | kick id a => exact ⟨rfl, rfl, (Stakers.kick_same c.st c.now id a).params, rfl, rfl⟩
  | inc id a =>
    refine ⟨rfl, rfl, ?_, rfl, rfl⟩
    show (c.st.incrementPoints id a).1.params = _
    unfold Stakers.State.incrementPoints; split <;> rfl
  | reset id a =>
    refine ⟨rfl, rfl, ?_, rfl, rfl⟩
    show (c.st.resetPoints id a).params = _
    unfold Stakers.State.resetPoints; split <;> rfl
  | reward a x =>
    refine ⟨rfl, rfl, ?_, rfl, rfl⟩
    show (Stakers.orElse c.sw (Stakers.increaseRewards c.sw .pool a x)).s.params = _
    cases h : Stakers.increaseRewards c.sw .pool a x with
    | error e => rfl
    | ok w =>
      rcases Stakers.increase_ok h with ⟨-, rfl⟩ | ⟨y, hy, -, hs⟩
      · rfl
      · show w.s.params = _; rw [hs]; rfl
  | charge id => exact ⟨rfl, rfl, rfl, charge_params gov c.fw id, rfl⟩
  | pay b h => exact ⟨rfl, rfl, rfl, rfl, rfl⟩

theorem QSteps.sameParams {gov : Addr} {c c' : Chain} (h : QSteps gov c c') : SameParams c c' := by
  induction h with
  | refl => exact .refl _
  | tail q _ _ _ ih => exact ih.trans (Quiet.sameParams gov _ q)

theorem finalize_sameParams (c : Chain) (id : Nat) (v : VoteDist) : SameParams c (c.finalize id v) := by
  unfold finalize
  split
  · exact .refl _
  · refine ⟨rfl, rfl, rfl, rfl, ?_⟩
    show (Pool.incrementBundleInformation _ _ _ _ _).params = _
    unfold Pool.incrementBundleInformation
    split <;> rfl

theorem register_sameParams (c : Chain) (m : SubmitMsg) (n : Option Addr) : SameParams c (c.register m n) := by
  unfold register; split <;> exact ⟨rfl, rfl, rfl, rfl, rfl⟩

theorem visit_sameParams {c c' : Chain} {id interval : Nat} (h : c.visit id interval = some c') : SameParams c c' := by
  rcases visit_cases h with ⟨e, -, rfl⟩ | ⟨-, -, rfl⟩ | ⟨h1, -, -, -, rfl⟩ | ⟨-, -, -, rfl⟩ | ⟨h1, -, h0, rfl⟩ |
    ⟨h1, -, -, ht⟩ | ⟨y, v, h1, -, h0, -, ht, rfl⟩
  · unfold visitStopped
    split
    · exact ⟨rfl, rfl, rfl, rfl, rfl⟩
    · split <;> exact ⟨rfl, rfl, rfl, rfl, rfl⟩
  · exact ⟨rfl, rfl, rfl, rfl, rfl⟩
  · exact SameParams.trans (QSteps.sameParams (nonVoters_q 0 c id)) ⟨rfl, rfl, rfl, rfl, rfl⟩
  · exact ⟨rfl, rfl, rfl, rfl, rfl⟩
  · unfold visitEmpty
    refine SameParams.trans ?_ (QSteps.sameParams (pointLate_q 0 _ id _))
    exact ⟨rfl, rfl, rfl, rfl, rfl⟩
  · have hq := tally_q 0 c id (c.proposal id)
    rw [ht] at hq
    exact QSteps.sameParams hq
  · have hq := tally_q 0 c id (c.proposal id)
    rw [ht] at hq
    have hy := QSteps.sameParams hq
    refine SameParams.trans ?_ (QSteps.sameParams (pointLate_q 0 _ id _))
    split
    · unfold visitValid
      refine hy.trans (SameParams.trans ?_ (SameParams.trans (finalize_sameParams (y.setProgress id (y.choiceFrom id (c.proposal id).valid).2) id v) ?_))
      · exact ⟨rfl, rfl, rfl, rfl, rfl⟩
      · exact ⟨rfl, rfl, rfl, rfl, rfl⟩
    · exact hy.trans ⟨rfl, rfl, rfl, rfl, rfl⟩

theorem visits_sameParams : ∀ (l : List (Nat × Pool.Pool)) {c c' : Chain}, visits l c = some c' → SameParams c c' := by
  intro l
  induction l with
  | nil => intro c c' h; cases h; exact .refl _
  | cons e l ih =>
    intro c c' h
    unfold visits at h
    split at h
    · cases h
    · rename_i d hd
      exact (visit_sameParams hd).trans (ih h)

theorem endBlock_sameParams (c : Chain) : SameParams c c.endBlock := by
  unfold endBlock
  split
  · rename_i c' h
    exact SameParams.trans (c' := c.upgradePools) ⟨rfl, rfl, rfl, rfl, rfl⟩ (visits_sameParams _ h)
  · exact ⟨rfl, rfl, rfl, rfl, rfl⟩

theorem fund_params {s s' : Funders.State} {b b' : Bank} {ok : Bool} {m : Funders.FundMsg}
    (h : Funders.fundPool s b ok m = .ok (s', b')) : s'.params = s.params := by
  have slot : ∀ {l : List Addr} {f : Funders.Funding} {w : Funders.Work}, Funders.ensureFreeSlot s m.pool l b f = .ok w →
      w.s.params = s.params := by
    intro l f w hw
    unfold Funders.ensureFreeSlot at hw
    repeat' split at hw
    all_goals first | (cases hw; done) | (cases hw; rfl) | skip
    unfold Funders.evict at hw
    split at hw
    · cases hw
    · cases hw; rfl
  unfold Funders.fundPool at h
  repeat' split at h
  all_goals first | (cases h; done) | skip
  rename_i w hw
  unfold Funders.finishFund at h
  split at h
  · cases h
  · cases h; exact slot hw

theorem defund_params {s s' : Funders.State} {b b' : Bank} {m : Funders.DefundMsg}
    (h : Funders.defundPool s b m = .ok (s', b')) : s'.params = s.params := by
  unfold Funders.defundPool at h
  repeat' split at h
  all_goals first | (cases h; done) | skip
  unfold Funders.finishDefund at h
  split at h
  · cases h
  · cases h; rfl

/-- only the five parameter messages change parameters -/
theorem exec_params {gov : Addr} {c c' : Chain} (hc : Reachable gov c) {op : Op} (h : exec gov c op = .ok c') :
    SameParams c c' ∨ (∃ a y, op = .bundlesParams a y) ∨ (∃ a y, op = .delegationParams a y) ∨
      (∃ a y, op = .stakersParams a y) ∨ (∃ a y, op = .poolParams a y) ∨ ∃ a p, op = .fundersParams a p := by
  have hM := (Reachable.good hc).mods
  have del : ∀ {act : Delegation.Act} {w : Delegation.World}, (∀ au p, act ≠ .updateParams au p) →
      ((⟨c.dw, c.now⟩ : Delegation.Sys).step gov act).w = w → SameParams c (c.withDel w) := by
    intro act w hact e
    subst e
    exact ⟨rfl, Delegation.C52_delegation_only hM.del act hact, rfl, rfl, rfl⟩
  have inQ : ∀ {x y : Chain}, SameParams c x → QSteps gov x y → SameParams c y := fun h1 h2 => h1.trans (QSteps.sameParams h2)
  cases op with
  | submit m =>
    left
    have h' : c.submit m = .ok c' := h
    have e0 : SameParams c (c.resetPoints m.pool m.staker) := Quiet.sameParams gov c (.reset m.pool m.staker)
    rcases submit_cases h' with ⟨-, rfl⟩ | ⟨-, y, v, ht, ⟨-, rfl⟩ | ⟨-, rfl⟩⟩
    · unfold submitFirst
      refine SameParams.trans ?_ (register_sameParams _ m _)
      exact e0.trans ⟨rfl, rfl, rfl, rfl, rfl⟩
    · have hq := tally_q gov (c.resetPoints m.pool m.staker) m.pool (c.proposal m.pool)
      rw [ht] at hq
      have hy := inQ e0 hq
      unfold submitNext
      refine SameParams.trans ?_ (register_sameParams _ m _)
      refine SameParams.trans ?_ (finalize_sameParams _ m.pool v)
      exact hy.trans ⟨rfl, rfl, rfl, rfl, rfl⟩
    · have hq := tally_q gov (c.resetPoints m.pool m.staker) m.pool (c.proposal m.pool)
      rw [ht] at hq
      exact (inQ e0 hq).trans ⟨rfl, rfl, rfl, rfl, rfl⟩
  | vote m => obtain ⟨-, p, -, rfl⟩ := vote_ok h; exact Or.inl ⟨rfl, rfl, (Quiet.sameParams gov c (.reset m.pool m.staker)).st, rfl, rfl⟩
  | skip m =>
    left
    have h' : c.skip m = .ok c' := h
    have e0 : SameParams c (c.resetPoints m.pool m.staker) := Quiet.sameParams gov c (.reset m.pool m.staker)
    obtain ⟨y, v, ht, rfl⟩ := skip_cases h'
    have hq := tally_q gov (c.resetPoints m.pool m.staker) m.pool (c.proposal m.pool)
    rw [ht] at hq
    have hy := inQ e0 hq
    unfold skipOutcome
    split
    · refine hy.trans (SameParams.trans (SameParams.trans ?_ (finalize_sameParams (y.setProgress m.pool (y.choice m.pool [m.staker]).2) m.pool v)) ?_)
      · exact ⟨rfl, rfl, rfl, rfl, rfl⟩
      · exact ⟨rfl, rfl, rfl, rfl, rfl⟩
    · exact hy.trans ⟨rfl, rfl, rfl, rfl, rfl⟩
    · exact hy.trans ⟨rfl, rfl, rfl, rfl, rfl⟩
  | claim a b i => obtain ⟨-, -, -, rfl⟩ := claim_ok h; exact Or.inl ⟨rfl, rfl, rfl, rfl, rfl⟩
  | createStaker a k n =>
    left
    have h' : c.createStaker a k n = .ok c' := h
    unfold createStaker at h'
    split at h'
    · cases h'
    · rename_i s hs
      split at h'
      · cases h'
      · rename_i w hw
        cases h'
        have h1 := del (act := .delegate true a a n) (w := w) (fun _ _ => by intro e; cases e) (by
          show Delegation.orElse c.dw (Delegation.delegateMsg c.dw true a a n) = w
          rw [hw]; rfl)
        refine ⟨rfl, h1.del, ?_, rfl, rfl⟩
        show s.params = _
        unfold Stakers.createStaker at hs
        repeat' split at hs
        all_goals first | (cases hs; done) | (cases hs; rfl)
  | join m =>
    left
    obtain ⟨w, hw, rfl⟩ := join_eq h
    refine ⟨rfl, rfl, ?_, rfl, rfl⟩
    show (Stakers.noteGift m c.sw w).s.params = _
    rw [(Stakers.noteGift_same m c.sw w).2.2.2.2.2.2.2.2.2.2.2.2.2.1]
    have hb : ∀ a, c.del.amount a < 2 ^ 64 - 1 := (Reachable.good hc).sound.amt
    obtain ⟨-, -, -, -, s1, he, -, -, -, -, e⟩ := Stakers.joinPool_ok hM.st.inv.mem hb hw
    obtain ⟨g1, -, -, -⟩ := Stakers.ensureFreeSlot_same hM.st.inv.mem hb he
    rw [e]
    refine Eq.trans ?_ g1.params
    show (s1.addVal m.pool m.creator m.valaddress).params = _
    unfold Stakers.State.addVal
    repeat' split
    all_goals rfl
  | leave a i =>
    obtain ⟨s, hr, rfl⟩ := map_ok h
    refine Or.inl ⟨rfl, rfl, ?_, rfl, rfl⟩
    show s.params = _
    unfold Stakers.leavePool at hr
    split at hr
    · cases hr
    · unfold Stakers.State.orderLeave at hr
      split at hr
      · cases hr
      · cases hr; rfl
  | updateCommission a k =>
    obtain ⟨s, hr, rfl⟩ := map_ok h
    refine Or.inl ⟨rfl, rfl, ?_, rfl, rfl⟩
    show s.params = _
    unfold Stakers.updateCommission at hr
    repeat' split at hr
    all_goals first | (cases hr; done) | (cases hr; rfl)
  | updateMetadata a i v =>
    obtain ⟨s, hr, rfl⟩ := map_ok h
    refine Or.inl ⟨rfl, rfl, ?_, rfl, rfl⟩
    show s.params = _
    unfold Stakers.updateMetadata at hr
    repeat' split at hr
    all_goals first | (cases hr; done) | (cases hr; rfl)
  | claimRewards a x =>
    obtain ⟨s, hr, rfl⟩ := map_ok h
    refine Or.inl ⟨rfl, rfl, ?_, rfl, rfl⟩
    obtain ⟨-, x, -, -, -, hs⟩ := Stakers.claim_ok hr
    show s.s.params = _
    rw [hs]; rfl
  | delegate a st n =>
    obtain ⟨w, hr, rfl⟩ := map_ok h
    refine Or.inl (del (act := .delegate (c.st.stakers.has st) a st n) (fun _ _ => by intro e; cases e) ?_)
    show Delegation.orElse c.dw (Delegation.delegateMsg c.dw (c.st.stakers.has st) a st n) = w
    rw [hr]; rfl
  | redelegate m =>
    obtain ⟨w, hr, rfl⟩ := map_ok h
    refine Or.inl (del (act := .redelegate (c.st.stakers.has m.dst) (!(c.st.valsOf m.dst).isEmpty) m) (fun _ _ => by intro e; cases e) ?_)
    show Delegation.orElse c.dw (Delegation.redelegateMsg c.dw c.now (c.st.stakers.has m.dst) (!(c.st.valsOf m.dst).isEmpty) m) = w
    rw [hr]; rfl
  | undelegate a st n =>
    obtain ⟨w, hr, rfl⟩ := map_ok h
    refine Or.inl (del (act := .undelegate a st n) (fun _ _ => by intro e; cases e) ?_)
    show Delegation.orElse c.dw (Delegation.undelegateMsg c.dw c.now a st n) = w
    rw [hr]; rfl
  | withdraw a st =>
    obtain ⟨w, hr, rfl⟩ := map_ok h
    refine Or.inl (del (act := .withdraw a st) (fun _ _ => by intro e; cases e) ?_)
    show Delegation.orElse c.dw (Delegation.withdrawMsg c.dw a st) = w
    rw [hr]; rfl
  | createFunder a =>
    obtain ⟨s, hr, rfl⟩ := map_ok h
    refine Or.inl ⟨rfl, rfl, rfl, ?_, rfl⟩
    show s.params = _
    unfold Funders.createFunder at hr
    split at hr
    · cases hr
    · cases hr; rfl
  | fund m =>
    obtain ⟨⟨s, b⟩, hr, rfl⟩ := map_ok h
    exact Or.inl ⟨rfl, rfl, rfl, fund_params hr, rfl⟩
  | defund m =>
    obtain ⟨⟨s, b⟩, hr, rfl⟩ := map_ok h
    exact Or.inl ⟨rfl, rfl, rfl, defund_params hr, rfl⟩
  | createPool m =>
    obtain ⟨s, hs, rfl⟩ := createPool_eq h
    refine Or.inl ⟨rfl, rfl, rfl, rfl, ?_⟩
    show s.params = _
    unfold Pool.create at hs
    repeat' split at hs
    all_goals first | (cases hs; done) | (cases hs; rfl)
  | updatePool a i u =>
    obtain ⟨s, hs, rfl⟩ := map_ok h
    refine Or.inl ⟨rfl, rfl, rfl, rfl, ?_⟩
    show s.params = _
    unfold Pool.update at hs
    repeat' split at hs
    all_goals first | (cases hs; done) | (cases hs; rfl)
  | enablePool a i =>
    obtain ⟨s, hs, rfl⟩ := map_ok h
    refine Or.inl ⟨rfl, rfl, rfl, rfl, ?_⟩
    show s.params = _
    unfold Pool.enable at hs
    repeat' split at hs
    all_goals first | (cases hs; done) | (cases hs; rfl)
  | disablePool a i =>
    left
    have h' : disablePool gov c a i = .ok c' := h
    unfold disablePool at h'
    split at h'
    · cases h'
    · rename_i s hs
      have q := QSteps.sameParams (kickAll_q gov i (c.members i) { c with pool := s })
      have e0 : SameParams c { c with pool := s } := by
        refine ⟨rfl, rfl, rfl, rfl, ?_⟩
        show s.params = _
        unfold Pool.disable at hs
        repeat' split at hs
        all_goals first | (cases hs; done) | (cases hs; rfl)
      have hx : SameParams (kickAll i (c.members i) { c with pool := s }) c' := by
        generalize hy : kickAll i (c.members i) { c with pool := s } = y at *
        unfold drain at h'
        split at h'
        · cases h'; exact .refl _
        · split at h'
          · cases h'
          · split at h'
            · cases h'
            · cases h'; exact ⟨rfl, rfl, rfl, rfl, rfl⟩
      exact e0.trans (q.trans hx)
  | scheduleUpgrade m =>
    obtain ⟨s, hs, rfl⟩ := map_ok h
    refine Or.inl ⟨rfl, rfl, rfl, rfl, ?_⟩
    show s.params = _
    unfold Pool.schedule at hs
    repeat' split at hs
    all_goals first | (cases hs; done) | (cases hs; rfl)
  | cancelUpgrade a r =>
    obtain ⟨s, hs, rfl⟩ := map_ok h
    refine Or.inl ⟨rfl, rfl, rfl, rfl, ?_⟩
    show s.params = _
    unfold Pool.cancel at hs
    repeat' split at hs
    all_goals first | (cases hs; done) | (cases hs; rfl)
  | bundlesParams a y => exact Or.inr (Or.inl ⟨a, y, rfl⟩)
  | delegationParams a y => exact Or.inr (Or.inr (Or.inl ⟨a, y, rfl⟩))
  | stakersParams a y => exact Or.inr (Or.inr (Or.inr (Or.inl ⟨a, y, rfl⟩)))
  | poolParams a y => exact Or.inr (Or.inr (Or.inr (Or.inr (Or.inl ⟨a, y, rfl⟩))))
  | fundersParams a p => exact Or.inr (Or.inr (Or.inr (Or.inr (Or.inr ⟨a, p, rfl⟩))))
  | beginBlock dt pr te r =>
    left
    injection h with h
    subst h
    show SameParams c (c.afterSplit r ((c.newBlock dt r).splitInflation pr te))
    cases hs : (c.newBlock dt r).splitInflation pr te with
    | none => exact ⟨rfl, rfl, rfl, rfl, rfl⟩
    | some x =>
      obtain ⟨b, hl, rfl, hk⟩ := splitInflation_eq hs
      refine ⟨?_, ?_, ?_, rfl, rfl⟩
      · show (if r then c.bun.initMemStore else c.bun).params = _
        split <;> rfl
      · have hM' : Modules gov ((Micro.pay b hl).run gov c) := hM.micro (.pay b hl) hk (Reachable.good hc).sane.calm
        have := Delegation.C52_delegation_only hM'.del (.beginBlock dt r) (fun _ _ => by intro e; cases e)
        exact this
      · show (Stakers.beginBlock c.st (c.now + dt)).params = _
        have hI := hM.st.inv
        obtain ⟨r1, r2, -⟩ := Stakers.beginBlock_inv (Nat.le_add_right c.now dt) hI.mem hI.ch hI.lv hI.tr hI.rate
        exact r2.params.trans r1.params
  | endBlock => injection h with h; subst h; exact Or.inl (endBlock_sameParams c)
  | external b gd gs gf => injection h with h; subst h; exact Or.inl ⟨rfl, rfl, rfl, rfl, rfl⟩

/-- C52: the parameters of a module change only by its parameter message, sent by governance. -/
theorem C52_params (gov : Addr) (c : Chain) (h : Reachable gov c) (op : Op) :
    ((c.step gov op).bun.params ≠ c.bun.params → ∃ y, op = .bundlesParams gov y) ∧
    ((c.step gov op).del.params ≠ c.del.params → ∃ y, op = .delegationParams gov y) ∧
    ((c.step gov op).st.params ≠ c.st.params → ∃ y, op = .stakersParams gov y) ∧
    ((c.step gov op).pool.params ≠ c.pool.params → ∃ y, op = .poolParams gov y) ∧
    ((c.step gov op).fund.params ≠ c.fund.params → ∃ p, op = .fundersParams gov p) := by
  by_cases hop : op.authority = some gov ∨ op.authority = none
  · by_cases hs : SameParams c (c.step gov op)
    · exact ⟨fun x => absurd hs.bun x, fun x => absurd hs.del x, fun x => absurd hs.st x, fun x => absurd hs.pool x,
        fun x => absurd hs.fund x⟩
    · have hcr : c.crashed = false := by
        cases hb : c.crashed with
        | false => rfl
        | true => exact absurd (by unfold step; rw [if_pos hb]; exact .refl c) hs
      have hst : c.step gov op = c.orElse (exec gov c op) := by unfold step; rw [if_neg (by rw [hcr]; simp)]
      cases he : exec gov c op with
      | error e => exact absurd (by rw [hst, he]; exact .refl c) hs
      | ok c' =>
        have e1 : c.step gov op = c' := by rw [hst, he]; rfl
        rw [e1] at hs ⊢
        rcases exec_params h he with h1 | ⟨a, y, rfl⟩ | ⟨a, y, rfl⟩ | ⟨a, y, rfl⟩ | ⟨a, y, rfl⟩ | ⟨a, y, rfl⟩
        · exact absurd h1 hs
        all_goals
          obtain ⟨s, hr, rfl⟩ := map_ok he
          rcases hop with hop | hop
          · injection hop with hop
            subst hop
            refine ⟨fun x => ?_, fun x => ?_, fun x => ?_, fun x => ?_, fun x => ?_⟩ <;>
              first | exact ⟨y, rfl⟩ | exact absurd rfl x
          · cases hop
  · obtain ⟨a, ha⟩ : ∃ a, op.authority = some a := by
      cases ha : op.authority with
      | none => exact absurd (Or.inr ha) hop
      | some a => exact ⟨a, rfl⟩
    have hne : a ≠ gov := fun e => hop (Or.inl (by rw [ha, e]))
    rw [(C52_refused gov c op a ha hne).2]
    exact ⟨fun x => absurd rfl x, fun x => absurd rfl x, fun x => absurd rfl x, fun x => absurd rfl x, fun x => absurd rfl x⟩

/-! ## pools -/

/-- everything governance decides about a pool when creating or updating it -/
structure SameSettings (p p' : Pool.Pool) : Prop where
  id : p'.id = p.id
  name : p'.name = p.name
  runtime : p'.runtime = p.runtime
  startKey : p'.startKey = p.startKey
  interval : p'.uploadInterval = p.uploadInterval
  weight : p'.inflationShareWeight = p.inflationShareWeight
  min : p'.minDelegation = p.minDelegation
  size : p'.maxBundleSize = p.maxBundleSize
  disabled : p'.disabled = p.disabled
  storage : p'.storageProviderId = p.storageProviderId
  compression : p'.compressionId = p.compressionId
  endKey : p'.endKey = p.endKey

theorem SameSettings.refl (p : Pool.Pool) : SameSettings p p := ⟨rfl, rfl, rfl, rfl, rfl, rfl, rfl, rfl, rfl, rfl, rfl, rfl⟩

theorem upgradePool_settings (now : Nat) (p : Pool.Pool) : SameSettings p (Pool.upgradePool now p) := by
  unfold Pool.upgradePool
  dsimp only
  split
  · split <;> split <;> exact ⟨rfl, rfl, rfl, rfl, rfl, rfl, rfl, rfl, rfl, rfl, rfl, rfl⟩
  · exact .refl p

/-- C52: whatever is not a message of governance creates no pool, removes none and leaves the settings of every pool as
they are; its version and upgrade plan change in the end block only (see C37). -/
theorem C52_pools (gov : Addr) (c : Chain) (h : Reachable gov c) (op : Op) (hop : op.authority ≠ some gov) (id : Nat) :
    (c.pool.pools.get? id = none → (c.step gov op).pool.pools.get? id = none) ∧
    ∀ p, c.pool.pools.get? id = some p → ∃ p', (c.step gov op).pool.pools.get? id = some p' ∧ SameSettings p p' ∧
      (op ≠ .endBlock → p'.protocol = p.protocol ∧ p'.plan = p.plan) := by
  have hI := h.good.mods.pool
  have done : c.step gov op = c → (c.pool.pools.get? id = none → (c.step gov op).pool.pools.get? id = none) ∧
      ∀ p, c.pool.pools.get? id = some p → ∃ p', (c.step gov op).pool.pools.get? id = some p' ∧ SameSettings p p' ∧
      (op ≠ .endBlock → p'.protocol = p.protocol ∧ p'.plan = p.plan) := by
    intro e; rw [e]
    exact ⟨fun x => x, fun p hp => ⟨p, hp, .refl p, fun _ => ⟨rfl, rfl⟩⟩⟩
  cases ha : op.authority with
  | some a =>
    have hne : a ≠ gov := fun e => hop (by rw [ha, e])
    exact done (C52_refused gov c op a ha hne).2
  | none =>
    constructor
    · intro hn
      have hcount := (C40_permanent_chain gov c h op).2
      have hcount : (c.step gov op).pool.count = c.pool.count := by
        rcases hcount with e | ⟨m, rfl, hm, -⟩
        · exact e
        · cases ha
      have all : ∀ {x y : Chain}, Steps gov x y → PoolR gov x → PoolR gov y := by
        intro x y hxy hx
        induction hxy with
        | refl => exact hx
        | tail μ _ _ ih => exact ih.micro μ
      have hR : Pool.Spec.Reachable gov (c.step gov op).pool := all (step_steps h.good.sound op) hI
      cases hg : (c.step gov op).pool.pools.get? id with
      | none => rfl
      | some p' =>
        have h1 := (Pool.C40_ids_dense gov _ hR id).1.1 (by
          rw [show Pool.Spec.pool? (c.step gov op).pool id = _ from hg]; rfl)
        rw [hcount] at h1
        have hp := (Pool.C40_ids_dense gov _ hI id).1.2 h1
        rw [show Pool.Spec.pool? c.pool id = c.pool.pools.get? id from rfl, hn] at hp; cases hp
    · intro p hp
      by_cases ho : op = .endBlock
      · subst ho
        cases hc : (c.step gov .endBlock).crashed with
        | true =>
          rw [endBlock_crash_pool h hc]
          exact ⟨p, hp, .refl p, fun x => absurd rfl x⟩
        | false =>
          obtain ⟨p', h1, h2, -⟩ := endBlock_record h hc hp
          refine ⟨p', h1, ?_, fun x => absurd rfl x⟩
          have hu := upgradePool_settings c.now p
          rw [h2]
          exact ⟨hu.id, hu.name, hu.runtime, hu.startKey, hu.interval, hu.weight, hu.min, hu.size, hu.disabled, hu.storage,
            hu.compression, hu.endKey⟩
      · rcases step_pool (gov := gov) c ho with e | ⟨q, hq, e⟩
        · rw [e]; exact ⟨p, hp, .refl p, fun _ => ⟨rfl, rfl⟩⟩
        · have fin : ∀ j i k sm, q = .bundleFinalized j i k sm → ∃ p', (c.step gov op).pool.pools.get? id = some p' ∧
              SameSettings p p' ∧ (op ≠ .endBlock → p'.protocol = p.protocol ∧ p'.plan = p.plan) := by
            rintro j i k sm rfl
            rw [e]
            show ∃ p', (Pool.incrementBundleInformation c.pool j i k sm).pools.get? id = some p' ∧ _
            unfold Pool.incrementBundleInformation
            split
            · exact ⟨p, hp, .refl p, fun _ => ⟨rfl, rfl⟩⟩
            · rename_i r hr
              have hj : r.id = j := hI.inv.key j r hr
              by_cases e : id = j
              · subst e
                rw [hp] at hr; cases hr
                refine ⟨{ p with
                  currentIndex := i, totalBundles := p.totalBundles + 1
                  currentKey := k, currentSummary := sm }, ?_, ?_, fun _ => ⟨rfl, rfl⟩⟩
                · show (Map.set c.pool.pools p.id _).get? id = _
                  rw [hj]; exact Map.get?_set_self _ _ _
                exact ⟨rfl, rfl, rfl, rfl, rfl, rfl, rfl, rfl, rfl, rfl, rfl, rfl⟩
              · refine ⟨p, ?_, .refl p, fun _ => ⟨rfl, rfl⟩⟩
                show (Map.set c.pool.pools r.id _).get? id = _
                rw [hj]
                exact (Map.get?_set_ne _ _ e).trans hp
          cases hq <;> first | exact fin _ _ _ _ rfl | cases ha

/-! ## concrete cases -/

/-- governance can change parameters and pools; a staker cannot -/
example :
    (Sample.voted.step Sample.gov (.bundlesParams Sample.gov { maxPoints := some 7 })).bun.params.maxPoints = 7 ∧
    (Sample.voted.step Sample.gov (.bundlesParams 1 { maxPoints := some 7 })).bun.params.maxPoints = Sample.voted.bun.params.maxPoints ∧
    Sample.voted.bun.params.maxPoints ≠ 7 ∧
    ((Sample.voted.step Sample.gov (.updatePool Sample.gov 0 { maxBundleSize := some 9 })).pool.pools.get? 0).map (·.maxBundleSize) = some 9 ∧
    ((Sample.voted.step Sample.gov (.updatePool 1 0 { maxBundleSize := some 9 })).pool.pools.get? 0).map (·.maxBundleSize) ≠ some 9 := by
  decide +kernel

end Chain
end Verif.Chain
