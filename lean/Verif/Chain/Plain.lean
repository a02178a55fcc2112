import Verif.Chain.EndBlock
import Verif.Stakers.Properties

/-!
# Operations that finalize nothing and punish nobody

All operations except the messages of protocol nodes and the end block.
-/

set_option linter.dupNamespace false
namespace Verif

namespace Delegation

theorem slashes_queueLoop (now fuel : Nat) (w : World) :
    Chain.slashesOf (queueLoop now fuel w).s.trace = Chain.slashesOf w.s.trace := by
  induction fuel generalizing w with
  | zero => rfl
  | succ n ih =>
    unfold queueLoop
    split
    · rfl
    · rename_i w' hw
      refine (ih w').trans ?_
      unfold queueRound at hw
      split at hw
      · split at hw
        · injection hw with hw; rw [← hw]
        · cases hw
      · split at hw
        · injection hw with hw; rw [← hw]; rfl
        · cases hw

/-- only slashes are slashes -/
theorem slashes_step (gov : Addr) (y : Sys) (act : Act) (ha : ∀ st t, act ≠ .slash st t) :
    Chain.slashesOf (y.step gov act).w.s.trace = Chain.slashesOf y.w.s.trace := by
  cases act with
  | delegate ex c st n =>
    show Chain.slashesOf (orElse y.w (delegateMsg y.w ex c st n)).s.trace = _
    cases h : delegateMsg y.w ex c st n with
    | error e => rfl
    | ok w' => rw [show orElse y.w (.ok w') = w' from rfl, delegateMsg_s h]; rfl
  | redelegate ex ac m =>
    show Chain.slashesOf (orElse y.w (redelegateMsg y.w y.now ex ac m)).s.trace = _
    cases h : redelegateMsg y.w y.now ex ac m with
    | error e => rfl
    | ok w' =>
      obtain ⟨s, -, hs, -, -, -, -, -, hw, -⟩ := redelegateMsg_ok h
      rw [show orElse y.w (.ok w') = w' from rfl, hw]
      have : y.w.s.trace = s.trace := by rw [hs]
      rw [this]
      rfl
  | undelegate c st n =>
    show Chain.slashesOf (orElse y.w (undelegateMsg y.w y.now c st n)).s.trace = _
    cases h : undelegateMsg y.w y.now c st n with
    | error e => rfl
    | ok w' => rw [(undelegateMsg_ok h).1]; rfl
  | withdraw c st =>
    show Chain.slashesOf (orElse y.w (withdrawMsg y.w c st)).s.trace = _
    cases h : withdrawMsg y.w c st with
    | error e => rfl
    | ok w' => rw [show orElse y.w (.ok w') = w' from rfl, withdrawMsg_s h]; rfl
  | updateParams au p =>
    show Chain.slashesOf (orElse y.w (Delegation.updateParams gov y.w au p)).s.trace = _
    cases h : Delegation.updateParams gov y.w au p with
    | error e => rfl
    | ok w' => rw [(updateParams_s h).1]; rfl
  | payout st c =>
    show Chain.slashesOf (orElse y.w (payoutRewards y.w .pool st c)).s.trace = _
    cases h : payoutRewards y.w .pool st c with
    | error e => rfl
    | ok w' =>
      rw [show orElse y.w (.ok w') = w' from rfl]
      rcases payoutRewards_s h with rfl | h
      · rfl
      · rw [h]; rfl
  | slash st t => exact absurd rfl (ha st t)
  | beginBlock dt r =>
    show Chain.slashesOf (Delegation.beginBlock y.w (y.now + dt) r).s.trace = _
    rw [beginBlock_eq, slashes_queueLoop, (preQueue_eq y.w r).2.2.2.1]
  | external b g => rfl

end Delegation

namespace Chain
open Chain
open Verif.Bundles (Proposal VoteDist)

/-- nobody has more points: whoever is in a pool afterwards was in it before with the same points, or has none -/
def Milder (c c' : Chain) : Prop :=
  ∀ k v', c'.st.vals.get? k = some v' →
    v'.points = 0 ∨ ∃ v, c.st.vals.get? k = some v ∧ v'.points = v.points ∧ v'.valaddress = v.valaddress

/-- nothing is finalized, nobody is punished -/
structure Plain (c c' : Chain) : Prop where
  fin : c'.bun.finalized = c.bun.finalized
  slashes : c'.slashes = c.slashes
  vals : Milder c c'

/-- the operations that can finalize a bundle or punish somebody -/
def Chain.Op.judges : Op → Bool
  | .submit _ => true
  | .skip _ => true
  | .endBlock => true
  | _ => false

namespace Chain

theorem Milder.refl (c : Chain) : Milder c c := fun _ v h => Or.inr ⟨v, h, rfl, rfl⟩
theorem Milder.of_eq {c c' : Chain} (h : c'.st.vals = c.st.vals) : Milder c c' :=
  fun _ v hv => Or.inr ⟨v, by rw [← h]; exact hv, rfl, rfl⟩

theorem Plain.refl (c : Chain) : Plain c c := ⟨rfl, rfl, Milder.refl c⟩

theorem plain_del {gov : Addr} {c : Chain} {w : Delegation.World} (act : Delegation.Act)
    (ha : ∀ st t, act ≠ .slash st t) (hw : ((⟨c.dw, c.now⟩ : Delegation.Sys).step gov act).w = w) :
    Plain c (c.withDel w) := by
  refine ⟨rfl, ?_, Milder.refl c⟩
  show slashesOf w.s.trace = _
  rw [← hw, Delegation.slashes_step gov _ act ha]
  rfl

theorem plain_st {c : Chain} {s : Stakers.State} {b : Bank} (hv : s.vals = c.st.vals) :
    Plain c { c with st := s, b := b } := ⟨rfl, rfl, Milder.of_eq hv⟩

theorem plain_kickAll (id : Nat) (l : List Addr) (c : Chain) : Plain c (kickAll id l c) := by
  induction l generalizing c with
  | nil => exact Plain.refl c
  | cons a l ih =>
    show Plain c (kickAll id l (c.kick id a))
    have h1 := ih (c.kick id a)
    refine ⟨h1.fin, h1.slashes, fun k v' hv' => ?_⟩
    rcases h1.vals k v' hv' with h | ⟨v, h, e⟩
    · exact Or.inl h
    · right
      refine ⟨v, ?_, e⟩
      have h : (c.st.kick c.now id a).vals.get? k = some v := h
      rw [Stakers.kick_vals, Map.get?_del] at h
      split at h
      · cases h
      · exact h

theorem plain_exec {gov : Addr} {c c' : Chain} (hg : Good gov c) {op : Op} (hj : op.judges = false)
    (h : exec gov c op = .ok c') : Plain c c' := by
  have hM := hg.mods.st.inv.mem
  cases op with
  | submit m => cases hj
  | skip m => cases hj
  | endBlock => cases hj
  | vote m =>
    have h' : c.vote m = .ok c' := h
    unfold vote at h'
    split at h'
    · cases h'
    · split at h'
      · cases h'
      · cases h'
        refine ⟨rfl, rfl, fun k v' hv' => ?_⟩
        rename_i p _
        rw [resetPoints_get] at hv'
        split at hv'
        · rename_i e
          left
          cases hg : (c.setProposal m.pool p).st.vals.get? k with
          | none => rw [hg] at hv'; cases hv'
          | some v => rw [hg] at hv'; cases hv'; rfl
        · exact Or.inr ⟨v', hv', rfl, rfl⟩
  | claim a b i =>
    have h' : c.claim a b i = .ok c' := h
    unfold claim at h'
    repeat (split at h'; cases h')
    cases h'
    exact ⟨rfl, rfl, Milder.refl c⟩
  | createStaker a k n =>
    have h' : c.createStaker a k n = .ok c' := h
    unfold createStaker at h'
    split at h'
    · cases h'
    · rename_i s hs
      split at h'
      · cases h'
      · rename_i w hw
        cases h'
        have h1 : Plain c (c.withDel w) := plain_del (gov := gov) (.delegate true a a n) (by rintro _ _ ⟨⟩) (by
          show Delegation.orElse _ (Delegation.delegateMsg c.dw true a a n) = _
          rw [hw]; rfl)
        refine ⟨rfl, h1.slashes, Milder.of_eq ?_⟩
        show s.vals = _
        unfold Stakers.createStaker at hs
        repeat' split at hs
        all_goals first | cases hs; done | (cases hs; rfl)
  | join m =>
    obtain ⟨w, hw, rfl⟩ := join_eq h
    refine ⟨rfl, rfl, fun k v' hv' => ?_⟩
    have hv' : (Stakers.noteGift m c.sw w).s.vals.get? k = some v' := hv'
    have e : (Stakers.noteGift m c.sw w).s.vals = w.s.vals := by
      unfold Stakers.noteGift; split <;> rfl
    rw [e] at hv'
    obtain ⟨s1, he, hv⟩ := Stakers.join_vals hM (Good.sound hg).amt hw
    rw [hv, Map.get?_set] at hv'
    split at hv'
    · cases hv'; exact Or.inl rfl
    · right
      refine ⟨v', ?_, rfl, rfl⟩
      rcases Stakers.ensureFreeSlot_ok hM (Good.sound hg).amt he with ⟨-, rfl⟩ | ⟨-, low, -, -, -, rfl⟩
      · exact hv'
      · rw [Stakers.kick_vals, Map.get?_del] at hv'
        split at hv'
        · cases hv'
        · exact hv'
  | leave a i =>
    obtain ⟨s, hr, rfl⟩ := map_ok h
    refine ⟨rfl, rfl, fun k v' hv' => ?_⟩
    have hv' : s.vals.get? k = some v' := hv'
    unfold Stakers.leavePool at hr
    split at hr
    · cases hr
    · rename_i v hv
      unfold Stakers.State.orderLeave at hr
      split at hr
      · cases hr
      · cases hr
        have hv' : (c.st.vals.set (i, a) { v with leaving := true }).get? k = some v' := hv'
        rw [Map.get?_set] at hv'
        split at hv'
        · rename_i e
          cases hv'
          exact Or.inr ⟨v, by rw [e]; exact hv, rfl, rfl⟩
        · exact Or.inr ⟨v', hv', rfl, rfl⟩
  | updateCommission a k =>
    obtain ⟨s, hr, rfl⟩ := map_ok h
    refine plain_st (b := c.b) ?_
    unfold Stakers.updateCommission at hr
    repeat' split at hr
    all_goals first | cases hr; done | (cases hr; rfl)
  | updateMetadata a i v =>
    obtain ⟨s, hr, rfl⟩ := map_ok h
    refine plain_st (b := c.b) ?_
    unfold Stakers.updateMetadata at hr
    repeat' split at hr
    all_goals first | cases hr; done | (cases hr; rfl)
  | claimRewards a x =>
    obtain ⟨w, hr, rfl⟩ := map_ok h
    refine plain_st ?_
    obtain ⟨-, x, -, -, -, hs⟩ := Stakers.claim_ok hr
    rw [hs]; rfl
  | delegate a st n =>
    obtain ⟨w, hr, rfl⟩ := map_ok h
    refine plain_del (gov := gov) (.delegate (c.st.stakers.has st) a st n) (by rintro _ _ ⟨⟩) ?_
    show Delegation.orElse _ (Delegation.delegateMsg c.dw _ a st n) = _
    rw [hr]; rfl
  | redelegate m =>
    obtain ⟨w, hr, rfl⟩ := map_ok h
    refine plain_del (gov := gov) (.redelegate (c.st.stakers.has m.dst) (!(c.st.valsOf m.dst).isEmpty) m)
      (by rintro _ _ ⟨⟩) ?_
    show Delegation.orElse _ (Delegation.redelegateMsg c.dw c.now _ _ m) = _
    rw [hr]; rfl
  | undelegate a st n =>
    obtain ⟨w, hr, rfl⟩ := map_ok h
    refine plain_del (gov := gov) (.undelegate a st n) (by rintro _ _ ⟨⟩) ?_
    show Delegation.orElse _ (Delegation.undelegateMsg c.dw c.now a st n) = _
    rw [hr]; rfl
  | withdraw a st =>
    obtain ⟨w, hr, rfl⟩ := map_ok h
    refine plain_del (gov := gov) (.withdraw a st) (by rintro _ _ ⟨⟩) ?_
    show Delegation.orElse _ (Delegation.withdrawMsg c.dw a st) = _
    rw [hr]; rfl
  | createFunder a => obtain ⟨s, hr, rfl⟩ := map_ok h; exact ⟨rfl, rfl, Milder.refl c⟩
  | fund m => obtain ⟨s, hr, rfl⟩ := map_ok h; exact ⟨rfl, rfl, Milder.refl c⟩
  | defund m => obtain ⟨s, hr, rfl⟩ := map_ok h; exact ⟨rfl, rfl, Milder.refl c⟩
  | createPool m => obtain ⟨s, hs, rfl⟩ := createPool_eq h; exact ⟨rfl, rfl, Milder.refl c⟩
  | updatePool a i u => obtain ⟨s, hr, rfl⟩ := map_ok h; exact ⟨rfl, rfl, Milder.refl c⟩
  | enablePool a i => obtain ⟨s, hr, rfl⟩ := map_ok h; exact ⟨rfl, rfl, Milder.refl c⟩
  | disablePool a i =>
    have h' : disablePool gov c a i = .ok c' := h
    unfold disablePool at h'
    split at h'
    · cases h'
    · rename_i s hs
      have q := plain_kickAll i (c.members i) { c with pool := s }
      generalize kickAll i (c.members i) { c with pool := s } = y at *
      unfold drain at h'
      split at h'
      · cases h'; exact ⟨q.fin, q.slashes, q.vals⟩
      · split at h'
        · cases h'
        · split at h'
          · cases h'
          · cases h'; exact ⟨q.fin, q.slashes, q.vals⟩
  | scheduleUpgrade m => obtain ⟨s, hr, rfl⟩ := map_ok h; exact ⟨rfl, rfl, Milder.refl c⟩
  | cancelUpgrade a r => obtain ⟨s, hr, rfl⟩ := map_ok h; exact ⟨rfl, rfl, Milder.refl c⟩
  | bundlesParams a y =>
    obtain ⟨s, hr, rfl⟩ := map_ok h
    unfold Bundles.updateParams at hr
    split at hr
    · cases hr
    · split at hr
      · cases hr
      · cases hr; exact ⟨rfl, rfl, Milder.refl c⟩
  | delegationParams a y =>
    obtain ⟨w, hr, rfl⟩ := map_ok h
    refine plain_del (gov := gov) (.updateParams a y) (by rintro _ _ ⟨⟩) ?_
    show Delegation.orElse _ (Delegation.updateParams gov c.dw a y) = _
    rw [hr]; rfl
  | stakersParams a y =>
    obtain ⟨s, hr, rfl⟩ := map_ok h
    refine plain_st (b := c.b) ?_
    unfold Stakers.updateParams at hr
    repeat' split at hr
    all_goals first | cases hr; done | (cases hr; rfl)
  | poolParams a y => obtain ⟨s, hr, rfl⟩ := map_ok h; exact ⟨rfl, rfl, Milder.refl c⟩
  | fundersParams a p => obtain ⟨s, hr, rfl⟩ := map_ok h; exact ⟨rfl, rfl, Milder.refl c⟩
  | beginBlock dt pr te r =>
    injection h with h
    subst h
    show Plain c (c.afterSplit r ((c.newBlock dt r).splitInflation pr te))
    cases hs : (c.newBlock dt r).splitInflation pr te with
    | none => exact ⟨rfl, rfl, Milder.refl c⟩
    | some x =>
      obtain ⟨b, hl, rfl, -⟩ := splitInflation_eq hs
      refine ⟨?_, ?_, fun k v' hv' => ?_⟩
      · show (if r then c.bun.initMemStore else c.bun).finalized = _
        cases r <;> rfl
      · show slashesOf (Delegation.beginBlock ⟨c.del, b⟩ (c.now + dt) r).s.trace = _
        rw [Delegation.beginBlock_eq, Delegation.slashes_queueLoop, (Delegation.preQueue_eq _ r).2.2.2.1]
        rfl
      · right
        refine ⟨v', ?_, rfl, rfl⟩
        have hv' : (Stakers.beginBlock c.st (c.now + dt)).vals.get? k = some v' := hv'
        have hI := hg.mods.st.inv
        obtain ⟨r1, r2, -⟩ := Stakers.beginBlock_inv (Nat.le_add_right c.now dt) hI.mem hI.ch hI.lv hI.tr hI.rate
        obtain ⟨p, st⟩ := k
        rcases r2.each st p with ⟨-, e⟩ | ⟨t, -, -, -, e⟩
        · rw [← hv']
          refine Eq.trans ?_ e.symm
          rw [r1.vals]; rfl
        · have e : (Stakers.beginBlock c.st (c.now + dt)).vals.get? (p, st) = none := e
          rw [e] at hv'; cases hv'
  | external b gd gs gf => injection h with h; subst h; exact ⟨rfl, rfl, Milder.refl c⟩

/-- an operation that is none of the three punishes nobody and finalizes nothing -/
theorem plain_step {gov : Addr} {c : Chain} (h : Reachable gov c) {op : Op} (hj : op.judges = false) :
    Plain c (c.step gov op) := by
  unfold step
  split
  · exact Plain.refl c
  · cases he : exec gov c op with
    | error e => exact Plain.refl c
    | ok c' => exact plain_exec (Reachable.good h) hj he

end Chain
end Chain
end Verif
