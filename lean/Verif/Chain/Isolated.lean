import Verif.Chain.Fundings
import Verif.Chain.Pools
import Verif.Chain.Inflation

/-!
# C100: pools do not touch each other
-/

set_option linter.dupNamespace false
namespace Verif.Chain
open Verif
open Chain

/-! ## Specification -/

/-- Specification: the pool a message is about, if any -/
def Chain.Op.pool : Op → Option Nat
  | .submit m => some m.pool
  | .vote m => some m.pool
  | .skip m => some m.pool
  | .claim _ _ id => some id
  | .join m => some m.pool
  | .leave _ id => some id
  | .fund m => some m.pool
  | .defund m => some m.pool
  | .updatePool _ id _ => some id
  | .enablePool _ id => some id
  | .disablePool _ id => some id
  | _ => none

/-- Specification: the messages that concern all pools of a runtime: scheduled upgrades -/
def Chain.Op.upgrades : Op → Bool
  | .scheduleUpgrade _ => true
  | .cancelUpgrade _ _ => true
  | _ => false

/-- Specification: the coins a message sends directly to the account of pool `id`: a joining staker can give coins to its
node's address, which may be any account -/
def Chain.Op.gift (id : Nat) (d : Denom) : Op → Nat
  | .join m => if m.dst = .pool id ∧ d = kyve then m.amount else 0
  | _ => 0

/-- Specification: nothing about the pool has changed, except that its account got a gift -/
structure PoolKept (id : Nat) (gift : Denom → Nat) (c c' : Chain) : Prop where
  record : c'.pool.pools.get? id = c.pool.pools.get? id
  proposal : c'.bun.proposals.get? id = c.bun.proposals.get? id
  bundles : ∀ i, c'.bun.finalized.get? (id, i) = c.bun.finalized.get? (id, i)
  rotation : c'.bun.progressOf id = c.bun.progressOf id
  members : ∀ a, c'.st.vals.get? (id, a) = c.st.vals.get? (id, a)
  fundings : ∀ a, c'.fund.fundings.get? (a, id) = c.fund.fundings.get? (a, id)
  funders : c'.fund.active.get? id = c.fund.active.get? id
  account : ∀ d, (c'.b (.pool id)).amt d = (c.b (.pool id)).amt d + gift d

namespace Chain

/-! ## Proofs -/

variable {gov : Addr} {id : Nat} {c c' : Chain}

theorem PoolKept.refl (id : Nat) (c : Chain) : PoolKept id (fun _ => 0) c c :=
  ⟨rfl, rfl, fun _ => rfl, rfl, fun _ => rfl, fun _ => rfl, rfl, fun _ => rfl⟩

/-- from the two halves: x/bundles, x/pool, x/stakers; x/funders, x/bank -/
theorem PoolKept.of_apart (h : Apart id c c') (hf : c'.fund.active.get? id = c.fund.active.get? id)
    (hc : ∀ a, c'.fund.fundings.get? (a, id) = c.fund.fundings.get? (a, id)) (hb : ∀ d, (c'.b (.pool id)).amt d = (c.b (.pool id)).amt d) :
    PoolKept id (fun _ => 0) c c' :=
  ⟨h.pool, h.stored, h.fin, h.progress, h.vals, hc, hf, hb⟩

theorem PoolKept.of_settles {j : Nat} (hj : id ≠ j) (ha : Apart id c c') (hs : Settles j c c') : PoolKept id (fun _ => 0) c c' := by
  have hf := settles_apart hs hj
  refine PoolKept.of_apart ha hf.active hf.coins fun d => ?_
  rcases hs with ⟨-, u, f, r, -, -, hp, -⟩ | ⟨-, hm⟩
  · exact hp.others (.pool id) d (by rintro ⟨⟩) (by rintro ⟨⟩; exact hj rfl) (by rintro ⟨⟩) (by rintro ⟨⟩) (by rintro ⟨⟩)
      (by rintro ⟨⟩)
  · rw [hm.rest (.pool id) (by rintro ⟨⟩) (by rintro ⟨⟩)]

/-- x/delegation -/
theorem PoolKept.del {w : Delegation.World} (hb : w.b (.pool id) = c.b (.pool id)) : PoolKept id (fun _ => 0) c (c.withDel w) :=
  ⟨rfl, rfl, fun _ => rfl, rfl, fun _ => rfl, fun _ => rfl, rfl, fun d => congrArg (Coins.amt · d) hb⟩

/-- x/stakers -/
theorem PoolKept.stk {w : Stakers.World} (hv : ∀ a, w.s.vals.get? (id, a) = c.st.vals.get? (id, a))
    (hb : w.b (.pool id) = c.b (.pool id)) : PoolKept id (fun _ => 0) c (c.withSt w) :=
  ⟨rfl, rfl, fun _ => rfl, rfl, hv, fun _ => rfl, rfl, fun d => congrArg (Coins.amt · d) hb⟩

/-- x/funders -/
theorem PoolKept.fnd {w : Funders.World} (ha : w.s.active.get? id = c.fund.active.get? id)
    (hf : ∀ a, w.s.fundings.get? (a, id) = c.fund.fundings.get? (a, id))
    (hb : w.b (.pool id) = c.b (.pool id)) : PoolKept id (fun _ => 0) c (c.withFund w) :=
  ⟨rfl, rfl, fun _ => rfl, rfl, fun _ => rfl, hf, ha, fun d => congrArg (Coins.amt · d) hb⟩

/-- x/pool -/
theorem PoolKept.pol {s : Pool.State} (h : s.pools.get? id = c.pool.pools.get? id) :
    PoolKept id (fun _ => 0) c { c with pool := s } :=
  ⟨h, rfl, fun _ => rfl, rfl, fun _ => rfl, fun _ => rfl, rfl, fun _ => rfl⟩

theorem fund_apart {w : Funders.World} (hi : Funders.Inv w) {ok : Bool} {m : Funders.FundMsg} {r : Funders.State × Bank}
    (hr : Funders.fundPool w.s w.b ok m = .ok r) (hj : id ≠ m.pool) :
    r.1.active.get? id = w.s.active.get? id ∧ (∀ a, r.1.fundings.get? (a, id) = w.s.fundings.get? (a, id)) ∧
    r.2 (.pool id) = w.b (.pool id) := by
  obtain ⟨l, f, wk, -, -, hl, -, -, hfp, hwk, hb, hs⟩ := Funders.fund_ok hi (s' := r.1) (b' := r.2) hr
  have n1 : (.pool id : Acct) ≠ .user m.creator := by rintro ⟨⟩
  have n2 : (.pool id : Acct) ≠ .mod .funders := by rintro ⟨⟩
  have e2 : r.2 (.pool id) = wk.b (.pool id) := Bank.send_ne hb n1 n2
  rw [hs]
  rcases Funders.ensureFreeSlot_ok hwk with ⟨rfl, -⟩ | ⟨low, x, y, b', hlow, -, -, -, -, -, -, hb', rfl⟩
  · refine ⟨Map.get?_set_ne _ _ hj, fun a => Map.get?_set_ne _ _ ?_, e2⟩
    rintro ⟨⟩; exact hj hfp
  · have hlp : low.pool = m.pool := by
      exact ((hi.activeFundings_spec hl).1 low hlow).2.1
    refine ⟨Map.get?_set_ne _ _ hj, fun a => (Map.get?_set_ne _ _ ?_).trans (Map.get?_set_ne _ _ ?_), e2.trans ?_⟩
    · rintro ⟨⟩; exact hj hfp
    · rintro ⟨⟩; exact hj hlp
    · exact Bank.send_ne hb' (by rintro ⟨⟩) (by rintro ⟨⟩)


theorem setPool_apart {s : Pool.State} {p : Pool.Pool} {j : Nat} (hp : p.id = j) (hj : id ≠ j) :
    (s.setPool p).pools.get? id = s.pools.get? id := by
  show (Map.set _ p.id p).get? id = _
  rw [hp, Map.get?_set_ne _ _ hj]

theorem disable_bun {x : Addr} {j : Nat} (h : disablePool gov c x j = .ok c') : c'.bun = c.bun := by
  unfold disablePool at h
  split at h
  · cases h
  · unfold drain at h
    split at h
    · cases h; exact kickAll_bun _ _ _
    · split at h
      · cases h
      · split at h
        · cases h
        · cases h; exact kickAll_bun _ _ _

/-- the effect of a message on a pool it is not about -/
theorem kept_exec (h : Reachable gov c) (hx : c.pool.pools.has id = true) (op : Op) (ho : op.signer ≠ none)
    (hu : op.upgrades = false) (hp : op.pool ≠ some id) (he : exec gov c op = .ok c') :
    PoolKept id (fun d => op.gift id d) c c' := by
  have hg := Reachable.good h
  have hk : Keyed c := keyed_of hg.mods.pool rfl
  have hfi : Funders.Inv c.fw := hg.mods.fund.reach.inv
  have hout : ∀ m, Outside m (.pool id) := fun m => outsideP m id
  cases op with
  | submit m =>
    have hj : id ≠ m.pool := fun e => hp (by rw [e]; rfl)
    exact PoolKept.of_settles hj (apart_submit hk hj he) (settles_submit hg he)
  | vote m =>
    have hj : id ≠ m.pool := fun e => hp (by rw [e]; rfl)
    have ha := apart_vote hj he
    obtain ⟨-, p, -, rfl⟩ := vote_ok he
    exact PoolKept.of_apart ha rfl (fun _ => rfl) (fun _ => rfl)
  | skip m =>
    have hj : id ≠ m.pool := fun e => hp (by rw [e]; rfl)
    exact PoolKept.of_settles hj (apart_skip hk hj he) (settles_skip hg he)
  | claim x y j =>
    have hj : id ≠ j := fun e => hp (by rw [e]; rfl)
    obtain ⟨-, -, -, rfl⟩ := claim_ok he
    exact PoolKept.of_apart (apart_setProposal hj _) rfl (fun _ => rfl) (fun _ => rfl)
  | createStaker x k n =>
    have he' : c.createStaker x k n = .ok c' := he
    unfold createStaker at he'
    split at he'
    · cases he'
    · rename_i s hs
      split at he'
      · cases he'
      · rename_i w hw
        cases he'
        have hv : s.vals = c.st.vals := by
          unfold Stakers.createStaker at hs
          split at hs; cases hs
          split at hs; cases hs
          split at hs; cases hs
          cases hs; rfl
        have hb : w.b (.pool id) = c.b (.pool id) := Delegation.delegateMsg_frame (hout _) hw
        exact ⟨rfl, rfl, fun _ => rfl, rfl, fun a => by show s.vals.get? _ = _; rw [hv], fun _ => rfl, rfl,
          fun d => congrArg (Coins.amt · d) hb⟩
  | join m =>
    have hj : id ≠ m.pool := fun e => hp (by rw [e]; rfl)
    obtain ⟨w, hw, rfl⟩ := join_eq he
    have hb := Stakers.joinPool_send hw
    have e1 : ((c.withSt (Stakers.noteGift m c.sw w)).noteGifts m).b = w.b := by
      show (Stakers.noteGift m c.sw w).b = w.b
      unfold Stakers.noteGift; split <;> rfl
    have e2 : ((c.withSt (Stakers.noteGift m c.sw w)).noteGifts m).st.vals = w.s.vals := by
      show (Stakers.noteGift m c.sw w).s.vals = w.s.vals
      unfold Stakers.noteGift; split <;> rfl
    refine ⟨rfl, rfl, fun _ => rfl, rfl, fun a => ?_, fun _ => rfl, rfl, fun d => ?_⟩
    · rw [e2]
      obtain ⟨s1, h1, h2⟩ := Stakers.join_vals hg.mods.st.inv.mem hg.sound.amt hw
      have n : (id, a) ≠ (m.pool, m.creator) := by intro e; injection e with e _; exact hj e
      rw [h2, Map.get?_set_ne _ _ n]
      rcases Stakers.ensureFreeSlot_ok hg.mods.st.inv.mem hg.sound.amt h1 with ⟨-, rfl⟩ | ⟨-, low, -, -, -, rfl⟩
      · rfl
      · have n : (id, a) ≠ (m.pool, low) := by intro e; injection e with e _; exact hj e
        rw [Stakers.kick_vals, Map.get?_del_ne _ n]; rfl
    · rw [e1]
      have := (Bank.send_ok hb).2 (.pool id) d
      rw [if_neg (by rintro ⟨⟩)] at this
      rw [this, Coins.amt_single]
      show (c.b (.pool id)).amt d - 0 + _ = _ + (if m.dst = .pool id ∧ d = kyve then m.amount else 0)
      by_cases e3 : m.dst = .pool id <;> by_cases e4 : d = kyve <;> simp [e3, e4, eq_comm]
  | leave x j =>
    have hj : id ≠ j := fun e => hp (by rw [e]; rfl)
    obtain ⟨s, hr, rfl⟩ := map_ok he
    have hv : ∀ a, s.vals.get? (id, a) = c.st.vals.get? (id, a) := by
      intro a
      unfold Stakers.leavePool at hr
      split at hr
      · cases hr
      · unfold Stakers.State.orderLeave at hr
        split at hr
        · cases hr
        · cases hr
          refine Map.get?_set_ne _ _ ?_
          intro e; injection e with e _; exact hj e
    exact ⟨rfl, rfl, fun _ => rfl, rfl, hv, fun _ => rfl, rfl, fun d => rfl⟩
  | updateCommission x k =>
    obtain ⟨s, hr, rfl⟩ := map_ok he
    unfold Stakers.updateCommission at hr
    split at hr; cases hr
    split at hr; cases hr
    cases hr
    exact ⟨rfl, rfl, fun _ => rfl, rfl, fun _ => rfl, fun _ => rfl, rfl, fun _ => rfl⟩
  | updateMetadata x i v =>
    obtain ⟨s, hr, rfl⟩ := map_ok he
    have hv : s.vals = c.st.vals := by
      unfold Stakers.updateMetadata at hr
      repeat (split at hr; cases hr)
      cases hr; rfl
    exact ⟨rfl, rfl, fun _ => rfl, rfl, fun a => by show s.vals.get? _ = _; rw [hv], fun _ => rfl, rfl, fun d => rfl⟩
  | stakersParams x y =>
    obtain ⟨s, hr, rfl⟩ := map_ok he
    have hv : s.vals = c.st.vals := by
      unfold Stakers.updateParams at hr
      repeat (split at hr; cases hr)
      cases hr; rfl
    exact ⟨rfl, rfl, fun _ => rfl, rfl, fun a => by show s.vals.get? _ = _; rw [hv], fun _ => rfl, rfl, fun d => rfl⟩
  | claimRewards x y =>
    obtain ⟨w, hr, rfl⟩ := map_ok he
    obtain ⟨-, s, -, -, hb, e⟩ := Stakers.claim_ok hr
    exact PoolKept.stk (fun a => by rw [e]; rfl) (Bank.send_ne hb (by rintro ⟨⟩) (by rintro ⟨⟩))
  | delegate x st n =>
    obtain ⟨w, hr, rfl⟩ := map_ok he
    exact PoolKept.del (Delegation.delegateMsg_frame (hout _) hr)
  | redelegate m =>
    obtain ⟨w, hr, rfl⟩ := map_ok he
    exact PoolKept.del (Delegation.redelegateMsg_frame (hout _) hr)
  | undelegate x st n =>
    obtain ⟨w, hr, rfl⟩ := map_ok he
    exact PoolKept.del (by rw [(Delegation.undelegateMsg_ok hr).1]; rfl)
  | withdraw x st =>
    obtain ⟨w, hr, rfl⟩ := map_ok he
    exact PoolKept.del (Delegation.withdrawMsg_frame (hout _) hr)
  | delegationParams x y =>
    obtain ⟨w, hr, rfl⟩ := map_ok he
    exact PoolKept.del (by rw [(Delegation.updateParams_s hr).1]; rfl)
  | createFunder x =>
    obtain ⟨s, hr, rfl⟩ := map_ok he
    have hr' : Funders.createFunder c.fund x = .ok s := hr
    unfold Funders.createFunder at hr'
    split at hr'
    · cases hr'
    · cases hr'; exact ⟨rfl, rfl, fun _ => rfl, rfl, fun _ => rfl, fun _ => rfl, rfl, fun _ => rfl⟩
  | fundersParams x y =>
    obtain ⟨s, hr, rfl⟩ := map_ok he
    have hr' : Funders.updateParams gov c.fund x y = .ok s := hr
    unfold Funders.updateParams at hr'
    repeat (split at hr'; cases hr')
    cases hr'; exact ⟨rfl, rfl, fun _ => rfl, rfl, fun _ => rfl, fun _ => rfl, rfl, fun _ => rfl⟩
  | fund m =>
    have hj : id ≠ m.pool := fun e => hp (by rw [e]; rfl)
    obtain ⟨r, hr, rfl⟩ := map_ok he
    obtain ⟨f1, f2, f3⟩ := fund_apart hfi hr hj
    exact PoolKept.fnd (w := ⟨r.1, r.2⟩) f1 f2 f3
  | defund m =>
    have hj : id ≠ m.pool := fun e => hp (by rw [e]; rfl)
    obtain ⟨r, hr, rfl⟩ := map_ok he
    obtain ⟨l, f, f', hf, -, -, hf', hb, hs⟩ := Funders.defund_ok (w := c.fw) (s' := r.1) (b' := r.2) hr
    have hfp : f'.pool = m.pool := by
      rw [hf']
      have hkk := hfi.key _ _ hf
      injection hkk with _ k2
    refine PoolKept.fnd (w := ⟨r.1, r.2⟩) ?_ (fun a => ?_) (Bank.send_ne hb (by rintro ⟨⟩) (by rintro ⟨⟩))
    · show r.1.active.get? id = _
      rw [hs]; exact Map.get?_set_ne _ _ hj
    · show r.1.fundings.get? (a, id) = _
      rw [hs]
      refine Map.get?_set_ne _ _ ?_
      intro e; injection e with _ e; exact hj (e.trans hfp)
  | createPool m =>
    obtain ⟨s, hs, rfl⟩ := createPool_eq he
    have hid : id ≠ c.pool.count := by
      obtain ⟨p, hp⟩ := (Stakers.has_iff _ _).1 hx
      exact Nat.ne_of_lt ((hg.mods.pool.inv.dense id).1 ⟨p, hp⟩)
    unfold Pool.create at hs
    split at hs; cases hs
    split at hs; cases hs
    split at hs; cases hs
    cases hs
    exact ⟨Map.get?_set_ne _ _ hid, rfl, fun _ => rfl, rfl, fun _ => rfl, fun _ => rfl, Map.get?_set_ne _ _ hid, fun _ => rfl⟩
  | updatePool x j u =>
    have hj : id ≠ j := fun e => hp (by rw [e]; rfl)
    obtain ⟨s, hr, rfl⟩ := map_ok he
    unfold Pool.update at hr
    split at hr; cases hr
    split at hr; cases hr
    split at hr
    · cases hr
    · rename_i p hpj
      cases hr
      exact PoolKept.pol (setPool_apart (hk j p hpj) hj)
  | enablePool x j =>
    have hj : id ≠ j := fun e => hp (by rw [e]; rfl)
    obtain ⟨s, hr, rfl⟩ := map_ok he
    unfold Pool.enable at hr
    split at hr; cases hr
    split at hr
    · cases hr
    · rename_i p hpj
      split at hr
      · cases hr
      · cases hr
        exact PoolKept.pol (setPool_apart (hk j p hpj) hj)
  | disablePool x j =>
    have hj : id ≠ j := fun e => hp (by rw [e]; rfl)
    obtain ⟨-, -, -, -, -, hb, hpv⟩ := C38_disable gov c c' h x j he
    have hf := disable_fund he
    have hbun := disable_bun he
    refine ⟨(hpv id hj).1, by rw [hbun], fun i => by rw [hbun], by rw [hbun], (hpv id hj).2, fun a => by rw [hf], by rw [hf],
      fun d => hb (.pool id) d (Or.inl ⟨by rintro ⟨⟩; exact hj rfl, by rintro ⟨⟩⟩)⟩
  | bundlesParams x y =>
    obtain ⟨s, hr, rfl⟩ := map_ok he
    unfold Bundles.updateParams at hr
    split at hr; cases hr
    split at hr; cases hr
    cases hr
    exact ⟨rfl, rfl, fun _ => rfl, rfl, fun _ => rfl, fun _ => rfl, rfl, fun _ => rfl⟩
  | poolParams x y =>
    obtain ⟨s, hr, rfl⟩ := map_ok he
    have hv : s.pools = c.pool.pools := by
      unfold Pool.updateParams at hr
      repeat (split at hr; cases hr)
      cases hr; rfl
    exact PoolKept.pol (by rw [hv])
  | scheduleUpgrade | cancelUpgrade => cases hu
  | beginBlock | endBlock | external => exact absurd rfl ho

/-- C100: a message that is not about a pool (and no upgrade) changes nothing about the pool: not its record, not the current
proposal, not its bundles, not the rotation, not its members, not its fundings, not its account. -/
theorem C100_isolated (gov : Addr) (c : Chain) (h : Reachable gov c) (id : Nat) (hx : c.pool.pools.has id = true) (op : Op)
    (ho : op.signer ≠ none) (hu : op.upgrades = false) (hp : op.pool ≠ some id) (c' : Chain) (he : exec gov c op = .ok c') :
    PoolKept id (fun d => op.gift id d) c c' :=
  kept_exec h hx op ho hu hp he

end Chain

namespace Sample

/-- a second pool -/
def twoPools : Chain := run later [.createPool Sample.pool]
theorem reach_twoPools : Reachable gov twoPools := run_reachable reach_later _ (by decide +kernel)

/-- the first pool gets its second bundle; the second pool, and its proposal, bundles, members, fundings, account are
untouched -/
example : PoolKept 1 (fun _ => 0) twoPools (run twoPools [.submit (bundle 1 8 10)]) ∧
    (run twoPools [.submit (bundle 1 8 10)]).bun.finalized.get? (0, 0) ≠ none ∧ twoPools.bun.finalized.get? (0, 0) = none := by
  have he : exec gov twoPools (.submit (bundle 1 8 10)) = .ok (run twoPools [.submit (bundle 1 8 10)]) := by
    have : (exec gov twoPools (.submit (bundle 1 8 10))).isOk = true := by decide +kernel
    show _ = Except.ok (twoPools.step gov (.submit (bundle 1 8 10)))
    unfold step
    rw [if_neg (by decide +kernel)]
    cases h : exec gov twoPools (.submit (bundle 1 8 10)) with
    | error e => rw [h] at this; cases this
    | ok c => rfl
  exact ⟨C100_isolated gov twoPools reach_twoPools 1 (by decide +kernel) _ (by decide) rfl (by decide) _ he,
    by decide +kernel, by decide +kernel⟩

end Sample
end Verif.Chain
