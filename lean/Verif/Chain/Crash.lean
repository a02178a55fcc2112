import Verif.Chain.Bills
import Verif.Chain.Inflation
import Verif.Chain.Supply
import Verif.Chain.Queues
import Verif.Chain.SampleReach

/-!
# C90: what can stop the chain

A panic in a message is an error of that message; a panic in a block hook stops every node (`crashed`).  Messages never
stop the chain, a begin block does not as long as the block provision is not absurdly large, and an end block does only
if a pool has a proposed bundle that can not be paid, for one of three reasons.
-/

set_option linter.dupNamespace false
namespace Verif.Chain
open Verif
open Chain
open Verif.Bundles (Proposal VoteDist Status)

/-! ## specification -/

/-- a bundle of pool `id` is proposed but paying it is not possible: its claimed size does not fit into 63 bits, or the
balance of the pool's inflation account does not, or the native coin may not be used for funding -/
structure Unpayable (c : Chain) (id : Nat) : Prop where
  pool : c.pool.pools.has id = true
  proposed : (c.proposal id).storageId ≠ 0
  reason : 2 ^ 63 ≤ (c.proposal id).dataSize ∨ 2 ^ 63 ≤ (c.b (.pool id)).amt kyve ∨
    ¬ Funders.Spec.whitelisted c.fw kyve

namespace Chain

/-! ## the invariants without x/delegation -/

/-- the invariants a tally needs -/
structure Light (gov : Addr) (c : Chain) : Prop where
  st : StR gov c
  pool : PoolR gov c
  fund : FundR gov c
  bun : BunInv c

theorem Light.micro {gov : Addr} {c : Chain} (μ : Micro) (h : Light gov c) (ho : μ.Ok gov c) : Light gov (μ.run gov c) :=
  ⟨h.st.micro μ ho, h.pool.micro μ, h.fund.micro μ h.pool ho, h.bun.micro μ h.st h.pool ho⟩

theorem Light.steps {gov : Addr} {c c' : Chain} (h : Light gov c) (hs : Steps gov c c') : Light gov c' := by
  induction hs with
  | refl => exact h
  | tail μ _ ho ih => exact Light.micro μ ih ho

theorem Light.fit {gov : Addr} {c : Chain} (h : Light gov c) : Fit gov c := ⟨h.st, h.pool, h.fund, BunInv.fee h.bun⟩

theorem Light.mem {gov : Addr} {c : Chain} (h : Light gov c) : Mem c := fun id a hm => by
  obtain ⟨v, hv⟩ := (Stakers.has_iff _ _).1 hm
  exact h.st.inv.mem.mem _ _ v hv

/-! ## end block -/

theorem visit_none {c : Chain} {id interval : Nat} (h : c.visit id interval = none) :
    (c.proposal id).storageId ≠ 0 ∧ c.tally id (c.proposal id) = .panicked := by
  unfold visit at h
  split at h
  · cases h
  · unfold visitRunning at h
    split at h
    · cases h
    · split at h
      · cases h
      · unfold visitTimeout at h
        split at h
        · cases h
        · split at h
          · rename_i h4
            refine ⟨h4, ?_⟩
            cases ht : c.tally id (c.proposal id) with
            | panicked => rfl
            | failed y => rw [ht] at h; cases h
            | done y v => rw [ht] at h; cases h
          · cases h

/-- every proposed bundle of the pools in the list can be paid -/
def AllPayable (l : List Nat) (c : Chain) : Prop := ∀ id ∈ l, (c.proposal id).storageId ≠ 0 → c.Payable id

theorem settles_keeps {c d : Chain} {j id : Nat} (h : Settles j c d) (hk : c.Payable id)
    (hp : d.proposal id = c.proposal id) : d.Payable id := by
  rcases h with ⟨-, u, f, r, -, -, hpaid, -⟩ | ⟨-, hm⟩
  · refine ⟨hp ▸ hk.dataSize, ?_, hpaid.apart.1 ▸ hk.whitelist⟩
    refine lt_of_le_of_lt ?_ hk.inflation
    by_cases e : id = j
    · subst e
      have := hpaid.inflation kyve
      omega
    · exact (hpaid.others (.pool id) kyve (by simp) (by simpa using e) (by simp) (by simp) (by simp) (by simp)).le
  · refine ⟨hp ▸ hk.dataSize, ?_, hm.fund ▸ hk.whitelist⟩
    rw [hm.rest _ (by simp) (by simp)]
    exact hk.inflation

theorem visits_some {gov : Addr} (l : List (Nat × Pool.Pool)) (hn : (l.map (·.1)).Nodup) {c : Chain} (hL : Light gov c)
    (hp : ∀ e ∈ l, c.pool.pools.has e.1 = true) (ha : AllPayable (l.map (·.1)) c) :
    ∃ c', visits l c = some c' ∧ c'.crashed = c.crashed := by
  induction l generalizing c with
  | nil => exact ⟨c, rfl, rfl⟩
  | cons e l ih =>
    rw [List.map_cons, List.nodup_cons] at hn
    have hpe := hp e (by simp)
    cases hv : c.visit e.1 e.2.uploadInterval with
    | none =>
      exfalso
      obtain ⟨h0, ht⟩ := visit_none hv
      obtain ⟨pl, hpl⟩ := (Stakers.has_iff _ _).1 hpe
      rcases tally_cases (Light.fit hL) hpl (hL.bun.prop e.1) with ⟨-, h, -⟩ | ⟨c', v, h, -⟩
      · exact h (ha e.1 (by simp) h0)
      · rw [ht] at h; cases h
    | some d =>
      obtain ⟨h1, t1⟩ := visit_steps (gov := gov) (Light.mem hL) hpe hv
      have hk := keyed_of hL.pool rfl
      have hset := settles_visit' (Light.fit hL) hL.bun hpe hv
      have hap : ∀ id, id ≠ e.1 → Apart id c d := fun id hid => apart_visit hid hk hv
      have hpr : ∀ id, id ≠ e.1 → d.proposal id = c.proposal id := by
        intro id hid
        have := (hap id hid).stored
        show d.bun.proposal id = c.bun.proposal id
        unfold Bundles.State.proposal
        rw [this]
      obtain ⟨c', h2, h3⟩ := ih hn.2 (Light.steps hL h1.steps) (fun e' he' => t1.pool _ (hp e' (by simp [he'])))
        (fun id hid h0 => by
          have hne : id ≠ e.1 := fun x => hn.1 (x ▸ hid)
          rw [hpr id hne] at h0
          exact settles_keeps hset (ha id (by simp [hid]) h0) (hpr id hne))
      refine ⟨c', ?_, h3.trans (hap (e.1 + 1) (by omega)).crashed⟩
      rw [visits, hv]
      exact h2

theorem upgradePools_payable (c : Chain) (id : Nat) (h : c.Payable id) : c.upgradePools.Payable id :=
  ⟨h.dataSize, h.inflation, h.whitelist⟩

/-- C90: an end block stops the chain only if a pool has a proposed bundle that can not be paid. -/
theorem C90_end_block (gov : Addr) (c : Chain) (h : Reachable gov c) (hc : c.crashed = false)
    (hx : (c.step gov .endBlock).crashed = true) : ∃ id, Unpayable c id := by
  by_contra hno
  push Not at hno
  have hg := Reachable.good h
  have hL : Light gov c := ⟨hg.mods.st, hg.mods.pool, hg.mods.fund, hg.bun⟩
  have hL' : Light gov c.upgradePools := Light.steps hL (Steps.one (c := c) (.pool .endBlock) trivial)
  have hhas : ∀ e ∈ c.upgradePools.pool.pools.toList, c.upgradePools.pool.pools.has e.1 = true :=
    fun e he => (Stakers.has_iff _ _).2 ⟨e.2, (Map.mem_iff _ _ _).1 he⟩
  have hback : ∀ id, c.upgradePools.pool.pools.has id = true → c.pool.pools.has id = true := by
    intro id hid
    obtain ⟨p, hp⟩ := (Stakers.has_iff _ _).1 hid
    obtain ⟨q, hq, -⟩ := (pool_op (gov := gov) (op := .endBlock) (c := c) hg.mods.pool c.now trivial id).1 p hp
    exact (Stakers.has_iff _ _).2 ⟨q, hq⟩
  obtain ⟨c', h1, h2⟩ := visits_some (c.upgradePools.pool.pools.toList) (Map.keys_nodup _) hL' hhas (by
    intro id hid h0
    obtain ⟨e, he, rfl⟩ := List.mem_map.1 hid
    have hp := hback e.1 (hhas e he)
    refine upgradePools_payable c e.1 ⟨?_, ?_, ?_⟩
    · by_contra hd
      exact hno e.1 ⟨hp, h0, Or.inl (by omega)⟩
    · by_contra hd
      exact hno e.1 ⟨hp, h0, Or.inr (Or.inl (by omega))⟩
    · by_contra hd
      exact hno e.1 ⟨hp, h0, Or.inr (Or.inr (fun hw => hd ((Funders.listed_iff c.fw kyve).2 hw)))⟩)
  have e : c.step gov .endBlock = c.endBlock := by
    unfold step; rw [if_neg (by rw [hc]; simp)]; rfl
  rw [e] at hx
  unfold endBlock at hx
  rw [h1] at hx
  have hx' : c'.crashed = true := hx
  rw [h2] at hx'
  have : c.crashed = true := hx'
  rw [hc] at this
  cases this

/-! ## begin block -/

theorem inflTransfers_some (l : List (Nat × Nat)) (c : Chain) (hb : ∀ t ∈ l, t.2 < 2 ^ 63) :
    ∃ c', inflTransfers l c = some c' ∧ c'.crashed = c.crashed := by
  induction l generalizing c with
  | nil => exact ⟨c, rfl, rfl⟩
  | cons t l ih =>
    rw [inflTransfers, inflTransfer, if_pos (hb t (by simp))]
    obtain ⟨c', h1, h2⟩ := ih { c with
      b := c.b.orKeep (c.b.send (.mod .feeCollector) (.pool t.1) (Coins.single kyve t.2))
      halted := c.halted || Bank.failed (c.b.send (.mod .feeCollector) (.pool t.1) (Coins.single kyve t.2)) }
      (fun x hx => hb x (List.mem_cons_of_mem _ hx))
    exact ⟨c', h1, h2⟩

theorem transfer_small (l : List Bundles.InflPool) (P : Nat) (hb : (l.filter (·.running)).length * P < 2 * Dec.one) :
    ∀ t ∈ Bundles.inflationTransfers l P, t.2 < 2 ^ 63 := by
  intro t ht
  unfold Bundles.inflationTransfers at ht
  split at ht
  · cases ht
  · split at ht
    · cases ht
    · rename_i hW
      have hsum := Bundles.C29_running_partial l P hW hb
      have hne : (l.filter (·.running)) ≠ [] := fun e => hW (by unfold Bundles.totalWeight; rw [e]; rfl)
      have hlen : 1 ≤ (l.filter (·.running)).length := List.length_pos_iff.2 hne
      have hP : P < 2 ^ 63 := by
        have h1 : 1 * P ≤ (l.filter (·.running)).length * P := Nat.mul_le_mul_right _ hlen
        have h2 : 2 * Dec.one < 2 ^ 63 := by decide
        generalize (l.filter (·.running)).length * P = x at *
        omega
      refine lt_of_le_of_lt ?_ hP
      rcases List.mem_append.1 ht with h | h
      · refine le_trans ?_ hsum
        exact List.single_le_sum (fun _ _ => Nat.zero_le _) _ (List.mem_map.mpr ⟨t, h, rfl⟩)
      · unfold Bundles.remainderTransfers at h
        split at h
        · cases h
        · obtain ⟨p, -, rfl⟩ := List.mem_map.1 h
          show Bundles.inflationRemainder l P ≤ P
          unfold Bundles.inflationRemainder
          generalize Bundles.transferSum (Bundles.runningTransfers l P) = s at *
          have hP' : P < twoPow64 := lt_trans hP (by decide)
          rw [u64sub_of_le hsum hP']
          exact Nat.sub_le _ _

theorem crashed_afterSplit (c d : Chain) (r : Bool) : (c.afterSplit r (some d)).crashed = d.crashed := rfl

/-- C90: a begin block does not stop the chain, unless the number of running pools times what is reserved for them is at
least two trillion coins (2 * 10^18 of the smallest unit). -/
theorem C90_begin_block (gov : Addr) (c : Chain) (dt pr te : Nat) (r : Bool) (hc : c.crashed = false)
    (h1 : ({ c with now := c.now + dt } : Chain).runners.length * c.reserved pr te < 2 * 10 ^ 18) :
    (c.step gov (.beginBlock dt pr te r)).crashed = false := by
  have hb := transfer_small ({ c with now := c.now + dt } : Chain).inflPools (c.reserved pr te)
    (by rw [infl_running, List.length_map]; exact h1)
  have hs := split_eq c dt pr te r
  generalize Bundles.inflationTransfers ({ c with now := c.now + dt } : Chain).inflPools (c.reserved pr te) = l at hs hb
  obtain ⟨c', e1, e2⟩ := inflTransfers_some l (c.newBlock dt r) hb
  have e0 : c.beginBlock dt pr te r = c.afterSplit r ((c.newBlock dt r).splitInflation pr te) := by rw [beginBlock]
  have e3 : exec gov c (.beginBlock dt pr te r) = .ok (c.beginBlock dt pr te r) := by rw [exec]
  rw [step_of_exec hc e3, e0, hs, e1, crashed_afterSplit, e2]
  exact hc

/-! ## messages -/

theorem kickAll_crashed (id : Nat) (l : List Addr) (c : Chain) : (kickAll id l c).crashed = c.crashed := by
  induction l generalizing c with
  | nil => rfl
  | cons a l ih => exact ih _

/-- C90: no message stops the chain. -/
theorem C90_messages (gov : Addr) (c : Chain) (h : Reachable gov c) (op : Op) (hs : op.signer ≠ none) :
    (c.step gov op).crashed = c.crashed := by
  have hk : Keyed c := keyed_of (Reachable.good h).mods.pool rfl
  unfold step
  split
  · rfl
  · cases he : exec gov c op with
    | error e => rfl
    | ok c' =>
      show c'.crashed = c.crashed
      cases op with
      | submit m => exact (apart_submit (id := m.pool + 1) hk (by omega) he).crashed
      | skip m => exact (apart_skip (id := m.pool + 1) hk (by omega) he).crashed
      | vote m =>
        obtain ⟨p, -, -, rfl⟩ := vote_ok he
        rfl
      | claim x y id =>
        have he' : c.claim x y id = .ok c' := he
        unfold claim at he'
        split at he'
        · cases he'
        · split at he'
          · cases he'
          · split at he'
            · cases he'
            · cases he'; rfl
      | createStaker x k n =>
        have he' : c.createStaker x k n = .ok c' := he
        unfold createStaker at he'
        split at he'
        · cases he'
        · split at he'
          · cases he'
          · cases he'; rfl
      | join m =>
        obtain ⟨w, hw, rfl⟩ := join_eq he
        rfl
      | leave | updateCommission | updateMetadata | createFunder | updatePool | enablePool | scheduleUpgrade
        | cancelUpgrade | bundlesParams | stakersParams | poolParams | fundersParams | claimRewards | delegate
        | redelegate | undelegate | withdraw | fund | defund | delegationParams =>
        obtain ⟨s, hr, rfl⟩ := map_ok he
        rfl
      | createPool m =>
        obtain ⟨s, -, rfl⟩ := createPool_eq he
        rfl
      | disablePool x id =>
        have he' : disablePool gov c x id = .ok c' := he
        unfold disablePool at he'
        split at he'
        · cases he'
        · unfold drain at he'
          split at he'
          · cases he'; rw [kickAll_crashed]
          · split at he'
            · cases he'
            · split at he'
              · cases he'
              · cases he'
                show (kickAll _ _ _).crashed = _
                rw [kickAll_crashed]
      | beginBlock | endBlock | external => exact absurd rfl hs

end Chain
end Verif.Chain

namespace Verif.Chain.Sample
open Verif Verif.Chain.Chain

/-- a bundle that claims to be 2^63 bytes large, and enough votes for it -/
def huge : Chain := run ready [.bundlesParams gov { storageCosts := some [(some 1, Dec.one)] }, .claim 11 1 0, .beginBlock 60 0 0 false,
  .submit { bundle 1 7 0 with dataSize := 2 ^ 63 }, votes 2 7 .valid, votes 3 7 .valid, .beginBlock 2000 0 0 false]

/-- the first reason is real: any uploader can stop the chain by claiming a huge bundle, if nobody uploads the next one
in time -/
theorem C90_reason : Reachable gov huge ∧ huge.crashed = false ∧ (huge.step gov .endBlock).crashed = true ∧
    Unpayable huge 0 :=
  ⟨run_reachable reach_ready _ (by decide +kernel), by decide +kernel, by decide +kernel,
    ⟨by decide +kernel, by decide +kernel, Or.inl (by decide +kernel)⟩⟩

end Verif.Chain.Sample
