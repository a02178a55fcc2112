import Verif.Upgrade.V15

/-!
# C78, C79: what the v1.5 upgrade keeps
-/

set_option linter.dupNamespace false

namespace Verif.Upgrade
open Verif
open Verif.Pool (Str)
open Verif.Chain (Chain Reachable Sane)

/-! ## C78: the state after the upgrade is one the chain can reach by itself -/

theorem reachable_step {gov : Addr} {c : Chain} (h : Reachable gov c) {op : Chain.Op} (hd : (c.step gov op).del = c.del) :
    Reachable gov (c.step gov op) := by
  have hs := (Verif.Chain.Reachable.good h).sane
  refine Reachable.step op h ⟨?_, ?_⟩
  · rw [hd]; exact hs.calm
  · rw [hd]; exact hs.small

theorem map_del {α : Type} {c : Chain} {r : Except String α} {f : α → Chain} (hf : ∀ s, (f s).del = c.del) :
    (c.orElse (r.map f)).del = c.del := by
  cases r with
  | error e => rfl
  | ok s => exact hf s

theorem reachable_run {gov : Addr} (ops : List Chain.Op) (hd : ∀ op ∈ ops, ∀ c : Chain, (c.step gov op).del = c.del) :
    ∀ c : Chain, Reachable gov c → Reachable gov (ops.foldl (Chain.step gov) c) := by
  induction ops with
  | nil => intro c h; exact h
  | cons op t ih =>
    intro c h
    exact ih (fun o ho => hd o (List.mem_cons_of_mem _ ho)) _ (reachable_step h (hd op List.mem_cons_self c))

theorem messages_del (gov : Addr) (k : Literals) (o : Old) :
    ∀ op ∈ messages gov k o, ∀ c : Chain, (c.step gov op).del = c.del := by
  intro op hop c
  unfold Chain.step
  split
  · rfl
  unfold messages at hop
  rw [List.mem_append, List.mem_append] at hop
  rcases hop with (hop | hop) | hop
  · simp only [List.mem_cons, List.not_mem_nil, or_false] at hop
    rcases hop with rfl | rfl | rfl <;> exact map_del (fun _ => rfl)
  · obtain ⟨id, -, rfl⟩ := List.mem_map.mp hop
    exact map_del (fun _ => rfl)
  · obtain ⟨u, -, rfl⟩ := List.mem_map.mp hop
    exact map_del (fun _ => rfl)

/-- C78: if the state before the upgrade, read with all amounts in the native coin, is a state the chain reaches, then so is
the state after the upgrade: everything proved of the reachable states of the chain goes on to hold. -/
theorem C78_reachable (gov : Addr) (k : Literals) (hv : k.version ≠ 0) (hb : ∀ u ∈ k.upgrades, u.2 ≠ 0) {o : Old}
    (hk : Keyed o) {c c' : Chain} (hn : Native o c) (hc : c.crashed = false) (hr : Reachable gov c)
    (hm : migrate k o = some c') : Reachable gov c' := by
  have hs : Small o := (C78_panics k hk).mp (by rw [hm]; rfl)
  rw [C78_migrate gov k hv hb hk hs hn hc] at hm
  injection hm with hm
  subst hm
  exact reachable_run _ (messages_del gov k o) c hr

/-! ## C78: nobody loses anything -/

theorem upgradeRuntime_count (k : Literals) (now : Nat) (u : Str × Str) (s : Pool.State) :
    (upgradeRuntime k now u s).count = s.count ∧ (upgradeRuntime k now u s).params = s.params := ⟨rfl, rfl⟩

theorem upgrades_count (k : Literals) (now : Nat) (us : List (Str × Str)) : ∀ s : Pool.State,
    (us.foldl (fun s u => upgradeRuntime k now u s) s).count = s.count ∧
    (us.foldl (fun s u => upgradeRuntime k now u s) s).params = s.params := by
  induction us with
  | nil => intro s; exact ⟨rfl, rfl⟩
  | cons u t ih => intro s; exact ih (upgradeRuntime k now u s)

/-- the plan a pool has after the upgrade -/
def planned (k : Literals) (now : Nat) (us : List (Str × Str)) (p : Pool.Pool) : Pool.Plan :=
  if p.plan.scheduledAt = 0 then
    match us.find? (fun u => u.1 == p.runtime) with
    | some u => ⟨k.version, u.2, now, 600⟩
    | none => p.plan
  else p.plan

theorem upgrades_pools (k : Literals) (now : Nat) (us : List (Str × Str)) (hn : (us.map (·.1)).Nodup) : ∀ s : Pool.State,
    (∀ id p, s.pools.get? id = some p → p.id = id) →
    ∀ id, (us.foldl (fun s u => upgradeRuntime k now u s) s).pools.get? id =
      (s.pools.get? id).map (fun p => { p with plan := planned k now us p }) := by
  induction us with
  | nil =>
    intro s _ id
    show s.pools.get? id = _
    cases s.pools.get? id with
    | none => rfl
    | some p =>
      have e : planned k now [] p = p.plan := by
        unfold planned
        split <;> rfl
      show some p = some { p with plan := planned k now [] p }
      rw [e]
  | cons u t ih =>
    intro s hs id
    have hf : ∀ p : Pool.Pool, (if p.runtime ≠ u.1 then p
        else if p.plan.scheduledAt ≠ 0 then p
        else { p with plan := ⟨k.version, u.2, now, 600⟩ }).id = p.id := by
      intro p
      split
      · rfl
      · split <;> rfl
    have hget := fun j => Pool.get?_forEach hs hf j
    rw [List.foldl_cons]
    rw [ih (List.nodup_cons.mp hn).2 (upgradeRuntime k now u s) (by
      intro j p hp
      have hp' : (s.pools.get? j).map _ = some p := (hget j).symm.trans hp
      obtain ⟨q, hq, rfl⟩ := Option.map_eq_some_iff.mp hp'
      rw [hf]
      exact hs j q hq) id]
    have e0 : (upgradeRuntime k now u s).pools.get? id = _ := hget id
    rw [e0]
    cases s.pools.get? id with
    | none => rfl
    | some p =>
      have hnot : u.1 ∉ t.map (·.1) := (List.nodup_cons.mp hn).1
      simp only [Option.map_some, Option.some.injEq]
      by_cases h1 : p.runtime = u.1
      · by_cases h2 : p.plan.scheduledAt = 0
        · rw [if_neg (by simpa using h1), if_neg (by simpa using h2)]
          have hfind : t.find? (fun x => x.1 == p.runtime) = none := by
            rw [List.find?_eq_none]
            intro x hx hxe
            have : x.1 = p.runtime := by simpa using hxe
            exact hnot (List.mem_map.mpr ⟨x, hx, this.trans h1⟩)
          have e1 : planned k now t { p with plan := ⟨k.version, u.2, now, 600⟩ } = ⟨k.version, u.2, now, 600⟩ := by
            unfold planned
            simp only [hfind]
            split <;> rfl
          have e2 : planned k now (u :: t) p = ⟨k.version, u.2, now, 600⟩ := by
            unfold planned
            rw [if_pos h2, List.find?_cons_of_pos (by simpa using h1.symm)]
          rw [e1, e2]
        · rw [if_neg (by simpa using h1), if_pos h2]
          have e1 : planned k now t p = p.plan := by unfold planned; rw [if_neg h2]
          have e2 : planned k now (u :: t) p = p.plan := by unfold planned; rw [if_neg h2]
          rw [e1, e2]
      · rw [if_pos h1]
        have e1 : planned k now (u :: t) p = planned k now t p := by
          unfold planned
          rw [List.find?_cons_of_neg (by
            intro h
            exact h1 (by simpa using Eq.symm (by simpa using h)))]
        rw [e1]

/-- C78: the upgrade moves no coins and keeps every funding, staker, commission, delegation, reward, slash, unbonding,
membership, proposal and bundle; amounts become amounts of the native coin. -/
theorem C78_kept (k : Literals) {o : Old} (hk : Keyed o) {c : Chain} (hm : migrate k o = some c) :
    c.b = o.rest.b ∧ c.now = o.rest.now ∧ c.halted = o.rest.halted ∧ c.crashed = o.rest.crashed ∧
    (∀ i, c.fund.fundings.get? i = (o.fundings.get? i).map OldFunding.native) ∧
    c.fund.funders = o.rest.fund.funders ∧ c.fund.active = o.rest.fund.active ∧
    (∀ a, c.st.stakers.get? a = (o.stakers.get? a).map OldStaker.native) ∧
    c.st = { o.rest.st with stakers := c.st.stakers } ∧
    (∀ a, Option.Rel F1Native (o.f1.get? a) (c.del.f1.get? a)) ∧
    c.del = { o.rest.del with f1 := c.del.f1 } ∧
    c.bun = { o.rest.bun with params := c.bun.params } ∧
    c.pool.count = o.rest.pool.count := by
  have hs : Small o := (C78_panics k hk).mp (by rw [hm]; rfl)
  obtain ⟨r1, r2, r3, r4, q1, q2, q3, q4, e⟩ := migrate_eq k hk hs
  rw [e] at hm
  injection hm with hm
  subst hm
  refine ⟨rfl, rfl, rfl, rfl, q1, rfl, rfl, q3, rfl, ?_, rfl, rfl, (upgrades_count _ _ _ _).1⟩
  intro a
  show Option.Rel F1Native (o.f1.get? a) (r2.get? a)
  rw [q2 a]
  cases o.f1.get? a with
  | none => exact .none
  | some f => exact .some (nativeF1_ok f)

theorem migrate_params (k : Literals) {o : Old} (hk : Keyed o) {c : Chain} (hm : migrate k o = some c) :
    c.fund.params = fundersParams k o ∧ c.bun.params = bundlesParams o ∧ c.pool.params = poolParams o := by
  have hs : Small o := (C78_panics k hk).mp (by rw [hm]; rfl)
  obtain ⟨r1, r2, r3, r4, q1, q2, q3, q4, e⟩ := migrate_eq k hk hs
  rw [e] at hm
  injection hm with hm
  subst hm
  exact ⟨rfl, rfl, (upgrades_count k o.rest.now k.upgrades ⟨r4, o.rest.pool.count, poolParams o⟩).2⟩

/-- C78: the new parameters: the old ones, the native coin with the old minimums on the whitelist, and the new ones -/
theorem C78_params (k : Literals) {o : Old} (hk : Keyed o) {c : Chain} (hm : migrate k o = some c) :
    c.fund.params.minMultiple = o.minMultiple ∧
    (∀ e ∈ c.fund.params.whitelist, e.decimals = 6) ∧
    (kyve ≠ k.andromeda → kyve ≠ k.source → ∃ w, c.fund.params.entry? kyve = some ⟨kyve, 6, o.minAmount, o.minPerBundle, w⟩) ∧
    c.fund.params.whitelist.map (·.denom) = [kyve, k.andromeda, k.source] ∧
    c.bun.params.uploadTimeout = o.uploadTimeout ∧ c.bun.params.networkFee = o.networkFee ∧
    c.bun.params.maxPoints = o.maxPoints ∧ c.bun.params.storageCosts.map (·.1) = [1, 2, 3] ∧
    c.pool.params.protocolInflationShare = o.inflationShare ∧ c.pool.params.poolInflationPayoutRate = o.payoutRate ∧
    2 * c.pool.params.maxVotingPowerPerPool = Dec.one := by
  obtain ⟨h1, h2, h3⟩ := migrate_params k hk hm
  rw [h1, h2, h3]
  refine ⟨rfl, ?_, ?_, rfl, rfl, rfl, rfl, rfl, rfl, rfl, ?_⟩
  · intro x hx
    simp only [fundersParams, List.mem_cons, List.not_mem_nil, or_false] at hx
    rcases hx with rfl | rfl | rfl <;> rfl
  · intro h1 h2
    refine ⟨35800000000000000, ?_⟩
    unfold Funders.Params.entry? fundersParams
    rw [List.reverse_cons, List.reverse_cons, List.reverse_cons]
    simp [h1.symm, h2.symm]
  · show 2 * 500000000000000000 = Dec.one
    unfold Dec.one
    norm_num

/-- C78: every pool is kept, with weight one; exactly the pools with one of the runtimes of the upgrade and without an
upgrade plan get the plan of their runtime, which starts now and lasts ten minutes. -/
theorem C78_pools (k : Literals) (hu : (k.upgrades.map (·.1)).Nodup) {o : Old} (hk : Keyed o) {c : Chain}
    (hm : migrate k o = some c) (id : Nat) :
    c.pool.pools.get? id = (o.pools.get? id).map (fun p =>
      { p.shape with
        inflationShareWeight := Dec.one
        plan := if p.shape.plan.scheduledAt = 0 then
            match k.upgrades.find? (fun u => u.1 == p.shape.runtime) with
            | some u => ⟨k.version, u.2, o.rest.now, 600⟩
            | none => p.shape.plan
          else p.shape.plan }) := by
  have hs : Small o := (C78_panics k hk).mp (by rw [hm]; rfl)
  obtain ⟨r1, r2, r3, r4, q1, q2, q3, q4, e⟩ := migrate_eq k hk hs
  rw [e] at hm
  injection hm with hm
  subst hm
  have h1 := upgrades_pools k o.rest.now k.upgrades hu ⟨r4, o.rest.pool.count, poolParams o⟩ (by
    intro j p hp
    have hp' : r4.get? j = some p := hp
    rw [q4 j] at hp'
    obtain ⟨q, hq, rfl⟩ := Option.map_eq_some_iff.mp hp'
    exact hk.pool j q hq) id
  refine h1.trans ?_
  show (r4.get? id).map _ = _
  rw [q4 id, Option.map_map]
  rfl

end Verif.Upgrade
