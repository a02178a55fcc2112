import Verif.Delegation.QueueProps

/-!
# Ranking, solvency, authority (C11, C12, C52) and the module-level versions of C01 - C06
-/

namespace Verif.Delegation
open Verif

/-! ## C01 - C06 for every staker of the module -/

/-- The F1 store of every staker in every reachable state of the module is the F1 store of a ledger history (the one
replayed from the recorded operations), so that C01 - C06 and C10 hold of every staker of the module. -/
theorem module_ledgers {gov : Addr} {y : Sys} (h : Sys.Reachable gov y) (st : Addr) :
    Ledger.Reachable (ledgerOf y.w.s.trace st) ∧ y.w.s.at st = (ledgerOf y.w.s.trace st).f1 :=
  ⟨h.winv.tied.reach st, h.winv.tied.at_eq st⟩

/-- **C01 (module).** No F1 lookup of any staker ever failed, and no query would. -/
theorem C01_module {gov : Addr} {y : Sys} (h : Sys.Reachable gov y) (st : Addr) :
    (y.w.s.at st).halted = false ∧
      ∀ who, lookupHalts (y.w.s.at st) who = false ∧ outstandingHalts (y.w.s.at st) who = false := by
  obtain ⟨h1, h2⟩ := module_ledgers h st
  rw [h2]; exact C01_no_halt h1

/-- **C02 (module).** For every staker the total delegation covers the delegations, the counter is right. -/
theorem C02_module {gov : Addr} {y : Sys} (h : Sys.Reachable gov y) (st : Addr) :
    (y.w.s.at st).dels.sum (fun w _ => curDel (y.w.s.at st) w) ≤ y.w.s.amount st ∧
      (∀ who, curDel (y.w.s.at st) who ≤ y.w.s.amount st) ∧
      (y.w.s.at st).d.count = (y.w.s.at st).dels.size ∧ (y.w.s.at st).wrapped = false := by
  obtain ⟨h1, h2⟩ := module_ledgers h st
  have e : y.w.s.amount st = (y.w.s.at st).d.total := rfl
  rw [e, h2]; exact C02_total h1

/-- **C05 (module).** A slash by x/bundles takes the configured fraction from every delegator of the staker at once,
leaves every other staker alone and sends exactly the removed total to the treasury. -/
theorem C05_module {gov : Addr} {y : Sys} (h : Sys.Reachable gov y) (st : Addr) (t : SlashType)
    (hc : Calm (slashDelegators y.w st t).s) (hd : (y.w.s.at st).data.isSome = true) :
    (∀ who, curDel ((slashDelegators y.w st t).s.at st) who
      = ((ledgerOf y.w.s.trace st).ideal.stake who
          - (ledgerOf y.w.s.trace st).ideal.stake who * y.w.s.params.slashFraction t / Dec.one) / Dec.one) ∧
    (∀ who, curDel (y.w.s.at st) who = (ledgerOf y.w.s.trace st).ideal.stake who / Dec.one) ∧
    (∀ st', st' ≠ st → (slashDelegators y.w st t).s.at st' = y.w.s.at st') := by
  obtain ⟨h1, h2⟩ := module_ledgers h st
  have hq := slashFraction_le h.winv.par t
  have hnone : ¬ (y.w.s.at st).data.isNone = true := by
    cases hdd : (y.w.s.at st).data with
    | none => rw [hdd] at hd; cases hd
    | some d => simp
  have es : ∀ st', (slashDelegators y.w st t).s.at st'
      = if st' = st then f1Step (y.w.s.at st) (.slash (y.w.s.params.slashFraction t)) else y.w.s.at st' := by
    intro st'
    unfold slashDelegators
    rw [if_neg hnone]
    exact at_applyIndexed y.w.s st st' _
  have et : (slashDelegators y.w st t).s.trace = .f1 st (.slash (y.w.s.params.slashFraction t)) :: y.w.s.trace := by
    unfold slashDelegators
    rw [if_neg hnone]; rfl
  have hdust := hc st
  rw [et, ledgerOf_f1, if_pos rfl] at hdust
  refine ⟨fun who => ?_, fun who => ?_, fun st' hne => ?_⟩
  · rw [es, if_pos rfl, h2]
    exact (C05_slash h1 hq hdust).1 who
  · rw [h2]; exact (C05_eager h1).1 who
  · rw [es, if_neg hne]

/-! ## C11 -/

/-- **C11.** In every reachable state (totals are `uint64`), the ranking lists every staker at most once, contains every
staker that ever had a delegator, every entry carries the staker's current total delegation, and the entries are in
descending order of total delegation. -/
theorem C11_ranking {gov : Addr} {y : Sys} (h : Sys.Reachable gov y) (hb : ∀ st, y.w.s.amount st ≤ maxU64) :
    (y.w.s.index.keys.map (·.2)).Nodup ∧
    (∀ st, (y.w.s.at st).data.isSome = true → st ∈ y.w.s.index.keys.map (·.2)) ∧
    (∀ k ∈ y.w.s.index.keys, maxU64 - k.1 = y.w.s.amount k.2) ∧
    (y.w.s.index.keys.map (fun k => y.w.s.amount k.2)).Pairwise (· ≥ ·) := by
  have hi := h.winv.idx
  have hkey : ∀ k ∈ y.w.s.index.keys, k.1 = maxU64 - y.w.s.amount k.2 := by
    rintro ⟨k, st⟩ hk
    obtain ⟨v, hv⟩ := (Map.mem_keys_iff _ _).1 hk
    exact hi.only k st hv
  refine ⟨?_, ?_, ?_, ?_⟩
  · refine List.Nodup.map_on ?_ y.w.s.index.keys_nodup
    rintro ⟨k, st⟩ hk ⟨k', st'⟩ hk' e
    have e' : st = st' := e
    subst e'
    have h1 : k = _ := hkey _ hk
    have h2 : k' = _ := hkey _ hk'
    rw [h1, h2]
  · intro st hs
    exact List.mem_map.2 ⟨_, (Map.mem_keys_iff _ _).2 ⟨(), hi.has st hs⟩, rfl⟩
  · intro k hk
    have := hkey k hk
    have := hb k.2
    omega
  · have hs : y.w.s.index.keys.Pairwise (fun a b => KeyOrd.lt a b = true) := by
      unfold Map.keys
      rw [List.pairwise_map]
      exact y.w.s.index.sorted
    rw [List.pairwise_map]
    refine List.Pairwise.imp_of_mem ?_ hs
    intro a b ha hb' hlt
    have h1 := hkey a ha
    have h2 := hkey b hb'
    have h3 := hb a.2
    have h4 := hb b.2
    have h5 : a.1 ≤ b.1 := by
      simp only [KeyOrd.lt, Bool.or_eq_true, Bool.and_eq_true, decide_eq_true_eq] at hlt
      rcases hlt with h | ⟨h, _⟩ <;> omega
    show y.w.s.amount b.2 ≤ y.w.s.amount a.2
    omega

/-! ## C12 -/

/-- what all delegators of all stakers currently own -/
def allDelegations (s : State) : Nat := s.f1.sum (fun st _ => (s.at st).dels.sum (fun w _ => curDel (s.at st) w))

theorem allDelegations_le {gov : Addr} {y : Sys} (h : Sys.Reachable gov y) : allDelegations y.w.s ≤ totalAll y.w.s := by
  apply Map.sum_le
  intro st f hf
  have e : y.w.s.at st = f := by unfold State.at; rw [hf]; rfl
  have := (C02_module h st).1
  have e' : y.w.s.amount st = f.d.total := by unfold State.amount; rw [e]; rfl
  rw [e'] at this
  exact this

/-- **C12 (exact).** As long as the chain has not been halted by a failed transfer, the module account holds exactly the
total delegations of all stakers, plus all rewards ever accepted, minus all rewards ever paid out, plus what was given
to the module account from outside (`C12_gifts`). -/
theorem C12_exact {gov : Addr} {y : Sys} (h : Sys.Reachable gov y) (hh : y.w.s.halted = false) (d : Denom) :
    (y.w.b (.mod .delegation)).amt d + outAll y.w.s d
      = (if d = kyve then totalAll y.w.s else 0) + inAll y.w.s d + y.w.s.gifts.amt d := by
  have := h.winv.backed hh d
  by_cases hd : d = kyve
  · simp only [hd, if_true] at *; omega
  · simp only [hd, if_false] at *; omega

/-- the accumulated rounding error of all stakers, in units of the 18th decimal (the bound of C03) -/
def roundingBound (s : State) (d : Denom) : Nat :=
  s.f1.sum (fun st _ => (ledgerOf s.trace st).dust * (ledgerOf s.trace st).paidIn d
    + (3 * (ledgerOf s.trace st).ops * ((ledgerOf s.trace st).maxTotal + 1)
        + (ledgerOf s.trace st).ops + (ledgerOf s.trace st).dust))

theorem out_le {gov : Addr} {y : Sys} (h : Sys.Reachable gov y) (d : Denom) :
    Dec.one * outAll y.w.s d ≤ Dec.one * inAll y.w.s d + roundingBound y.w.s d := by
  have key : ∀ (m : Map Addr F1) (f g r : Addr → Nat) (o : Nat), (∀ st, o * f st ≤ o * g st + r st) →
      o * m.sum (fun st _ => f st) ≤ o * m.sum (fun st _ => g st) + m.sum (fun st _ => r st) := by
    intro m f g r o hle
    unfold Map.sum
    induction m.toList with
    | nil => simp
    | cons p l ih =>
      have h1 := hle p.1
      simp only [List.map_cons, List.sum_cons] at ih ⊢
      rw [Nat.mul_add, Nat.mul_add]
      omega
  refine key _ _ _ _ _ (fun st => ?_)
  have h3 := C03_covered (module_ledgers h st).1 d
  rw [Nat.add_mul] at h3
  omega

/-- **C12, up to rounding.** As long as the chain has not been halted, the module account covers what all delegators of
all stakers own, up to the accumulated rounding error of the reward distribution (in units of the 18th decimal). -/
theorem C12_partial {gov : Addr} {y : Sys} (h : Sys.Reachable gov y) (hh : y.w.s.halted = false) :
    Dec.one * allDelegations y.w.s ≤ Dec.one * (y.w.b (.mod .delegation)).amt kyve + roundingBound y.w.s kyve := by
  have h1 := C12_exact h hh kyve
  rw [if_pos rfl] at h1
  have h2 := out_le h kyve
  have h3 := allDelegations_le h
  have key : ∀ o a t i u b r g : Nat, b + u = t + i + g → o * u ≤ o * i + r → a ≤ t → o * a ≤ o * b + r := by
    intro o a t i u b r g e1 e2 e3
    have e4 : o * a ≤ o * t := Nat.mul_le_mul_left o e3
    have e5 : o * (b + u) = o * (t + i + g) := by rw [e1]
    rw [Nat.mul_add, Nat.mul_add, Nat.mul_add] at e5
    omega
  exact key _ _ _ _ _ _ _ _ h1 h2 h3

/-- **C12.** As long as rounding has not paid out more rewards than were accepted, the module account covers all
delegations. -/
theorem C12_covered {gov : Addr} {y : Sys} (h : Sys.Reachable gov y) (hh : y.w.s.halted = false)
    (hr : outAll y.w.s kyve ≤ inAll y.w.s kyve) :
    allDelegations y.w.s ≤ (y.w.b (.mod .delegation)).amt kyve := by
  have h1 := C12_exact h hh kyve
  rw [if_pos rfl] at h1
  have := allDelegations_le h
  omega

/-- **C12 (slash).** A slash removes exactly `floor(total * fraction)` from the staker's total and sends exactly this
amount from the module account to the treasury. -/
theorem C12_slash {gov : Addr} {y : Sys} (h : Sys.Reachable gov y) (st : Addr) (t : SlashType)
    (hc : Calm (slashDelegators y.w st t).s) (hh : (slashDelegators y.w st t).s.halted = false) :
    ∃ x, x = y.w.s.amount st * y.w.s.params.slashFraction t / Dec.one ∧ x ≤ y.w.s.amount st ∧
      (slashDelegators y.w st t).s.amount st + x = y.w.s.amount st ∧
      ∀ d, ((slashDelegators y.w st t).b (.mod .delegation)).amt d + (if d = kyve then x else 0)
          = (y.w.b (.mod .delegation)).amt d ∧
        ((slashDelegators y.w st t).b (.mod .treasury)).amt d
          = (y.w.b (.mod .treasury)).amt d + (if d = kyve then x else 0) ∧
        ∀ a, a ≠ .mod .delegation → a ≠ .mod .treasury →
          ((slashDelegators y.w st t).b a).amt d = (y.w.b a).amt d := by
  have hq := slashFraction_le h.winv.par t
  by_cases hnone : (y.w.s.at st).data.isNone = true
  · have e : slashDelegators y.w st t = y.w := by unfold slashDelegators; rw [if_pos hnone]
    have e0 : y.w.s.amount st = 0 := by
      unfold State.amount
      cases hdd : (y.w.s.at st).data with
      | none => rfl
      | some d => rw [hdd] at hnone; cases hnone
    rw [e, e0]
    refine ⟨0, by simp, le_refl _, rfl, fun d => ⟨?_, ?_, fun a _ _ => rfl⟩⟩
    · split <;> rfl
    · split <;> rfl
  · have es : (slashDelegators y.w st t)
        = ⟨{ y.w.s.applyIndexed st (.slash (y.w.s.params.slashFraction t)) with
              halted := y.w.s.halted || Bank.failed (slashTransfer y.w st (y.w.s.params.slashFraction t)) },
           y.w.b.orKeep (slashTransfer y.w st (y.w.s.params.slashFraction t))⟩ := by
      unfold slashDelegators; rw [if_neg hnone]
    have et : (slashDelegators y.w st t).s.trace = .f1 st (.slash (y.w.s.params.slashFraction t)) :: y.w.s.trace := by
      rw [es]; rfl
    have hdust := hc st
    rw [et, ledgerOf_f1, if_pos rfl] at hdust
    have hx : (slash (y.w.s.at st) (y.w.s.params.slashFraction t)).2
        = y.w.s.amount st * y.w.s.params.slashFraction t / Dec.one := slash_snd _ _
    have hle : (slash (y.w.s.at st) (y.w.s.params.slashFraction t)).2 ≤ y.w.s.amount st := slash_le_total hq
    have ha := amount_applyIndexed h.winv.tied st (.slash (y.w.s.params.slashFraction t))
      (by rintro _ ⟨⟩; exact hq) hdust st
    rw [if_pos rfl] at ha
    have ha' : (slashDelegators y.w st t).s.amount st
        = y.w.s.amount st - (slash (y.w.s.at st) (y.w.s.params.slashFraction t)).2 := by rw [es]; exact ha
    have hh' : (y.w.s.halted || Bank.failed (slashTransfer y.w st (y.w.s.params.slashFraction t))) = false := by
      rw [es] at hh; exact hh
    rw [Bool.or_eq_false_iff] at hh'
    refine ⟨_, hx, by omega, by omega, fun d => ?_⟩
    cases hr : slashTransfer y.w st (y.w.s.params.slashFraction t) with
    | error e => rw [hr] at hh'; exact absurd hh'.2 (by simp [Bank.failed])
    | ok b =>
      have eb : (slashDelegators y.w st t).b = b := by
        rw [es]
        show y.w.b.orKeep (slashTransfer y.w st (y.w.s.params.slashFraction t)) = b
        rw [hr]; rfl
      rw [eb]
      have hs := Bank.send_ok hr
      have hle' := hs.1 d
      have hs := fun a => hs.2 a d
      rw [amt_single_kyve] at hle'
      simp only [amt_single_kyve] at hs
      refine ⟨?_, ?_, ?_⟩
      · have h2 := hs (.mod .delegation)
        simp only [if_true, reduceCtorEq, if_false, Acct.mod.injEq] at h2
        omega
      · have h2 := hs (.mod .treasury)
        simp only [if_true, reduceCtorEq, if_false, Acct.mod.injEq] at h2
        omega
      · intro a h1 h2
        have h3 := hs a
        simp only [h1, h2, if_false] at h3
        omega

/-! ## C52 -/

/-- **C52 (delegation).** A parameter update by anybody but the governance account fails and changes nothing. -/
theorem C52_delegation (gov : Addr) (y : Sys) (authority : Addr) (p : ParamsPayload) (hne : authority ≠ gov) :
    y.step gov (.updateParams authority p) = y := by
  have : ∃ e, updateParams gov y.w authority p = .error e := by
    unfold updateParams
    split
    · exact ⟨_, rfl⟩
    · rw [if_pos (fun e => hne e.symm)]; exact ⟨_, rfl⟩
  obtain ⟨e, he⟩ := this
  show (⟨orElse y.w (updateParams gov y.w authority p), y.now⟩ : Sys) = y
  rw [he]; rfl

/-- **C52 (delegation).** No other action changes the parameters. -/
theorem C52_delegation_only {gov : Addr} {y : Sys} (h : Sys.Reachable gov y) (a : Act)
    (ha : ∀ au p, a ≠ .updateParams au p) : (y.step gov a).w.s.params = y.w.s.params := by
  have key : ∀ (r : Except String World), (∀ w', r = .ok w' → w'.s.params = y.w.s.params) →
      (orElse y.w r).s.params = y.w.s.params := by
    intro r hr
    cases r with
    | error e => rfl
    | ok w' => exact hr w' rfl
  cases a with
  | delegate ex c st n => exact key _ (fun w' h => by rw [delegateMsg_s h]; rfl)
  | redelegate ex ac m =>
    refine key _ (fun w' h => ?_)
    obtain ⟨s, _, hs, _, _, _, _, _, e, _⟩ := redelegateMsg_ok h
    rw [e]
    show s.params = _
    rw [hs]
  | undelegate c st n => exact key _ (fun w' h => by rw [(undelegateMsg_ok h).1]; rfl)
  | withdraw c st => exact key _ (fun w' h => by rw [withdrawMsg_s h]; rfl)
  | updateParams a p => exact absurd rfl (ha a p)
  | payout st c =>
    refine key _ (fun w' h => ?_)
    rcases payoutRewards_s h with e | e
    · rw [e]
    · rw [e]; rfl
  | slash st t =>
    show (slashDelegators y.w st t).s.params = _
    unfold slashDelegators
    split <;> rfl
  | beginBlock dt r =>
    have h1 : QInv' (preQueue y.w r).s (y.now + dt) := (h.qinv.pre r).of_eq (Nat.le_add_right _ _) rfl rfl rfl rfl rfl
    have hs := queueLoop_spec (now := y.now + dt) (t := y.now + dt) _ h1.inv
      (Nat.le_add_left (preQueue y.w r).s.queue.size ((preQueue y.w r).s.high - (preQueue y.w r).s.low))
    have := hs.2.1
    rw [(preQueue_eq y.w r).2.2.2.2.1] at this
    exact this
  | external b g => rfl

theorem queueLoop_gifts (now fuel : Nat) (w : World) : (queueLoop now fuel w).s.gifts = w.s.gifts := by
  induction fuel generalizing w with
  | zero => rfl
  | succ n ih =>
    unfold queueLoop
    cases hr : queueRound w now with
    | none => rfl
    | some w' =>
      show (queueLoop now n w').s.gifts = _
      rw [ih w']
      unfold queueRound at hr
      split at hr
      · split at hr
        · cases hr; rfl
        · cases hr
      · split at hr
        · cases hr; rfl
        · cases hr

/-- **C12 (gifts).** The surplus in `C12_exact` is exactly what came in from outside: it starts at zero, no action of
the module changes it and a gift raises it by the given coins. -/
theorem C12_gifts {gov : Addr} (y : Sys) (a : Act) (d : Denom) :
    ((y.step gov a).w.s.gifts.amt d
      = y.w.s.gifts.amt d + match a with | .external _ g => g.amt d | _ => 0) ∧
    ∀ (p : Params) (b : Bank) (now : Nat), ((Sys.init p b now).w.s.gifts.amt d = 0) := by
  refine ⟨?_, fun _ _ _ => rfl⟩
  have key : ∀ (r : Except String World), (∀ w', r = .ok w' → w'.s.gifts = y.w.s.gifts) →
      (orElse y.w r).s.gifts.amt d = y.w.s.gifts.amt d := by
    intro r hr
    cases r with
    | error e => rfl
    | ok w' => rw [show orElse y.w (.ok w') = w' from rfl, hr w' rfl]
  cases a with
  | delegate ex c st n => exact key _ (fun w' h => by rw [delegateMsg_s h]; rfl)
  | redelegate ex ac m =>
    refine key _ (fun w' h => ?_)
    obtain ⟨s, _, hs, _, _, _, _, _, e, _⟩ := redelegateMsg_ok h
    rw [e]
    show s.gifts = _
    rw [hs]
  | undelegate c st n => exact key _ (fun w' h => by rw [(undelegateMsg_ok h).1]; rfl)
  | withdraw c st => exact key _ (fun w' h => by rw [withdrawMsg_s h]; rfl)
  | updateParams a p => exact key _ (fun w' h => by rw [(updateParams_s h).1])
  | payout st c =>
    refine key _ (fun w' h => ?_)
    rcases payoutRewards_s h with e | e
    · rw [e]
    · rw [e]; rfl
  | slash st t =>
    show (slashDelegators y.w st t).s.gifts.amt d = _
    unfold slashDelegators
    split <;> rfl
  | beginBlock dt r =>
    show (queueLoop _ _ (preQueue y.w r)).s.gifts.amt d = _
    rw [queueLoop_gifts]
    cases r with
    | false => rfl
    | true =>
      obtain ⟨_, _, _, _, _, _, _, _, e⟩ :=
        f1_foldl_setIndex (y.w.s.f1.keys.filter (fun st => (y.w.s.at st).data.isSome)) { y.w.s with index := ∅ }
      exact congrArg (fun c => c.amt d) e
  | external b g =>
    show (y.w.s.gifts.add g).amt d = _
    rw [Coins.amt_add]

end Verif.Delegation
