import Verif.Delegation.Solvency
import Verif.Lib.Genesis

/-!
# x/delegation genesis: validation (C51) and export/import (C55)

Models /repo/x/delegation/genesis.go and /repo/x/delegation/types/genesis.go.  The store of the code is flat with
composite keys (staker first), so that iterating it is iterating over the stakers and then over the staker's entries.
-/

namespace Verif.Delegation
open Verif

/-- `GenesisState` -/
structure Genesis where
  params : Params
  /-- `DelegatorList`: staker, (delegator, initial amount and period) -/
  dels : List (Addr × (Addr × Del))
  /-- `DelegationEntryList`: staker, (period, value) -/
  entries : List (Addr × (Nat × DecCoins))
  /-- `DelegationDataList` -/
  data : List (Addr × Data)
  /-- `DelegationSlashList`: staker, (period, fraction) -/
  slashes : List (Addr × (Nat × Dec))
  /-- `UndelegationQueueEntryList` -/
  queue : List (Nat × QEntry)
  /-- `QueueStateUndelegation` -/
  low : Nat
  high : Nat
  /-- `RedelegationCooldownList` -/
  spells : List (Addr × Nat)

/-- types/genesis.go:40-96 `validateF1` -/
def Genesis.validateF1 (g : Genesis) : Bool :=
  dupFree [] (g.dels.map (fun p => (p.1, p.2.1))) && dupFree [] (g.dels.map (fun p => (p.1, p.2.2.k)))
    && dupFree [] (g.entries.map (fun p => (p.1, p.2.1)))
    && dupFree [] (g.data.map (·.1))
    && dupFree [] (g.slashes.map (fun p => (p.1, p.2.1)))
    && g.slashes.all (fun p => decide ((p.1, p.2.1) ∈ g.entries.map (fun e => (e.1, e.2.1))))

/-- types/genesis.go:98-117 `validateUnbondingQueue` -/
def Genesis.validateQueue (g : Genesis) : Bool :=
  dupFree [] (g.queue.map (·.1)) && g.queue.all (fun p => decide (p.1 ≤ g.high) && decide (g.low ≤ p.1))

/-- types/genesis.go:119-132 `validateRedelegation` -/
def Genesis.validateSpells (g : Genesis) : Bool := dupFree [] g.spells

/-- types/genesis.go:24-38 `Validate` (which of several errors is reported is not modelled) -/
def Genesis.validate (g : Genesis) : Bool :=
  g.validateF1 && g.validateQueue && g.validateSpells && g.params.validate

/-- all entries of all stakers, in store order -/
def flatten {A : Type} (m : Map Addr F1) (h : F1 → List A) : List (Addr × A) :=
  m.toList.flatMap (fun p => (h p.2).map (fun q => (p.1, q)))

/-- genesis.go:45-66 `ExportGenesis` -/
def exportGenesis (s : State) : Genesis where
  params := s.params
  dels := flatten s.f1 (fun f => f.dels.toList)
  entries := flatten s.f1 (fun f => f.entries.toList)
  data := flatten s.f1 (fun f => f.data.toList)
  slashes := flatten s.f1 (fun f => f.slashes.toList)
  queue := s.queue.toList
  low := s.low
  high := s.high
  spells := s.spells.keys

/-- write into one staker's part of the store -/
def State.updF1 (s : State) (st : Addr) (g : F1 → F1) : State := { s with f1 := s.f1.set st (g (s.at st)) }

/-- `SetDelegator` -/
def setDel (q : Addr × Del) (f : F1) : F1 := { f with dels := f.dels.set q.1 q.2 }
/-- `SetDelegationEntry` -/
def setEntry (q : Nat × DecCoins) (f : F1) : F1 := { f with entries := f.entries.set q.1 q.2 }
/-- `SetDelegationData` -/
def setData (q : Data) (f : F1) : F1 := { f with data := some q }
/-- `SetDelegationSlashEntry` -/
def setSlash (q : Nat × Dec) (f : F1) : F1 := { f with slashes := f.slashes.set q.1 q.2 }

/-- a loop that writes a list of entries -/
def State.load {A : Type} (s : State) (w : A → F1 → F1) (l : List (Addr × A)) : State :=
  l.foldl (fun s p => s.updF1 p.1 (w p.2)) s

/-- the store before the ranking is built, genesis.go:12-39 -/
def loadGenesis (g : Genesis) : State :=
  { ((((⟨∅, ∅, g.low, g.high, ∅, ∅, g.params, false, [], Coins.zero⟩ : State).load setDel g.dels).load setEntry g.entries).load
      setData g.data).load setSlash g.slashes with
    queue := Map.ofList g.queue
    spells := Map.ofList (g.spells.map (fun k => (k, ()))) }

/-- genesis.go:11-42 `InitGenesis` into an empty store -/
def initGenesis (g : Genesis) : State := initMemStore (loadGenesis g)

/-! ## C51 -/

/-- **C51 (delegation).** Genesis validation accepts only states in which no two entries of any list have the same key,
no two delegators of a staker share a period, every slash has an entry for its period, queue indices are in range and
the parameters are valid. -/
theorem C51_delegation (g : Genesis) (h : g.validate = true) :
    (g.dels.map (fun p => (p.1, p.2.1))).Nodup ∧ (g.dels.map (fun p => (p.1, p.2.2.k))).Nodup ∧
    (g.entries.map (fun p => (p.1, p.2.1))).Nodup ∧ (g.data.map (·.1)).Nodup ∧
    (g.slashes.map (fun p => (p.1, p.2.1))).Nodup ∧ (g.queue.map (·.1)).Nodup ∧ g.spells.Nodup ∧
    (∀ p ∈ g.slashes, ∃ v, (p.1, (p.2.1, v)) ∈ g.entries) ∧
    (∀ p ∈ g.queue, g.low ≤ p.1 ∧ p.1 ≤ g.high) ∧ g.params.validate = true := by
  simp only [Genesis.validate, Genesis.validateF1, Genesis.validateQueue, Genesis.validateSpells, Bool.and_eq_true,
    dupFree_nil, List.all_eq_true, decide_eq_true_eq] at h
  obtain ⟨⟨⟨⟨⟨⟨⟨⟨h1, h2⟩, h3⟩, h4⟩, h5⟩, h6⟩, h7, h8⟩, h9⟩, h10⟩ := h
  refine ⟨h1, h2, h3, h4, h5, h7, h9, ?_, fun p hp => ⟨(h8 p hp).2, (h8 p hp).1⟩, h10⟩
  intro p hp
  obtain ⟨e, he, heq⟩ := List.mem_map.1 (h6 p hp)
  obtain ⟨a, k, v⟩ := e
  refine ⟨v, ?_⟩
  simp only [Prod.mk.injEq] at heq
  rw [← heq.1, ← heq.2]; exact he

/-! ## Import of the export -/

theorem at_updF1 (s : State) (a st : Addr) (g : F1 → F1) :
    (s.updF1 a g).at st = if st = a then g (s.at a) else s.at st := by
  unfold State.updF1 State.at
  simp only [Map.get?_set]
  split <;> simp_all

theorem at_load {A : Type} (w : A → F1 → F1) (l : List (Addr × A)) (s : State) (st : Addr) :
    (s.load w l).at st = ((l.filter (fun p => decide (p.1 = st))).map (·.2)).foldl (fun f q => w q f) (s.at st) := by
  induction l generalizing s with
  | nil => rfl
  | cons p l ih =>
    show ((s.updF1 p.1 (w p.2)).load w l).at st = _
    rw [ih, at_updF1]
    by_cases e : p.1 = st
    · rw [if_pos e.symm, List.filter_cons_of_pos (by simpa using e), List.map_cons, List.foldl_cons, e]
    · rw [if_neg (fun e' => e e'.symm), List.filter_cons_of_neg (by simpa using e)]

theorem load_frame {A : Type} (w : A → F1 → F1) (l : List (Addr × A)) (s : State) :
    (s.load w l).queue = s.queue ∧ (s.load w l).low = s.low ∧ (s.load w l).high = s.high ∧
    (s.load w l).spells = s.spells ∧ (s.load w l).params = s.params ∧ (s.load w l).halted = s.halted := by
  induction l generalizing s with
  | nil => exact ⟨rfl, rfl, rfl, rfl, rfl, rfl⟩
  | cons p l ih => exact ih (s.updF1 p.1 (w p.2))

theorem flatten_filter {A : Type} (m : Map Addr F1) (h : F1 → List A) (st : Addr) (h0 : h F1.init = []) :
    ((flatten m h).filter (fun p => decide (p.1 = st))).map (·.2) = h ((m.get? st).getD F1.init) := by
  have key : ∀ l : List (Addr × F1), (l.map (·.1)).Nodup →
      ((l.flatMap (fun p => (h p.2).map (fun q => (p.1, q)))).filter (fun p => decide (p.1 = st))).map (·.2)
        = h ((getL st l).getD F1.init) := by
    intro l hn
    induction l with
    | nil => simp [getL, h0]
    | cons p l ih =>
      obtain ⟨hn1, hn2⟩ := List.nodup_cons.1 hn
      rw [List.flatMap_cons, List.filter_append, List.map_append, ih hn2]
      obtain ⟨a, f⟩ := p
      by_cases e : a = st
      · subst e
        have hg : getL a l = none := by
          cases hg : getL a l with
          | none => rfl
          | some v => exact absurd (List.mem_map.2 ⟨_, mem_of_getL hg, rfl⟩) hn1
        have e1 : getL a ((a, f) :: l) = some f := by simp [getL]
        rw [e1, hg, List.filter_eq_self.2 (by intro q hq; obtain ⟨x, _, rfl⟩ := List.mem_map.1 hq; simp), List.map_map]
        simp [h0, Function.comp_def]
      · have e1 : getL st ((a, f) :: l) = getL st l := by
          show (if st = a then some f else getL st l) = _
          rw [if_neg (fun e' => e e'.symm)]
        rw [e1, List.filter_eq_nil_iff.2 (by
          intro q hq; obtain ⟨x, _, rfl⟩ := List.mem_map.1 hq; simpa using e)]
        simp
  exact key m.toList m.keys_nodup

theorem flatten_nodup {A B : Type} (m : Map Addr F1) (h : F1 → List A) (κ : A → B)
    (hn : ∀ st f, m.get? st = some f → ((h f).map κ).Nodup) :
    ((flatten m h).map (fun p => (p.1, κ p.2))).Nodup := by
  unfold flatten
  rw [List.map_flatMap, List.nodup_flatMap]
  refine ⟨?_, ?_⟩
  · rintro ⟨st, f⟩ hp
    have := hn st f ((Map.mem_iff _ _ _).1 hp)
    rw [List.map_map]
    have e : ((fun p : Addr × A => (p.1, κ p.2)) ∘ fun q => (st, q)) = (fun b => (st, b)) ∘ κ := rfl
    show (List.map ((fun p : Addr × A => (p.1, κ p.2)) ∘ fun q => (st, q)) (h f)).Nodup
    rw [e, ← List.map_map]
    exact this.map (fun a b hab => (Prod.mk.inj hab).2)
  · refine List.Pairwise.imp_of_mem ?_ m.sorted
    intro a b ha hb hlt x hx hx'
    simp only [List.map_map, List.mem_map, Function.comp] at hx hx'
    obtain ⟨q, _, rfl⟩ := hx
    obtain ⟨q', _, hq'⟩ := hx'
    exact KeyOrd.ne hlt (Prod.mk.inj hq').1.symm

theorem mem_flatten {A : Type} (m : Map Addr F1) (h : F1 → List A) (p : Addr × A) :
    p ∈ flatten m h ↔ ∃ f, m.get? p.1 = some f ∧ p.2 ∈ h f := by
  unfold flatten
  simp only [List.mem_flatMap, List.mem_map]
  constructor
  · rintro ⟨⟨st, f⟩, hm, q, hq, rfl⟩
    exact ⟨f, (Map.mem_iff _ _ _).1 hm, hq⟩
  · rintro ⟨f, hf, hq⟩
    exact ⟨(p.1, f), (Map.mem_iff _ _ _).2 hf, p.2, hq, rfl⟩

theorem foldl_setDel (l : List (Addr × Del)) (f : F1) :
    l.foldl (fun f q => setDel q f) f = { f with dels := l.foldl (fun m p => m.set p.1 p.2) f.dels } := by
  induction l generalizing f with
  | nil => rfl
  | cons p l ih => rw [List.foldl_cons, ih]; rfl

theorem foldl_setEntry (l : List (Nat × DecCoins)) (f : F1) :
    l.foldl (fun f q => setEntry q f) f = { f with entries := l.foldl (fun m p => m.set p.1 p.2) f.entries } := by
  induction l generalizing f with
  | nil => rfl
  | cons p l ih => rw [List.foldl_cons, ih]; rfl

theorem foldl_setSlash (l : List (Nat × Dec)) (f : F1) :
    l.foldl (fun f q => setSlash q f) f = { f with slashes := l.foldl (fun m p => m.set p.1 p.2) f.slashes } := by
  induction l generalizing f with
  | nil => rfl
  | cons p l ih => rw [List.foldl_cons, ih]; rfl

theorem load_at (s : State) (st : Addr) (hh : (s.at st).halted = false) (hw : (s.at st).wrapped = false) :
    (loadGenesis (exportGenesis s)).at st = s.at st := by
  have e : (loadGenesis (exportGenesis s)).at st
      = (((((⟨∅, ∅, s.low, s.high, ∅, ∅, s.params, false, [], Coins.zero⟩ : State).load setDel (exportGenesis s).dels).load setEntry
          (exportGenesis s).entries).load setData (exportGenesis s).data).load setSlash (exportGenesis s).slashes).at st :=
    rfl
  rw [e, at_load, at_load, at_load, at_load]
  have e1 := flatten_filter s.f1 (fun f => f.dels.toList) st rfl
  have e2 := flatten_filter s.f1 (fun f => f.entries.toList) st rfl
  have e3 := flatten_filter s.f1 (fun f => f.data.toList) st rfl
  have e4 := flatten_filter s.f1 (fun f => f.slashes.toList) st rfl
  have ea : (s.f1.get? st).getD F1.init = s.at st := rfl
  rw [ea] at e1 e2 e3 e4
  show (((exportGenesis s).slashes.filter _).map _).foldl _ _ = _
  unfold exportGenesis
  simp only
  rw [e1, e2, e3, e4]
  have e0 : (⟨∅, ∅, s.low, s.high, ∅, ∅, s.params, false, [], Coins.zero⟩ : State).at st = F1.init := rfl
  rw [e0, foldl_setDel, foldl_setEntry, foldl_setSlash]
  have d1 : ∀ m : Map Addr Del, m.toList.foldl (fun m p => m.set p.1 p.2) ∅ = m := Map.ofList_toList
  have d2 : ∀ m : Map Nat DecCoins, m.toList.foldl (fun m p => m.set p.1 p.2) ∅ = m := Map.ofList_toList
  have d3 : ∀ m : Map Nat Dec, m.toList.foldl (fun m p => m.set p.1 p.2) ∅ = m := Map.ofList_toList
  generalize s.at st = f at hh hw ⊢
  obtain ⟨data, dels, entries, slashes, halted, wrapped⟩ := f
  simp only at hh hw
  subst hh hw
  cases data with
  | none => simp only [F1.init, Option.toList, List.foldl_nil, d1, d2, d3]
  | some d => simp only [F1.init, Option.toList, List.foldl_cons, List.foldl_nil, setData, d1, d2, d3]

/-- **C55 (delegation), round trip.** In every reachable state, starting a new chain from the exported genesis gives the
same delegators, entries, totals, slashes, unbonding queue, cooldowns and parameters, and a correct ranking. -/
theorem C55_delegation {gov : Addr} {y : Sys} (h : Sys.Reachable gov y) :
    (∀ st, (initGenesis (exportGenesis y.w.s)).at st = y.w.s.at st) ∧
    (initGenesis (exportGenesis y.w.s)).queue = y.w.s.queue ∧
    (initGenesis (exportGenesis y.w.s)).low = y.w.s.low ∧ (initGenesis (exportGenesis y.w.s)).high = y.w.s.high ∧
    (initGenesis (exportGenesis y.w.s)).spells = y.w.s.spells ∧
    (initGenesis (exportGenesis y.w.s)).params = y.w.s.params ∧
    IdxInv (initGenesis (exportGenesis y.w.s)) := by
  obtain ⟨f1, f2, f3, f4, f5, f6, f7, f8, _⟩ := f1_foldl_setIndex
    ((loadGenesis (exportGenesis y.w.s)).f1.keys.filter (fun st => ((loadGenesis (exportGenesis y.w.s)).at st).data.isSome))
    { loadGenesis (exportGenesis y.w.s) with index := ∅ }
  refine ⟨fun st => ?_, ?_, ?_, ?_, ?_, ?_, initMem_idx _⟩
  · have := load_at y.w.s st (C01_module h st).1 (C02_module h st).2.2.2
    rw [← this]
    unfold State.at
    show (((initMemStore (loadGenesis (exportGenesis y.w.s))).f1.get? st).getD F1.init) = _
    unfold initMemStore
    rw [f1]
  · show (initMemStore (loadGenesis (exportGenesis y.w.s))).queue = _
    unfold initMemStore
    rw [f5]; exact Map.ofList_toList _
  · show (initMemStore (loadGenesis (exportGenesis y.w.s))).low = _
    unfold initMemStore
    rw [f6]
    show (((((⟨∅, ∅, _, _, ∅, ∅, _, false, [], Coins.zero⟩ : State).load _ _).load _ _).load _ _).load _ _).low = _
    rw [(load_frame _ _ _).2.1, (load_frame _ _ _).2.1, (load_frame _ _ _).2.1, (load_frame _ _ _).2.1]; rfl
  · show (initMemStore (loadGenesis (exportGenesis y.w.s))).high = _
    unfold initMemStore
    rw [f7]
    show (((((⟨∅, ∅, _, _, ∅, ∅, _, false, [], Coins.zero⟩ : State).load _ _).load _ _).load _ _).load _ _).high = _
    rw [(load_frame _ _ _).2.2.1, (load_frame _ _ _).2.2.1, (load_frame _ _ _).2.2.1, (load_frame _ _ _).2.2.1]; rfl
  · show (initMemStore (loadGenesis (exportGenesis y.w.s))).spells = _
    unfold initMemStore
    rw [f8]
    show Map.ofList (y.w.s.spells.keys.map (fun k => (k, ()))) = y.w.s.spells
    have e : y.w.s.spells.keys.map (fun k => (k, ())) = y.w.s.spells.toList := by
      unfold Map.keys
      rw [List.map_map]
      exact List.map_id _
    rw [e]; exact Map.ofList_toList _
  · show (initMemStore (loadGenesis (exportGenesis y.w.s))).params = _
    unfold initMemStore
    rw [f4]
    show (((((⟨∅, ∅, _, _, ∅, ∅, _, false, [], Coins.zero⟩ : State).load _ _).load _ _).load _ _).load _ _).params = _
    rw [(load_frame _ _ _).2.2.2.2.1, (load_frame _ _ _).2.2.2.2.1, (load_frame _ _ _).2.2.2.2.1,
      (load_frame _ _ _).2.2.2.2.1]; rfl

/-- **C68 (delegation).** The exported genesis of every reachable state passes genesis validation. -/
theorem C68_delegation {gov : Addr} {y : Sys} (h : Sys.Reachable gov y) :
    (exportGenesis y.w.s).validate = true := by
  have hat : ∀ st f, y.w.s.f1.get? st = some f → y.w.s.at st = f := by
    intro st f hf; unfold State.at; rw [hf]; rfl
  have hf1 : ∀ st f, y.w.s.f1.get? st = some f → F1Inv f := by
    intro st f hf
    have := h.winv.tied.f1inv st
    rwa [hat st f hf] at this
  simp only [Genesis.validate, Genesis.validateF1, Genesis.validateQueue, Genesis.validateSpells, Bool.and_eq_true,
    dupFree_nil, List.all_eq_true, decide_eq_true_eq]
  refine ⟨⟨⟨⟨⟨⟨⟨⟨?_, ?_⟩, ?_⟩, ?_⟩, ?_⟩, ?_⟩, ?_, ?_⟩, ?_⟩, h.winv.par⟩
  · exact flatten_nodup _ _ (fun q : Addr × Del => q.1) (fun st f _ => f.dels.keys_nodup)
  · refine flatten_nodup y.w.s.f1 (fun f => f.dels.toList) (fun q : Addr × Del => q.2.k) (fun st f hf => ?_)
    have hi := hf1 st f hf
    cases hd : f.data with
    | none => rw [(hi.dnone hd).1]; exact List.nodup_nil
    | some d =>
      refine List.Nodup.map_on ?_ (List.Nodup.of_map (fun q : Addr × Del => q.1) f.dels.keys_nodup)
      rintro ⟨a, x⟩ ha ⟨b, z⟩ hb hk
      have ha' := (Map.mem_iff _ _ _).1 ha
      have hb' := (Map.mem_iff _ _ _).1 hb
      have e := (hi.dsome d hd).kdist a b x z ha' hb' hk
      subst e
      rw [ha'] at hb'
      injection hb' with hb'
      rw [hb']
  · exact flatten_nodup _ _ (fun q : Nat × DecCoins => q.1) (fun st f _ => f.entries.keys_nodup)
  · have := flatten_nodup y.w.s.f1 (fun f => f.data.toList) (fun _ => ()) (fun st f _ => by
      cases f.data <;> simp)
    have e : (exportGenesis y.w.s).data.map (·.1)
        = ((flatten y.w.s.f1 (fun f => f.data.toList)).map (fun p => (p.1, ()))).map (·.1) := by
      rw [List.map_map]; rfl
    rw [e]
    refine List.Nodup.map_on ?_ this
    rintro ⟨a, _⟩ _ ⟨b, _⟩ _ hab
    simpa using hab
  · exact flatten_nodup _ _ (fun q : Nat × Dec => q.1) (fun st f _ => f.slashes.keys_nodup)
  · intro p hp
    obtain ⟨f, hf, hq⟩ := (mem_flatten y.w.s.f1 (fun f => f.slashes.toList) p).1 hp
    have hi := hf1 _ f hf
    have hs := (Map.mem_iff f.slashes _ _).1 hq
    cases hd : f.data with
    | none => rw [(hi.dnone hd).2.2] at hs; cases hs
    | some d =>
      obtain ⟨_, _, h3⟩ := (hi.dsome d hd).sent _ _ hs
      obtain ⟨v, hv⟩ := Option.isSome_iff_exists.1 h3
      refine List.mem_map.2 ⟨(p.1, (p.2.1, v)), ?_, rfl⟩
      exact (mem_flatten y.w.s.f1 (fun f => f.entries.toList) _).2 ⟨f, hf, (Map.mem_iff _ _ _).2 hv⟩
  · exact y.w.s.queue.keys_nodup
  · rintro ⟨i, e⟩ hp
    have := (Map.mem_iff _ _ _).1 hp
    have := (h.qinv.inv.dense i).1 (by rw [this]; rfl)
    show i ≤ y.w.s.high ∧ y.w.s.low ≤ i
    omega
  · exact y.w.s.spells.keys_nodup

/-- A non-trivial genesis that passes validation, and one with a duplicate delegator that does not. -/
example : (⟨.default, [(7, (1, ⟨60, 1⟩)), (7, (2, ⟨20, 2⟩))], [(7, (1, Coins.zero)), (7, (2, Coins.zero))],
      [(7, ⟨Coins.zero, 80, 2, 2, false⟩)], [(7, (2, 5))], [(1, ⟨7, 1, 100, 10⟩)], 0, 1, [(1, 50)]⟩ : Genesis).validate = true
    ∧ (⟨.default, [(7, (1, ⟨60, 1⟩)), (7, (1, ⟨20, 2⟩))], [], [], [], [], 0, 1, []⟩ : Genesis).validate = false := by
  decide +kernel

end Verif.Delegation
