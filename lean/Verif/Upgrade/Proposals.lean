import Verif.Upgrade.Properties

/-!
# C79: pending proposals after the v1.5 upgrade

app/upgrades/v1_5/upgrade.go:130-203 `migrateOldGovProposals`.  Protobuf is not modelled: messages are values, and
(un)marshalling does not fail.
-/

set_option linter.dupNamespace false

namespace Verif.Upgrade
open Verif
open Verif.Pool (Str)

/-- v1_4_types/pool/tx.pb.go `MsgCreatePool`: the weight is a `uint64` and there is no end key; `logo` and `config` are
merged into `name` as in `Pool.Pool` -/
structure OldCreate where
  authority : Addr
  name : Str
  runtime : Str
  startKey : Str
  uploadInterval : Nat
  weight : Nat
  minDelegation : Nat
  maxBundleSize : Nat
  version : Str
  binaries : Str
  /-- `json.Valid(binaries)` -/
  binariesJson : Bool
  storageProviderId : Nat
  compressionId : Nat

/-- a message of a proposal -/
inductive Msg where
  /-- `/kyve.pool.v1beta1.MsgCreatePool` as stored by v1.4 -/
  | oldCreate (m : OldCreate)
  /-- `/kyve.pool.v1beta1.MsgCreatePool` in the new format -/
  | create (m : Pool.CreateMsg)
  /-- the new format with a negative weight, which `ValidateBasic` refuses (x/pool/types/msgs.go:42-44) -/
  | refused
  /-- any other message -/
  | other (n : Nat)

/-- v1_4_types/gov/gov.pb.go `Proposal`: `data` are the fields that are copied -/
structure Proposal where
  id : Nat
  messages : List Msg
  title : Str
  summary : Str
  proposer : Str
  data : Nat

/-- upgrade.go:156-172: the new message; `int64(weight)` is negative from `2^63` on -/
def migrateCreate (m : OldCreate) : Msg :=
  if m.weight < 2 ^ 63 then
    .create
      { authority := m.authority, name := m.name, runtime := m.runtime, startKey := m.startKey, endKey := 0,
        uploadInterval := m.uploadInterval, inflationShareWeight := Dec.ofNat m.weight, minDelegation := m.minDelegation,
        maxBundleSize := m.maxBundleSize, version := m.version, binaries := m.binaries, binariesJson := m.binariesJson,
        storageProviderId := m.storageProviderId, compressionId := m.compressionId }
  else .refused

/-- upgrade.go:147-184: one message of a proposal -/
def migrateMsg : Msg → Msg
  | .oldCreate m => migrateCreate m
  | m => m

/-- upgrade.go:138-200: one proposal; `known` is `govProposalsData` -/
def migrateProposal (known : Nat → Option (Str × Str × Str)) (p : Proposal) : Proposal :=
  { p with
    messages := p.messages.map migrateMsg
    title := ((known p.id).map (·.1)).getD p.title
    summary := ((known p.id).map (·.2.1)).getD p.summary
    proposer := ((known p.id).map (·.2.2)).getD p.proposer }

/-- upgrade.go:130-203 `migrateOldGovProposals`: every proposal is written back under its store key -/
def migrateProposals (known : Nat → Option (Str × Str × Str)) (ps : Map Nat Proposal) : Map Nat Proposal :=
  ps.toList.foldl (fun m e => m.set e.1 (migrateProposal known e.2)) ps

/-- the pool a pending proposal of v1.4 asks for -/
def OldCreate.pool (m : OldCreate) (now : Nat) : OldPool :=
  ⟨m.weight,
   { id := 0, name := m.name, runtime := m.runtime, startKey := m.startKey, currentKey := 0, currentSummary := 0,
     currentIndex := 0, totalBundles := 0, uploadInterval := m.uploadInterval, inflationShareWeight := 0,
     minDelegation := m.minDelegation, maxBundleSize := m.maxBundleSize, disabled := false,
     protocol := ⟨m.version, m.binaries, now⟩, plan := Pool.Plan.none, storageProviderId := m.storageProviderId,
     compressionId := m.compressionId, endKey := 0 }⟩

theorem migrateProposals_get (known : Nat → Option (Str × Str × Str)) (ps : Map Nat Proposal) (id : Nat) :
    (migrateProposals known ps).get? id = (ps.get? id).map (migrateProposal known) := by
  unfold migrateProposals
  rw [get?_foldl_set (fun e => migrateProposal known e.2) ps.toList ps.keys_nodup]
  have e : getL id ps.toList = ps.get? id := rfl
  rw [e]
  cases ps.get? id <;> rfl

/-- C79: no proposal is lost or added; in each the messages stay in their places, and all but the pool creations are
unchanged.  Title, summary and proposer change only for the proposals of the table. -/
theorem C79_kept (known : Nat → Option (Str × Str × Str)) (ps : Map Nat Proposal) (id : Nat) :
    ((migrateProposals known ps).get? id).isSome = (ps.get? id).isSome ∧
    ∀ p, ps.get? id = some p → ∃ q, (migrateProposals known ps).get? id = some q ∧
      q.id = p.id ∧ q.data = p.data ∧ q.messages.length = p.messages.length ∧
      (∀ (i n : Nat), p.messages[i]? = some (Msg.other n) → q.messages[i]? = some (Msg.other n)) ∧
      (∀ (i : Nat) (m : Pool.CreateMsg), p.messages[i]? = some (Msg.create m) → q.messages[i]? = some (Msg.create m)) ∧
      (known p.id = none → q.title = p.title ∧ q.summary = p.summary ∧ q.proposer = p.proposer) ∧
      (∀ x, known p.id = some x → (q.title, q.summary, q.proposer) = x) := by
  rw [migrateProposals_get]
  refine ⟨by cases ps.get? id <;> rfl, ?_⟩
  intro p hp
  refine ⟨migrateProposal known p, by rw [hp]; rfl, rfl, rfl, by simp [migrateProposal], ?_, ?_, ?_, ?_⟩
  · intro i n h
    show (p.messages.map migrateMsg)[i]? = _
    rw [List.getElem?_map, h]; rfl
  · intro i n h
    show (p.messages.map migrateMsg)[i]? = _
    rw [List.getElem?_map, h]; rfl
  · intro h
    simp [migrateProposal, h]
  · intro x h
    simp [migrateProposal, h]

/-- C79 (partial): a pending proposal to create a pool creates after the upgrade the pool it asked for, and its weight is
the number it asked for.  Missing: the pools that exist already lose their numbers and weigh one, see
`C79_scale_counterexample`. -/
theorem C79_create_partial (known : Nat → Option (Str × Str × Str)) (ps : Map Nat Proposal) {id i : Nat} {p : Proposal}
    {m : OldCreate} (hp : ps.get? id = some p) (hi : p.messages[i]? = some (Msg.oldCreate m)) (hw : m.weight < 2 ^ 63) :
    ∃ q n, (migrateProposals known ps).get? id = some q ∧ q.messages[i]? = some (Msg.create n) ∧ n.authority = m.authority ∧
      ∀ (gov : Addr) (s : Pool.State) (now : Nat),
        (0 < m.uploadInterval → 0 < m.maxBundleSize → m.binariesJson = true → m.authority = gov →
          Pool.create gov s now n = .ok (s.append (m.pool now).native)) ∧
        (∀ s', Pool.create gov s now n = .ok s' → s' = s.append (m.pool now).native) := by
  have e : migrateCreate m = .create
      { authority := m.authority, name := m.name, runtime := m.runtime, startKey := m.startKey, endKey := 0,
        uploadInterval := m.uploadInterval, inflationShareWeight := Dec.ofNat m.weight, minDelegation := m.minDelegation,
        maxBundleSize := m.maxBundleSize, version := m.version, binaries := m.binaries, binariesJson := m.binariesJson,
        storageProviderId := m.storageProviderId, compressionId := m.compressionId } := if_pos hw
  refine ⟨migrateProposal known p,
    { authority := m.authority, name := m.name, runtime := m.runtime, startKey := m.startKey, endKey := 0,
      uploadInterval := m.uploadInterval, inflationShareWeight := Dec.ofNat m.weight, minDelegation := m.minDelegation,
      maxBundleSize := m.maxBundleSize, version := m.version, binaries := m.binaries, binariesJson := m.binariesJson,
      storageProviderId := m.storageProviderId, compressionId := m.compressionId },
    by rw [migrateProposals_get, hp]; rfl, ?_, ?_, ?_⟩
  · show (p.messages.map migrateMsg)[i]? = _
    rw [List.getElem?_map, hi]
    show some (migrateCreate m) = _
    rw [e]
  · rfl
  · intro gov s now
    constructor
    · intro h1 h2 h3 h4
      unfold Pool.create
      rw [if_neg (by
        rintro (h | h)
        · exact absurd h (by show m.uploadInterval ≠ 0; omega)
        · exact absurd h (by show m.maxBundleSize ≠ 0; omega)), if_neg (by simp [h4]), if_neg (by simp [h3])]
      rfl
    · intro s' hs
      unfold Pool.create at hs
      split at hs
      · cases hs
      · split at hs
        · cases hs
        · split at hs
          · cases hs
          · injection hs with hs
            exact hs.symm

/-- C79 fails: the weights of pending proposals keep the old scale, while every pool that exists gets the weight one.  A pool
with the same weight as an existing one, created by a pending proposal, weighs as many times as much as that number. -/
theorem C79_scale_counterexample (k : Literals) (hu : (k.upgrades.map (·.1)).Nodup) {o : Old} (hk : Keyed o)
    {c : Chain.Chain} (hm : migrate k o = some c) {id : Nat} {p : OldPool} (hp : o.pools.get? id = some p) (m : OldCreate)
    (hw : m.weight = p.weight) (now : Nat) :
    ∃ q, c.pool.pools.get? id = some q ∧ q.inflationShareWeight = Dec.one ∧
      (m.pool now).native.inflationShareWeight = p.weight * q.inflationShareWeight := by
  refine ⟨_, by rw [C78_pools k hu hk hm id, hp]; rfl, rfl, ?_⟩
  show Dec.ofNat m.weight = p.weight * Dec.one
  rw [hw]; rfl

/-- a proposal with two messages -/
def sampleProposals : Map Nat Proposal :=
  (∅ : Map Nat Proposal).set 7 ⟨7, [.other 5, .oldCreate ⟨99, 2, 1, 1, 60, 1000000, 100, 50, 1, 1, true, 1, 1⟩], 0, 0, 0, 3⟩

example : ((migrateProposals (fun _ => none) sampleProposals).get? 7).map (fun p => p.messages.map (fun
    | .create m => m.inflationShareWeight
    | _ => 0)) = some [0, 1000000 * Dec.one] := by decide +kernel

end Verif.Upgrade
