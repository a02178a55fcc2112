import Verif.Chain.Commission
import Verif.Query.Funders
import Verif.Chain.SampleReach
import Verif.Chain.Repeat

/-!
# C112: profiles

What the chain shows as the profile of a funder or of a staker is what this account said last, and nobody else can change it.
The texts of a staker are the field `info` of the model of x/stakers; the texts of the funders are added here.
-/

set_option linter.dupNamespace false
namespace Verif.Chain
open Verif
open Chain

/-! ## model -/

/-- the bytes of a string -/
abbrev Text := List Nat

/-- x/funders/types/funders.pb.go `Funder`, without the address -/
structure FunderText where
  moniker : Text
  identity : Text
  website : Text
  contact : Text
  description : Text
deriving DecidableEq, Repr

/-- x/funders/types/message_create_funder.go:36-45 and message_update_funder.go:36-45 `ValidateBasic` -/
def FunderText.accepted (t : FunderText) : Bool := !t.moniker.isEmpty

/-- x/stakers/types/tx.pb.go `MsgUpdateMetadata`, without the creator -/
structure StakerText where
  moniker : Text
  website : Text
  identity : Text
  securityContact : Text
  details : Text
deriving DecidableEq, Repr

/-- Go's `encoding/hex`: 0-9, a-f, A-F -/
def isHex (b : Nat) : Bool := (48 ≤ b && b ≤ 57) || (97 ≤ b && b ≤ 102) || (65 ≤ b && b ≤ 70)

/-- x/stakers/types/message_update_metadata.go:39-67 `ValidateBasic`; `hex.DecodeString` gives eight bytes exactly for
sixteen hexadecimal digits -/
def StakerText.accepted (t : StakerText) : Bool :=
  (t.identity.isEmpty || (t.identity.all isHex && t.identity.length == 16)) &&
  decide (t.website.length ≤ 255) && decide (t.moniker.length ≤ 255) && decide (t.securityContact.length ≤ 255) &&
  decide (t.details.length ≤ 255)

/-- the chain with the texts of the funders -/
structure Registry where
  chain : Chain
  /-- the store of the funders (x/funders/keeper/getters_funder.go:57-64 `SetFunder`); the model of x/funders has only its
  keys (`funders`) -/
  texts : Map Addr FunderText

namespace Registry

/-- the operations of the chain, with the texts of the messages that have some -/
inductive Op where
  | other (op : Chain.Op)
  | createFunder (creator : Addr) (t : FunderText)
  | updateFunder (creator : Addr) (t : FunderText)
  | updateMetadata (creator : Addr) (t : StakerText)

/-- not one of the messages that are modelled with their texts here -/
def Op.ok : Op → Prop
  | .other (.createFunder _) => False
  | .other (.updateMetadata _ _ _) => False
  | _ => True

/-- x/funders/keeper/msg_server_create_funder.go:14-43 -/
def createFunder (gov : Addr) (r : Registry) (a : Addr) (t : FunderText) : Except String Registry :=
  if !t.accepted then .error "moniker cannot be empty"
  else (Chain.exec gov r.chain (.createFunder a)).map (fun c => ⟨c, r.texts.set a t⟩)

/-- x/funders/keeper/msg_server_update_funder.go:13-42 -/
def updateFunder (r : Registry) (a : Addr) (t : FunderText) : Except String Registry :=
  if !t.accepted then .error "moniker cannot be empty"
  else if !r.chain.fund.funders.has a then .error "funder does not exist"
  else .ok ⟨r.chain, r.texts.set a t⟩

variable (code : StakerText → Nat)

/-- what an operation answers; `code` writes the texts of a staker into the field `info` -/
def exec (gov : Addr) (r : Registry) : Op → Except String Registry
  | .other op => (Chain.exec gov r.chain op).map (fun c => ⟨c, r.texts⟩)
  | .createFunder a t => createFunder gov r a t
  | .updateFunder a t => r.updateFunder a t
  | .updateMetadata a t => (Chain.exec gov r.chain (.updateMetadata a (code t) t.accepted)).map (fun c => ⟨c, r.texts⟩)

/-- a failing message changes nothing, and nothing happens any more on a chain that has stopped -/
def step (gov : Addr) (r : Registry) (op : Op) : Registry :=
  if r.chain.crashed then r
  else match exec code gov r op with
    | .ok r' => r'
    | .error _ => r

/-- the operation of the chain below -/
def Op.below : Op → Option Chain.Op
  | .other op => some op
  | .createFunder a _ => some (.createFunder a)
  | .updateFunder _ _ => none
  | .updateMetadata a t => some (.updateMetadata a (code t) t.accepted)

/-- the texts of funder `a` -/
def funderText (r : Registry) (a : Addr) : Option FunderText := r.texts.get? a

end Registry

/-- the number that stands for the texts of staker `a` -/
def Chain.stakerInfo (c : Chain) (a : Addr) : Option Nat := (c.st.stakers.get? a).map (·.info)

namespace Registry

variable (code : StakerText → Nat)

/-- Go's `strings.Contains` -/
def contains (sub : Text) : Text → Bool
  | [] => sub.isEmpty
  | x :: l => sub.isPrefixOf (x :: l) || contains sub l

/-- x/query proto `Funder` -/
structure FunderRow where
  address : Addr
  text : FunderText
  stats : FunderStats

/-- x/query/keeper/grpc_query_funders.go:16-36 `Funders` with x/funders/keeper/getters_funder.go:66-99
`GetPaginatedFundersQuery` and grpc_query_funders.go:77-109 `parseFunder`; `lower` is Go's `strings.ToLower`, of which nothing
is assumed; `none` is the panic of `GetScore` -/
def fundersQuery (lower : Text → Text) (r : Registry) (search : Text) (limit : Nat) (total : Bool) (key : Option Addr) :
    Option (List FunderRow × Option Addr) :=
  ((Query.filteredPaginate r.texts (fun e => contains (lower search) (lower e.2.moniker)) limit total key).1.mapM (fun e =>
      (r.chain.funderStats (r.chain.fundingsOf e.1) ⟨Coins.zero, Coins.zero, Coins.zero, [], 0⟩).map (fun s =>
        (⟨e.1, e.2, s⟩ : FunderRow)))).map
    (fun rows => (rows, (Query.filteredPaginate r.texts (fun e => contains (lower search) (lower e.2.moniker)) limit total
      key).2))

/-! ## specification -/

/-- The histories: empty modules and no texts, then any operations. -/
inductive Reachable (gov : Addr) : Registry → Prop
  | init (dp : Delegation.Params) (sp : Stakers.Params) (bp : Bundles.Params) (b : Bank) (now : Nat) :
      dp.validate = true → bp.validate = true → Reachable gov ⟨Chain.init dp sp bp b now, ∅⟩
  | step {r : Registry} (op : Op) : Reachable gov r → op.ok → Sane (step code gov r op).chain →
      Reachable gov (step code gov r op)

/-- the texts that a message of funder `a` gives -/
def Op.words (a : Addr) : Op → Option FunderText
  | .createFunder b t => if b = a then some t else none
  | .updateFunder b t => if b = a then some t else none
  | _ => none

/-- the texts that a message of staker `a` gives; a new staker has none -/
def Op.wordsInfo (a : Addr) : Op → Option Nat
  | .updateMetadata b t => if b = a then some (code t) else none
  | .other (.createStaker b _ _) => if b = a then some 0 else none
  | _ => none

/-- the operation is accepted in `r` and leads to `r'` -/
def Accepted (gov : Addr) (r : Registry) (op : Op) (r' : Registry) : Prop :=
  r.chain.crashed = false ∧ exec code gov r op = .ok r'

/-- a history from `r` to `r'` in which no message that says something is accepted -/
inductive Silent {α : Type} (gov : Addr) (words : Op → Option α) (r : Registry) : Registry → Prop
  | refl : Silent gov words r r
  | step {x : Registry} (op : Op) : Silent gov words r x → op.ok → Sane (step code gov x op).chain →
      ((∃ t, words op = some t) → ∀ x', ¬ Accepted code gov x op x') → Silent gov words r (step code gov x op)

/-- Specification: `t` is the last that was said in the history to `r'`: it was accepted at some time, and nothing else was
accepted after that. -/
def LastSaid {α : Type} (gov : Addr) (words : Op → Option α) (t : α) (r' : Registry) : Prop :=
  ∃ r x op, Reachable code gov r ∧ op.ok ∧ words op = some t ∧ Accepted code gov r op x ∧ Silent code gov words x r'

/-! ## proofs -/

variable {code}

theorem step_below (gov : Addr) (r : Registry) (op : Op) :
    (step code gov r op).chain = r.chain ∨ ∃ o, op.below code = some o ∧ (step code gov r op).chain = r.chain.step gov o := by
  unfold step Chain.step
  split
  · exact Or.inl rfl
  · cases op with
    | other o =>
      right
      refine ⟨o, rfl, ?_⟩
      simp only [exec]
      cases Chain.exec gov r.chain o <;> rfl
    | createFunder a t =>
      simp only [exec, createFunder]
      cases ht : t.accepted with
      | false => exact Or.inl rfl
      | true =>
        right
        refine ⟨_, rfl, ?_⟩
        simp only [Bool.not_true, Bool.false_eq_true, if_false]
        cases Chain.exec gov r.chain (.createFunder a) <;> rfl
    | updateFunder a t =>
      left
      simp only [exec, updateFunder]
      split
      · rename_i e
        split at e
        · cases e
        · split at e
          · cases e
          · cases e; rfl
      · rfl
    | updateMetadata a t =>
      right
      refine ⟨_, rfl, ?_⟩
      simp only [exec]
      cases Chain.exec gov r.chain (.updateMetadata a (code t) t.accepted) <;> rfl

theorem Reachable.chain {gov : Addr} {r : Registry} (h : Reachable code gov r) : Verif.Chain.Reachable gov r.chain := by
  induction h with
  | init dp sp bp b now h1 h2 => exact .init dp sp bp b now h1 h2
  | @step r op _ _ hs ih =>
    rcases step_below gov r op with e | ⟨o, -, e⟩
    · rw [e]; exact ih
    · rw [e] at hs ⊢; exact .step o ih hs

theorem Silent.reachable {α : Type} {gov : Addr} {words : Op → Option α} {r r' : Registry} (h : Silent code gov words r r')
    (hr : Reachable code gov r) : Reachable code gov r' := by
  induction h with
  | refl => exact hr
  | step op _ ho hs _ ih => exact .step op ih ho hs

end Registry

/-! ### stakers -/

theorem _root_.Verif.Stakers.info_step (gov : Addr) (y : Stakers.Sys) (hy : Stakers.Reachable gov y) (o : Stakers.Op) (ho : o.ok) (st : Addr)
    (h1 : ∀ i v, o ≠ .updateMetadata st i v) (h2 : ∀ c d, o ≠ .createStaker st c d) :
    ((Stakers.Sys.step gov y o).w.s.stakers.get? st).map (·.info) = (y.w.s.stakers.get? st).map (·.info) := by
  have h := hy.inv
  open Verif.Stakers in
  have key : ∀ (s' : State) (a : Addr) (x : Staker), s'.stakers = y.w.s.stakers.set a x →
      (a = st → (y.w.s.stakers.get? st).map (·.info) = some x.info) →
      (s'.stakers.get? st).map (·.info) = (y.w.s.stakers.get? st).map (·.info) := by
    intro s' a x hs hc
    by_cases e : st = a
    · rw [hc e.symm, hs, e, Map.get?_set_self]; rfl
    · rw [hs, Map.get?_set_ne _ _ e]
  have same : ∀ s' : Stakers.State, s'.stakers = y.w.s.stakers →
      (s'.stakers.get? st).map (·.info) = (y.w.s.stakers.get? st).map (·.info) := by
    intro s' hs; rw [hs]
  cases o with
  | createStaker a c d =>
    simp only [Stakers.Sys.step]
    cases hr : Stakers.createStaker y.w.s a c d with
    | error e => rfl
    | ok s' =>
      unfold Stakers.createStaker at hr
      split at hr
      · cases hr
      split at hr
      · cases hr
      split at hr
      · cases hr
      cases hr
      refine key _ a ⟨c, Coins.zero, 0⟩ rfl ?_
      rintro rfl
      exact absurd rfl (h2 c d)
  | join ans amt m =>
    simp only [Stakers.Sys.step, Stakers.joinStep]
    cases hr : Stakers.joinPool y.w y.now ans amt m with
    | error e => rfl
    | ok w' =>
      obtain ⟨f1, -⟩ := Stakers.join_same h.mem ho hr
      obtain ⟨g1, -⟩ := Stakers.noteGift_same m y.w w'
      exact same _ (g1.trans f1.stakers)
  | leave a p =>
    simp only [Stakers.Sys.step]
    cases hr : Stakers.leavePool y.w.s y.now p a with
    | error e => rfl
    | ok s' =>
      unfold Stakers.leavePool at hr
      split at hr
      · cases hr
      rename_i v hv
      have hl1 : Stakers.LInv (y.w.s.setVal p a { v with leaving := true }) y.now :=
        (Stakers.setVal_same _ _ _ _).lv h.lv (fun _ _ => rfl)
      obtain ⟨-, -, -, h4⟩ := Stakers.orderLeave_ok hl1 hr
      exact same s' (by rw [h4]; rfl)
  | updateCommission a c =>
    simp only [Stakers.Sys.step]
    cases hr : Stakers.updateCommission y.w.s y.now a c with
    | error e => rfl
    | ok s' =>
      unfold Stakers.updateCommission at hr
      split at hr
      · cases hr
      split at hr
      · cases hr
      cases hr; exact same _ rfl
  | updateMetadata a i v =>
    simp only [Stakers.Sys.step]
    cases hr : Stakers.updateMetadata y.w.s a i v with
    | error e => rfl
    | ok s' =>
      unfold Stakers.updateMetadata at hr
      split at hr
      · cases hr
      split at hr
      · cases hr
      rename_i x hx
      cases hr
      refine key _ a { x with info := i } rfl ?_
      rintro rfl
      exact absurd rfl (h1 i v)
  | claim a c =>
    simp only [Stakers.Sys.step]
    cases hr : Stakers.claimRewards y.w a c with
    | error e => rfl
    | ok w' =>
      obtain ⟨-, x, hx, -, -, hs⟩ := Stakers.claim_ok hr
      exact key w'.s a { x with rewards := x.rewards.sub c } (by rw [hs]) (by rintro rfl; rw [hx]; rfl)
  | updateParams a p =>
    simp only [Stakers.Sys.step]
    cases hr : Stakers.updateParams gov y.w.s a p with
    | error e => rfl
    | ok s' =>
      unfold Stakers.updateParams at hr
      split at hr
      · cases hr
      split at hr
      · cases hr
      cases hr; exact same _ rfl
  | kick p a => exact same _ (Stakers.kick_same y.w.s y.now p a).stakers
  | incrementPoints p a =>
    simp only [Stakers.Sys.step, Stakers.State.incrementPoints]
    cases hv : y.w.s.vals.get? (p, a) with
    | none => rfl
    | some v => exact same _ rfl
  | resetPoints p a =>
    simp only [Stakers.Sys.step, Stakers.State.resetPoints]
    cases hv : y.w.s.vals.get? (p, a) with
    | none => rfl
    | some v => exact same _ rfl
  | increaseRewards a c =>
    simp only [Stakers.Sys.step]
    cases hr : Stakers.increaseRewards y.w .pool a c with
    | error e => rfl
    | ok w' =>
      rcases Stakers.increase_ok hr with ⟨-, rfl⟩ | ⟨x, hx, -, hs⟩
      · rfl
      · exact key w'.s a { x with rewards := x.rewards.add c } (by rw [hs]) (by rintro rfl; rw [hx]; rfl)
  | beginBlock dt =>
    obtain ⟨r1, r2, -⟩ := Stakers.beginBlock_inv (Nat.le_add_right y.now dt) h.mem h.ch h.lv h.tr h.rate
    show ((Stakers.beginBlock y.w.s (y.now + dt)).stakers.get? st).map (·.info) = _
    have hr := r1.rest st
    rw [r2.stakers]
    have := congrArg (Option.map Prod.snd) hr
    rw [Option.map_map, Option.map_map] at this
    exact this
  | external b g => rfl

namespace Chain

/-- tallies do not touch the texts -/
theorem info_micro {gov : Addr} {c : Chain} (μ : Micro) (hj : μ.judging = true) (a : Addr) :
    (μ.run gov c).stakerInfo a = c.stakerInfo a := by
  have of : ∀ {c' : Chain}, c'.st.stakers = c.st.stakers → c'.stakerInfo a = c.stakerInfo a := by
    intro c' e; unfold stakerInfo; rw [e]
  cases μ with
  | st op =>
    cases op with
    | kick p x => exact of (Stakers.kick_same c.st c.now p x).stakers
    | incrementPoints p x =>
      apply of
      show (c.st.incrementPoints p x).1.stakers = _
      unfold Stakers.State.incrementPoints
      split <;> rfl
    | resetPoints p x =>
      apply of
      show (c.st.resetPoints p x).stakers = _
      unfold Stakers.State.resetPoints
      split <;> rfl
    | increaseRewards x k =>
      show ((Stakers.orElse c.sw (Stakers.increaseRewards c.sw .pool x k)).s.stakers.get? a).map (·.info) = _
      cases hr : Stakers.increaseRewards c.sw .pool x k with
      | error e => rfl
      | ok w' =>
        rcases Stakers.increase_ok hr with ⟨-, rfl⟩ | ⟨y, hy, -, hs⟩
        · rfl
        · have hs : w'.s.stakers = c.st.stakers.set x { y with rewards := y.rewards.add k } := by rw [hs]; rfl
          have hy : c.st.stakers.get? x = some y := hy
          show (w'.s.stakers.get? a).map (·.info) = (c.st.stakers.get? a).map (·.info)
          rw [hs, Map.get?_set]
          split
          · rename_i e; rw [e, hy]; rfl
          · rfl
    | _ => cases hj
  | finalize id v =>
    apply of
    show (c.finalize id v).st.stakers = _
    unfold finalize; split <;> rfl
  | register m n =>
    apply of
    show (c.register m n).st.stakers = _
    unfold register; split <;> rfl
  | del | fund | pool | pay | blank | next | cast | progress | crash => exact of rfl
  | _ => cases hj

theorem info_steps {gov : Addr} {c c' : Chain} (h : JSteps gov c c') (a : Addr) : c'.stakerInfo a = c.stakerInfo a := by
  induction h with
  | refl => rfl
  | cons μ _ _ hj _ ih => exact (info_micro μ hj a).trans ih

/-- nothing but the staker's own messages changes its texts -/
theorem info_exec {gov : Addr} {c c' : Chain} (h : Reachable gov c) {op : Op} (he : exec gov c op = .ok c') {a : Addr}
    (h1 : ∀ i v, op ≠ .updateMetadata a i v) (h2 : ∀ k n, op ≠ .createStaker a k n) : c'.stakerInfo a = c.stakerInfo a := by
  have hg := Reachable.good h
  have of : ∀ {c' : Chain}, c'.st.stakers = c.st.stakers → c'.stakerInfo a = c.stakerInfo a := by
    intro c' e; unfold stakerInfo; rw [e]
  by_cases g1 : ∃ m, op = .submit m
  · obtain ⟨m, rfl⟩ := g1
    exact info_steps (gov := gov) (submit_steps hg.sound.mem he) a
  by_cases g2 : ∃ m, op = .skip m
  · obtain ⟨m, rfl⟩ := g2
    exact info_steps (gov := gov) (skip_steps hg.sound he) a
  by_cases g3 : op = .endBlock
  · subst g3
    injection he with he
    subst he
    exact info_steps (gov := gov) (endBlock_steps hg.sound.mem) a
  by_cases g4 : ∃ x id, op = .disablePool x id
  · obtain ⟨x, id, rfl⟩ := g4
    exact of (disable_stakers he)
  by_cases g5 : op.inner = true
  · push Not at g1 g2 g4
    rcases st_exec gov c c' op g5 he g1 g2 g3 g4 with e | ⟨o, e1, e2⟩
    · exact of (by rw [e])
    · show (c'.st.stakers.get? a).map (·.info) = _
      rw [e2]
      refine Stakers.info_step gov ⟨c.sw, c.now⟩ hg.mods.st o (stOp_ok h e1) a (fun i v hx => ?_) (fun k d hx => ?_)
      · subst hx
        cases op <;> simp only [stOp, Option.some.injEq, reduceCtorEq] at e1
        injection e1 with e3 e4 e5
        exact h1 i v (by rw [e3, e4, e5])
      · subst hx
        cases op <;> simp only [stOp, Option.some.injEq, reduceCtorEq] at e1
        injection e1 with e3 e4 e5
        rename_i k' n
        exact h2 k' n (by rw [e3])
  · cases op <;> first | exact absurd rfl g5 | skip
    injection he with he
    subst he
    rfl

/-! ### funders -/

theorem funders_micro {gov : Addr} {c : Chain} (μ : Micro) (hj : μ.judging = true) :
    (μ.run gov c).fund.funders = c.fund.funders := by
  cases μ with
  | fund op =>
    cases op with
    | charge id =>
      show (Funders.orElseC c.fw (Funders.chargeFundersOfPool c.fund c.b id)).s.funders = _
      cases hr : Funders.chargeFundersOfPool c.fund c.b id with
      | error e => rfl
      | ok r => exact Funders.charge_funders hr
    | _ => cases hj
  | finalize id v =>
    show (c.finalize id v).fund.funders = _
    unfold finalize; split <;> rfl
  | register m n =>
    show (c.register m n).fund.funders = _
    unfold register; split <;> rfl
  | del | st | pool | pay | blank | next | cast | progress | crash => rfl
  | _ => cases hj

theorem funders_steps {gov : Addr} {c c' : Chain} (h : JSteps gov c c') : c'.fund.funders = c.fund.funders := by
  induction h with
  | refl => rfl
  | cons μ _ _ hj _ ih => exact (funders_micro μ hj).trans ih

/-- only `MsgCreateFunder` makes funders -/
theorem funders_exec {gov : Addr} {c c' : Chain} (h : Reachable gov c) {op : Op} (he : exec gov c op = .ok c')
    (h1 : ∀ a, op ≠ .createFunder a) : c'.fund.funders = c.fund.funders := by
  have hg := Reachable.good h
  cases op with
  | submit m => exact funders_steps (gov := gov) (submit_steps hg.sound.mem he)
  | vote m => exact funders_steps (gov := gov) (vote_steps hg.sound.mem he)
  | skip m => exact funders_steps (gov := gov) (skip_steps hg.sound he)
  | claim x y j => exact funders_steps (gov := gov) (claim_steps hg.sound.mem he)
  | endBlock =>
    injection he with he
    subst he
    exact funders_steps (gov := gov) (endBlock_steps hg.sound.mem)
  | createFunder a => exact absurd rfl (h1 a)
  | createStaker x k n =>
    have he' : c.createStaker x k n = .ok c' := he
    unfold createStaker at he'
    split at he'
    · cases he'
    · split at he'
      · cases he'
      · cases he'; rfl
  | join m => obtain ⟨w, -, rfl⟩ := join_eq he; rfl
  | createPool m => obtain ⟨s, -, rfl⟩ := createPool_eq he; rfl
  | disablePool x j => exact congrArg Funders.State.funders (disable_fund he)
  | fund m => obtain ⟨r, hr, rfl⟩ := map_ok he; exact Funders.fundPool_funders hr
  | defund m => obtain ⟨r, hr, rfl⟩ := map_ok he; exact Funders.defundPool_funders hr
  | fundersParams x y =>
    obtain ⟨s, hr, rfl⟩ := map_ok he
    unfold Funders.updateParams at hr
    split at hr
    · cases hr
    · split at hr
      · cases hr
      · cases hr; rfl
  | beginBlock dt pr te r =>
    injection he with he
    rw [← he]
    exact congrArg Funders.State.funders (afterSplit_fund c r _ (fun x hx => by
      obtain ⟨b, hl, rfl, -⟩ := splitInflation_eq hx
      rfl))
  | external b gd gs gf => injection he with he; subst he; rfl
  | leave | updateCommission | updateMetadata | claimRewards | stakersParams | updatePool | enablePool | scheduleUpgrade
    | cancelUpgrade | bundlesParams | poolParams | delegate | redelegate | undelegate | withdraw | delegationParams =>
    obtain ⟨s, hr, rfl⟩ := map_ok he
    rfl

end Chain

namespace Registry
variable {code : StakerText → Nat} {gov : Addr}

theorem step_accepted {r r' : Registry} {op : Op} (h : Accepted code gov r op r') : step code gov r op = r' := by
  unfold step
  rw [h.1, h.2]; rfl

theorem step_cases (r : Registry) (op : Op) :
    (∃ r', Accepted code gov r op r' ∧ step code gov r op = r') ∨
      (step code gov r op = r ∧ ∀ r', ¬ Accepted code gov r op r') := by
  cases hc : r.chain.crashed with
  | true =>
    right
    refine ⟨by unfold step; rw [hc]; rfl, fun r' h => ?_⟩
    have := h.1
    rw [hc] at this; cases this
  | false =>
    cases he : exec code gov r op with
    | ok r' => exact Or.inl ⟨r', ⟨hc, he⟩, step_accepted ⟨hc, he⟩⟩
    | error e =>
      right
      refine ⟨by unfold step; rw [hc, he]; rfl, fun r' h => ?_⟩
      have := h.2
      rw [he] at this; cases this

theorem createFunder_ok {r r' : Registry} {a : Addr} {t : FunderText} (h : createFunder gov r a t = .ok r') :
    t.accepted = true ∧ r.chain.fund.funders.has a = false ∧ r'.texts = r.texts.set a t ∧
      r'.chain = { r.chain with fund := { r.chain.fund with funders := r.chain.fund.funders.set a () } } := by
  unfold createFunder at h
  split at h
  · cases h
  · rename_i ht
    obtain ⟨c, hc, rfl⟩ := Chain.map_ok h
    obtain ⟨s, hs, rfl⟩ := Chain.map_ok hc
    unfold Funders.createFunder at hs
    split at hs
    · cases hs
    · rename_i hn
      cases hs
      exact ⟨by simpa using ht, by simpa using hn, rfl, rfl⟩

theorem updateFunder_ok {r r' : Registry} {a : Addr} {t : FunderText} (h : r.updateFunder a t = .ok r') :
    t.accepted = true ∧ r.chain.fund.funders.has a = true ∧ r' = ⟨r.chain, r.texts.set a t⟩ := by
  unfold updateFunder at h
  split at h
  · cases h
  · rename_i ht
    split at h
    · cases h
    · rename_i hn
      cases h
      exact ⟨by simpa using ht, by simpa using hn, rfl⟩

/-- an accepted message of the funder with texts sets them; nothing else changes them -/
theorem text_exec {r r' : Registry} {op : Op} (h : exec code gov r op = .ok r') (a : Addr) :
    (∀ t, op.words a = some t → r'.funderText a = some t) ∧
      ((∀ t, op.words a ≠ some t) → r'.funderText a = r.funderText a) := by
  have set : ∀ (x : Addr) (t : FunderText), r'.texts = r.texts.set x t →
      (∀ t', (if x = a then some t else none) = some t' → r'.funderText a = some t') ∧
      ((∀ t', (if x = a then some t else none) ≠ some t') → r'.funderText a = r.funderText a) := by
    intro x t e
    unfold funderText
    rw [e]
    by_cases hx : x = a
    · subst hx
      rw [if_pos rfl, Map.get?_set_self]
      exact ⟨fun t' h => h, fun h => absurd rfl (h t)⟩
    · rw [if_neg hx, Map.get?_set_ne _ _ (fun e => hx e.symm)]
      exact ⟨fun t' h => (by cases h), fun _ => rfl⟩
  cases op with
  | other o =>
    obtain ⟨c, -, rfl⟩ := Chain.map_ok h
    exact ⟨fun t ht => (by cases ht), fun _ => rfl⟩
  | createFunder x t => exact set x t (createFunder_ok h).2.2.1
  | updateFunder x t =>
    obtain ⟨-, -, rfl⟩ := updateFunder_ok h
    exact set x t rfl
  | updateMetadata x t =>
    obtain ⟨c, -, rfl⟩ := Chain.map_ok h
    exact ⟨fun t ht => (by cases ht), fun _ => rfl⟩

theorem createStaker_info {c c' : Chain} {a : Addr} {k : Dec} {n : Nat} (h : Chain.exec gov c (.createStaker a k n) = .ok c') :
    c'.stakerInfo a = some 0 := by
  have he' : c.createStaker a k n = .ok c' := h
  unfold Chain.createStaker at he'
  split at he'
  · cases he'
  · rename_i s hs
    split at he'
    · cases he'
    · cases he'
      unfold Stakers.createStaker at hs
      split at hs
      · cases hs
      split at hs
      · cases hs
      split at hs
      · cases hs
      cases hs
      show ((c.st.stakers.set a ⟨k, Coins.zero, 0⟩).get? a).map (·.info) = some 0
      rw [Map.get?_set_self]; rfl

theorem updateMetadata_ok {c c' : Chain} {a : Addr} {i : Nat} {v : Bool} (h : Chain.exec gov c (.updateMetadata a i v) = .ok c') :
    v = true ∧ ∃ x, c.st.stakers.get? a = some x ∧
      c' = { c with st := { c.st with stakers := c.st.stakers.set a { x with info := i } } } := by
  obtain ⟨s, hs, rfl⟩ := Chain.map_ok h
  unfold Stakers.updateMetadata at hs
  split at hs
  · cases hs
  · rename_i hv
    split at hs
    · cases hs
    · rename_i x hx
      cases hs
      exact ⟨by simpa using hv, x, hx, rfl⟩

theorem info_word {r r' : Registry} (hr : Reachable code gov r) {op : Op} (ho : op.ok) (h : exec code gov r op = .ok r')
    (a : Addr) :
    (∀ i, op.wordsInfo code a = some i → r'.chain.stakerInfo a = some i) ∧
      ((∀ i, op.wordsInfo code a ≠ some i) → r'.chain.stakerInfo a = r.chain.stakerInfo a) := by
  cases op with
  | other o =>
    obtain ⟨c, hc, rfl⟩ := Chain.map_ok h
    by_cases hx : ∃ x k n, o = .createStaker x k n
    · obtain ⟨x, k, n, rfl⟩ := hx
      by_cases hxa : x = a
      · subst hxa
        have hw : (Op.other (.createStaker x k n)).wordsInfo code x = some 0 := by
          show (if x = x then some 0 else none) = _
          rw [if_pos rfl]
        rw [hw]
        refine ⟨fun i hi => ?_, fun hn => absurd rfl (hn 0)⟩
        cases hi
        exact createStaker_info hc
      · have hw : (Op.other (.createStaker x k n)).wordsInfo code a = none := by
          show (if x = a then some 0 else none) = _
          rw [if_neg hxa]
        rw [hw]
        refine ⟨fun i hi => (by cases hi), fun _ => ?_⟩
        exact info_exec hr.chain hc (fun i v e => by cases e) (fun k n e => by cases e; exact hxa rfl)
    · have hw : (Op.other o).wordsInfo code a = none := by
        cases o <;> first | rfl | exact absurd ⟨_, _, _, rfl⟩ hx
      rw [hw]
      refine ⟨fun i hi => (by cases hi), fun _ => ?_⟩
      refine info_exec hr.chain hc (fun i v e => ?_) (fun k n e => hx ⟨_, _, _, e⟩)
      subst e; exact ho
  | createFunder x t =>
    obtain ⟨-, -, -, e⟩ := createFunder_ok h
    refine ⟨fun i hi => (by cases hi), fun _ => ?_⟩
    rw [e]; rfl
  | updateFunder x t =>
    obtain ⟨-, -, rfl⟩ := updateFunder_ok h
    exact ⟨fun i hi => (by cases hi), fun _ => rfl⟩
  | updateMetadata x t =>
    obtain ⟨c, hc, rfl⟩ := Chain.map_ok h
    by_cases hxa : x = a
    · subst hxa
      have hw : (Op.updateMetadata x t).wordsInfo code x = some (code t) := by
        show (if x = x then some (code t) else none) = _
        rw [if_pos rfl]
      rw [hw]
      refine ⟨fun i hi => ?_, fun hn => absurd rfl (hn _)⟩
      cases hi
      obtain ⟨-, y, hy, rfl⟩ := updateMetadata_ok hc
      show ((r.chain.st.stakers.set x { y with info := code t }).get? x).map (·.info) = _
      rw [Map.get?_set_self]; rfl
    · have hw : (Op.updateMetadata x t).wordsInfo code a = none := by
        show (if x = a then some (code t) else none) = _
        rw [if_neg hxa]
      rw [hw]
      refine ⟨fun i hi => (by cases hi), fun _ => ?_⟩
      exact info_exec hr.chain hc (fun i v e => by cases e; exact hxa rfl) (fun k n e => by cases e)

/-- C112: as long as no message of a funder with texts is accepted, its profile stays as it is, whatever everybody else
does. -/
theorem C112_funder_keeps {r r' : Registry} {a : Addr} (h : Silent code gov (Op.words a) r r') :
    r'.funderText a = r.funderText a := by
  induction h with
  | refl => rfl
  | @step x op _ _ _ hn ih =>
    rw [← ih]
    rcases step_cases (code := code) (gov := gov) x op with ⟨x', ha, e⟩ | ⟨e, -⟩
    · rw [e]
      exact (text_exec ha.2 a).2 (fun t ht => hn ⟨t, ht⟩ x' ha)
    · rw [e]

/-- C112: the profile of a funder is what the funder said last. -/
theorem C112_funder {r : Registry} (h : Reachable code gov r) {a : Addr} {t : FunderText} (ht : r.funderText a = some t) :
    LastSaid code gov (Op.words a) t r := by
  induction h with
  | init => cases ht
  | @step r op hr ho hs ih =>
    rcases step_cases (code := code) (gov := gov) r op with ⟨x', ha, e⟩ | ⟨e, hn⟩
    · cases hw : op.words a with
      | some t' =>
        have := (text_exec ha.2 a).1 t' hw
        rw [e, this] at ht
        cases ht
        exact ⟨r, x', op, hr, ho, hw, ha, by rw [e]; exact .refl⟩
      | none =>
        have := (text_exec ha.2 a).2 (fun t ht => by rw [hw] at ht; cases ht)
        rw [e, this] at ht
        obtain ⟨r0, x0, o0, h1, h2, h3, h4, h5⟩ := ih ht
        exact ⟨r0, x0, o0, h1, h2, h3, h4, .step op h5 ho hs (fun ⟨t, k⟩ => by rw [hw] at k; cases k)⟩
    · have ht' := ht
      rw [e] at ht'
      obtain ⟨r0, x0, o0, h1, h2, h3, h4, h5⟩ := ih ht'
      exact ⟨r0, x0, o0, h1, h2, h3, h4, .step op h5 ho hs (fun _ => hn)⟩

/-- C112: as long as a staker changes nothing itself, its texts stay as they are, whatever everybody else does. -/
theorem C112_staker_keeps {r r' : Registry} (hr : Reachable code gov r) {a : Addr}
    (h : Silent code gov (Op.wordsInfo code a) r r') : r'.chain.stakerInfo a = r.chain.stakerInfo a := by
  induction h with
  | refl => rfl
  | @step x op hx ho _ hn ih =>
    rw [← ih]
    rcases step_cases (code := code) (gov := gov) x op with ⟨x', ha, e⟩ | ⟨e, -⟩
    · rw [e]
      exact (info_word (hx.reachable hr) ho ha.2 a).2 (fun t ht => hn ⟨t, ht⟩ x' ha)
    · rw [e]

/-- C112: the texts of a staker are what the staker said last, or empty (`0`) if it has said nothing since it exists. -/
theorem C112_staker {r : Registry} (h : Reachable code gov r) {a : Addr} {i : Nat} (hi : r.chain.stakerInfo a = some i) :
    LastSaid code gov (Op.wordsInfo code a) i r := by
  induction h with
  | init => cases hi
  | @step r op hr ho hs ih =>
    rcases step_cases (code := code) (gov := gov) r op with ⟨x', ha, e⟩ | ⟨e, hn⟩
    · cases hw : op.wordsInfo code a with
      | some t' =>
        have := (info_word hr ho ha.2 a).1 t' hw
        rw [e, this] at hi
        cases hi
        exact ⟨r, x', op, hr, ho, hw, ha, by rw [e]; exact .refl⟩
      | none =>
        have := (info_word hr ho ha.2 a).2 (fun t ht => by rw [hw] at ht; cases ht)
        rw [e, this] at hi
        obtain ⟨r0, x0, o0, h1, h2, h3, h4, h5⟩ := ih hi
        exact ⟨r0, x0, o0, h1, h2, h3, h4, .step op h5 ho hs (fun ⟨t, k⟩ => by rw [hw] at k; cases k)⟩
    · have hi' := hi
      rw [e] at hi'
      obtain ⟨r0, x0, o0, h1, h2, h3, h4, h5⟩ := ih hi'
      exact ⟨r0, x0, o0, h1, h2, h3, h4, .step op h5 ho hs (fun _ => hn)⟩

/-- C112: exactly the registered funders have a profile, and it has a moniker. -/
theorem C112_registered {r : Registry} (h : Reachable code gov r) (a : Addr) :
    (r.chain.fund.funders.has a = true ↔ ∃ t, r.funderText a = some t) ∧ ∀ t, r.funderText a = some t → t.moniker ≠ [] := by
  have mon : ∀ t : FunderText, t.accepted = true → t.moniker ≠ [] := by
    intro t ht e; unfold FunderText.accepted at ht; rw [e] at ht; cases ht
  induction h with
  | init dp sp bp b now h1 h2 =>
    refine ⟨⟨fun h => ?_, fun ⟨t, h⟩ => ?_⟩, fun t h => ?_⟩
    · cases h
    · cases h
    · cases h
  | @step r op hr ho hs ih =>
    rcases step_cases (code := code) (gov := gov) r op with ⟨x', ha, e⟩ | ⟨e, -⟩
    · rw [e]
      have he := ha.2
      cases op with
      | other o =>
        obtain ⟨c, hc, rfl⟩ := Chain.map_ok he
        have hf : c.fund.funders = r.chain.fund.funders := funders_exec hr.chain hc (fun a e => by subst e; exact ho)
        show (c.fund.funders.has a = true ↔ _) ∧ _
        rw [hf]; exact ih
      | createFunder x t =>
        obtain ⟨h1, -, h2, h3⟩ := createFunder_ok he
        have ht := text_exec he a
        by_cases hx : x = a
        · subst hx
          have := ht.1 t (by show (if x = x then some t else none) = _; rw [if_pos rfl])
          rw [this, h3]
          refine ⟨⟨fun _ => ⟨t, rfl⟩, fun _ => ?_⟩, fun t' h => by cases h; exact mon t h1⟩
          show (r.chain.fund.funders.set x ()).has x = true
          rw [Stakers.has_iff, Map.get?_set_self]; exact ⟨_, rfl⟩
        · have := ht.2 (fun t' h => by
            have h : (if x = a then some t else none) = some t' := h
            rw [if_neg hx] at h; cases h)
          rw [this, h3]
          show ((r.chain.fund.funders.set x ()).has a = true ↔ _) ∧ _
          rw [Stakers.has_iff, Map.get?_set_ne _ _ (fun e => hx e.symm), ← Stakers.has_iff]; exact ih
      | updateFunder x t =>
        have ht := text_exec he a
        obtain ⟨h1, h2, rfl⟩ := updateFunder_ok he
        by_cases hx : x = a
        · subst hx
          have := ht.1 t (by show (if x = x then some t else none) = _; rw [if_pos rfl])
          rw [this]
          exact ⟨⟨fun _ => ⟨t, rfl⟩, fun _ => h2⟩, fun t' h => by cases h; exact mon t h1⟩
        · have := ht.2 (fun t' h => by
            have h : (if x = a then some t else none) = some t' := h
            rw [if_neg hx] at h; cases h)
          rw [this]; exact ih
      | updateMetadata x t =>
        obtain ⟨c, hc, rfl⟩ := Chain.map_ok he
        have hf : c.fund.funders = r.chain.fund.funders := funders_exec hr.chain hc (fun a e => by cases e)
        show (c.fund.funders.has a = true ↔ _) ∧ _
        rw [hf]; exact ih
    · rw [e]; exact ih

/-- C112: a profile is accepted from a registered funder if it has a moniker; it changes nothing else. -/
theorem C112_update (r : Registry) (a : Addr) (t : FunderText) :
    ((∃ r', exec code gov r (.updateFunder a t) = .ok r') ↔ r.chain.fund.funders.has a = true ∧ t.moniker ≠ []) ∧
    ∀ r', exec code gov r (.updateFunder a t) = .ok r' →
      r'.chain = r.chain ∧ r'.funderText a = some t ∧ ∀ b, b ≠ a → r'.funderText b = r.funderText b := by
  have hm : t.accepted = true ↔ t.moniker ≠ [] := by
    unfold FunderText.accepted
    cases t.moniker <;> simp
  refine ⟨⟨?_, ?_⟩, ?_⟩
  · rintro ⟨r', h⟩
    obtain ⟨h1, h2, -⟩ := updateFunder_ok h
    exact ⟨h2, hm.mp h1⟩
  · rintro ⟨h1, h2⟩
    refine ⟨⟨r.chain, r.texts.set a t⟩, ?_⟩
    show r.updateFunder a t = _
    unfold updateFunder
    rw [hm.mpr h2, h1]; rfl
  · intro r' h
    obtain ⟨-, -, rfl⟩ := updateFunder_ok h
    refine ⟨rfl, ?_, fun b hb => ?_⟩
    · exact Map.get?_set_self _ _ _
    · exact Map.get?_set_ne _ _ hb

/-- Specification: the texts of a staker that are accepted: the identity is empty or 16 hexadecimal digits, everything else has
at most 255 bytes -/
structure Acceptable (t : StakerText) : Prop where
  identity : t.identity = [] ∨ t.identity.length = 16 ∧
    ∀ b ∈ t.identity, (48 ≤ b ∧ b ≤ 57) ∨ (97 ≤ b ∧ b ≤ 102) ∨ (65 ≤ b ∧ b ≤ 70)
  moniker : t.moniker.length ≤ 255
  website : t.website.length ≤ 255
  contact : t.securityContact.length ≤ 255
  details : t.details.length ≤ 255

theorem accepted_iff (t : StakerText) : t.accepted = true ↔ Acceptable t := by
  unfold StakerText.accepted
  simp only [Bool.and_eq_true, Bool.or_eq_true, List.isEmpty_iff, List.all_eq_true, isHex, decide_eq_true_eq, beq_iff_eq]
  constructor
  · rintro ⟨⟨⟨⟨h1, h2⟩, h3⟩, h4⟩, h5⟩
    exact ⟨h1.imp id (fun h => ⟨h.2, fun b hb => by have := h.1 b hb; tauto⟩), h3, h2, h4, h5⟩
  · rintro ⟨h1, h2, h3, h4, h5⟩
    exact ⟨⟨⟨⟨h1.imp id (fun h => ⟨fun b hb => by have := h.2 b hb; tauto, h.1⟩), h3⟩, h2⟩, h4⟩, h5⟩

/-- C112: texts are accepted from a staker if they are acceptable; nothing but the texts of this staker changes. -/
theorem C112_metadata (r : Registry) (a : Addr) (t : StakerText) :
    ((∃ r', exec code gov r (.updateMetadata a t) = .ok r') ↔ r.chain.st.stakers.has a = true ∧ Acceptable t) ∧
    ∀ r', exec code gov r (.updateMetadata a t) = .ok r' →
      ∃ x, r.chain.st.stakers.get? a = some x ∧
        r' = ⟨{ r.chain with st := { r.chain.st with stakers := r.chain.st.stakers.set a { x with info := code t } } },
          r.texts⟩ := by
  refine ⟨⟨?_, ?_⟩, ?_⟩
  · rintro ⟨r', h⟩
    obtain ⟨c, hc, -⟩ := Chain.map_ok h
    obtain ⟨h1, x, hx, -⟩ := updateMetadata_ok hc
    exact ⟨(Stakers.has_iff _ _).mpr ⟨x, hx⟩, (accepted_iff t).mp h1⟩
  · rintro ⟨h1, h2⟩
    obtain ⟨x, hx⟩ := (Stakers.has_iff _ _).mp h1
    have hs : Stakers.updateMetadata r.chain.st a (code t) t.accepted =
        .ok { r.chain.st with stakers := r.chain.st.stakers.set a { x with info := code t } } := by
      unfold Stakers.updateMetadata
      rw [(accepted_iff t).mpr h2, hx]; rfl
    refine ⟨⟨{ r.chain with st := { r.chain.st with stakers := r.chain.st.stakers.set a { x with info := code t } } },
      r.texts⟩, ?_⟩
    show ((Stakers.updateMetadata r.chain.st a (code t) t.accepted).map _).map _ = _
    rw [hs]; rfl
  · intro r' h
    obtain ⟨c, hc, rfl⟩ := Chain.map_ok h
    obtain ⟨-, x, hx, rfl⟩ := updateMetadata_ok hc
    exact ⟨x, hx, rfl⟩

theorem contains_iff (sub l : Text) : contains sub l = true ↔ ∃ p q, l = p ++ sub ++ q := by
  induction l with
  | nil =>
    unfold contains
    rw [List.isEmpty_iff]
    constructor
    · rintro rfl; exact ⟨[], [], rfl⟩
    · rintro ⟨p, q, h⟩
      have := congrArg List.length h
      rw [List.length_append, List.length_append, List.length_nil] at this
      exact List.length_eq_zero_iff.mp (by omega)
  | cons x l ih =>
    unfold contains
    rw [Bool.or_eq_true, ih, List.isPrefixOf_iff_prefix]
    constructor
    · rintro (⟨q, h⟩ | ⟨p, q, h⟩)
      · exact ⟨[], q, by rw [← h]; rfl⟩
      · exact ⟨x :: p, q, by rw [h]; rfl⟩
    · rintro ⟨p, q, h⟩
      cases p with
      | nil => exact Or.inl ⟨q, h.symm⟩
      | cons y p =>
        injection h with h1 h2
        exact Or.inr ⟨p, q, h2⟩

theorem rows_of_scores {c : Chain} {l : List Funders.Funding} {ss : List Nat}
    (h : l.mapM (fun f => Funders.score c.fund.params f.amounts) = some ss) : ∃ rows, l.mapM c.fundingRow = some rows := by
  induction l generalizing ss with
  | nil => exact ⟨[], rfl⟩
  | cons f l ih =>
    rw [List.mapM_cons] at h
    cases hf : Funders.score c.fund.params f.amounts with
    | none => rw [hf] at h; cases h
    | some x =>
      rw [hf] at h
      cases hl : l.mapM (fun f => Funders.score c.fund.params f.amounts) with
      | none => rw [hl] at h; cases h
      | some y =>
        obtain ⟨rows, hr⟩ := ih hl
        rw [List.mapM_cons, hr]
        unfold Chain.fundingRow
        rw [hf]
        exact ⟨_, rfl⟩

/-- C112: a search that is read page by page shows exactly the registered funders whose moniker contains the searched text,
without regard to case (`lower`), each once, with its profile and the sums over its fundings (see `C74_funder`). -/
theorem C112_search (lower : Text → Text) {r : Registry} (h : Reachable code gov r) {search : Text} {limit : Nat}
    {total : Bool} {ps : List (List FunderRow)}
    (hp : Query.Pages (fundersQuery lower r search limit total) none ps) :
    (ps.flatten.map (·.address)).Nodup ∧
    (∀ a, a ∈ ps.flatten.map (·.address) ↔ r.chain.fund.funders.has a = true ∧
      ∃ t p q, r.funderText a = some t ∧ lower t.moniker = p ++ lower search ++ q) ∧
    ∀ row ∈ ps.flatten, r.funderText row.address = some row.text ∧
      ∃ l, r.chain.funderQuery row.address .unspecified = some (row.stats, l) := by
  have hall := Query.Pages.all (m := r.texts) (acc := fun e => contains (lower search) (lower e.2.moniker))
    (f := fun e => (r.chain.funderStats (r.chain.fundingsOf e.1) ⟨Coins.zero, Coins.zero, Coins.zero, [], 0⟩).map (fun s =>
        (⟨e.1, e.2, s⟩ : FunderRow))) (fun k => rfl) hp
  have hids : ps.flatten.map (·.address) =
      (r.texts.toList.filter (fun e => contains (lower search) (lower e.2.moniker))).map (·.1) :=
    Query.mapM_proj (u := (·.1)) (v := (·.address)) (fun x b hb => by
      obtain ⟨s, -, rfl⟩ := Option.map_eq_some_iff.mp hb; rfl) hall
  refine ⟨?_, fun a => ?_, fun row hrow => ?_⟩
  · rw [hids]
    exact r.texts.keys_nodup.sublist (List.filter_sublist.map _)
  · rw [hids, List.mem_map]
    constructor
    · rintro ⟨⟨b, t⟩, hm, rfl⟩
      rw [List.mem_filter] at hm
      have ht : r.funderText b = some t := (Map.mem_iff _ _ _).mp hm.1
      obtain ⟨p, q, e⟩ := (contains_iff _ _).mp hm.2
      exact ⟨(C112_registered h b).1.mpr ⟨t, ht⟩, t, p, q, ht, e⟩
    · rintro ⟨-, t, p, q, ht, e⟩
      exact ⟨(a, t), List.mem_filter.mpr ⟨(Map.mem_iff _ _ _).mpr ht, (contains_iff _ _).mpr ⟨p, q, e⟩⟩, rfl⟩
  · obtain ⟨⟨b, t⟩, hm, e⟩ := (Query.mapM_mem hall row).mp hrow
    obtain ⟨s, hs, rfl⟩ := Option.map_eq_some_iff.mp e
    have ht : r.funderText b = some t := (Map.mem_iff _ _ _).mp (List.mem_filter.mp hm).1
    refine ⟨ht, ?_⟩
    obtain ⟨-, -, -, -, ss, hss, -⟩ := Chain.stats_spec _ _ _ hs
    obtain ⟨rows, hrows⟩ := rows_of_scores hss
    refine ⟨rows, ?_⟩
    show r.chain.funderQuery b .unspecified = some (s, rows)
    unfold Chain.funderQuery
    rw [if_pos ((C112_registered h b).1.mpr ⟨t, ht⟩), hs]
    have e : (r.chain.fundingsOf b).filter FundingStatus.unspecified.accepts = r.chain.fundingsOf b :=
      List.filter_eq_self.mpr (fun _ _ => rfl)
    show Option.map _ (((r.chain.fundingsOf b).filter FundingStatus.unspecified.accepts).mapM r.chain.fundingRow) = _
    rw [e, hrows]; rfl

/-! ## witnesses -/

namespace Sample

/-- a coding of texts -/
def coding (t : StakerText) : Nat := t.moniker.sum

/-- "Bob" -/
def bob : FunderText := ⟨[66, 111, 98], [], [], [], []⟩
/-- "bobby" -/
def bobby : FunderText := ⟨[98, 111, 98, 98, 121], [], [], [], []⟩
/-- "Eve" -/
def eve : FunderText := ⟨[69, 118, 101], [], [], [], []⟩
/-- a moniker and an identity -/
def node : StakerText := ⟨[75], [], [48, 65, 102, 48, 48, 48, 48, 48, 48, 48, 48, 48, 48, 48, 48, 57], [], []⟩
/-- an identity that is too short -/
def odd : StakerText := ⟨[75], [], [48, 65], [], []⟩

/-- lower case for letters -/
def lower (t : Text) : Text := t.map (fun b => if 65 ≤ b ∧ b ≤ 90 then b + 32 else b)

/-- two funders and a staker -/
def ops : List Op :=
  [.createFunder 50 bob, .createFunder 51 eve, .other (.external (fun _ => Coins.single kyve 1000000) Coins.zero Coins.zero Coins.zero),
   .other (.createStaker 7 0 100), .updateMetadata 7 node, .updateFunder 51 bobby, .updateFunder 52 bob, .updateMetadata 7 odd]

/-- the start -/
def start : Registry := ⟨Verif.Chain.Sample.start, ∅⟩

/-- after the operations -/
def filled : Registry := ops.foldl (step coding 99) start

/-- the sanity conditions hold all along the run -/
def okOps : Registry → List Op → Bool
  | _, [] => true
  | r, op :: l => Delegation.dustOk (step coding 99 r op).chain.del.trace &&
      decide (Delegation.totalAll (step coding 99 r op).chain.del < 2 ^ 63) && okOps (step coding 99 r op) l

theorem ops_reachable {r : Registry} (h : Reachable coding 99 r) (l : List Op) (hl : ∀ op ∈ l, op.ok) (ho : okOps r l = true) :
    Reachable coding 99 (l.foldl (step coding 99) r) := by
  induction l generalizing r with
  | nil => exact h
  | cons op l ih =>
    simp only [okOps, Bool.and_eq_true, decide_eq_true_eq] at ho
    exact ih (.step op h (hl op (by simp)) ⟨Delegation.calm_of_dustOk ho.1.1, ho.1.2⟩)
      (fun o h => hl o (by simp [h])) ho.2

theorem reach_filled : Reachable coding 99 filled :=
  ops_reachable (.init _ _ _ _ _ (by decide) (by decide)) ops (by
    intro op h
    simp only [ops, List.mem_cons, List.not_mem_nil, or_false] at h
    rcases h with rfl | rfl | rfl | rfl | rfl | rfl | rfl | rfl <;> exact trivial) (by decide +kernel)

end Sample

example : LastSaid Sample.coding 99 (Op.words 51) Sample.bobby Sample.filled :=
  C112_funder Sample.reach_filled (by decide +kernel)
example : Sample.filled.funderText 51 = some Sample.bobby ∧ Sample.filled.funderText 50 = some Sample.bob ∧
    Sample.filled.funderText 52 = none ∧ Sample.filled.chain.stakerInfo 7 = some 75 := by decide +kernel
example : (fundersQuery Sample.lower Sample.filled [66, 79, 66] 1 false none).map (fun r => (r.1.map (·.address), r.2)) =
    some ([50], some 51) := by decide +kernel
example : (fundersQuery Sample.lower Sample.filled [98, 98] 10 false none).map (fun r => (r.1.map (·.address), r.2)) =
    some ([51], none) := by decide +kernel

end Registry
end Verif.Chain
