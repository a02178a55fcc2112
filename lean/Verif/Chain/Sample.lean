import Verif.Chain.Model

/-!
# A sample history

One pool, four stakers with equal delegation, and some rounds of bundles.  It provides the concrete cases for the
theorems about the chain.
-/

set_option linter.dupNamespace false
namespace Verif.Chain.Sample
open Verif
open Chain

/-- the authority -/
def gov : Addr := 99
/-- everybody has 5000000000 ukyve -/
def bank : Bank := fun a => match a with
  | .user _ => Coins.single kyve 5000000000
  | _ => Coins.zero
/-- the chain before the first block -/
def start : Chain := init .default .default .default bank 0
/-- a pool -/
def pool : Pool.CreateMsg :=
  { authority := gov, name := 1, runtime := 1, startKey := 1, endKey := 0, uploadInterval := 60
    inflationShareWeight := Dec.one, minDelegation := 100, maxBundleSize := 50, version := 1, binaries := 1
    binariesJson := true, storageProviderId := 1, compressionId := 1 }
/-- staker `a` joins the pool; its valaddress is `a + 10` -/
def joins (a : Addr) : Op := .join ⟨a, 0, a + 10, .user (a + 10), 1⟩
/-- the set-up -/
def setup : List Op :=
  [.createPool pool,
   .createStaker 1 100000000000000000 100, .createStaker 2 100000000000000000 100,
   .createStaker 3 100000000000000000 100, .createStaker 4 100000000000000000 100,
   joins 1, joins 2, joins 3, joins 4,
   .createFunder 50, .fund ⟨50, 0, Coins.single kyve 2000000000, Coins.single kyve 1000000⟩]
/-- a run -/
def run (c : Chain) (ops : List Op) : Chain := ops.foldl (fun c op => c.step gov op) c
/-- after the set-up -/
def ready : Chain := run start setup
/-- a bundle of ten items from index `i` with storage id `s` by staker `a` -/
def bundle (a : Addr) (s i : Nat) : SubmitMsg := ⟨a + 10, a, 0, s, 10, 1, i, 10, 5, 6, 7⟩
/-- the first bundle of staker 1 -/
def first : List Op := [.claim 11 1 0, .beginBlock 60 0 0 false, .submit (bundle 1 7 0)]
/-- staker `a` votes -/
def votes (a : Addr) (s : Nat) (v : Vote) : Op := .vote ⟨a + 10, a, 0, s, v⟩
/-- after the first bundle is proposed -/
def proposed : Chain := run ready first
/-- after two more valid votes -/
def voted : Chain := run proposed [votes 2 7 .valid, votes 3 7 .valid]

/-- a minute later -/
def later : Chain := run voted [.beginBlock 60 0 0 false]
/-- staker 1 proposes the next bundle, which finalizes the first -/
def second : Chain := run later [.submit (bundle 1 8 10)]

example : voted.runError 0 = none := by decide +kernel
example : (later.dist 0).status = .valid := by decide +kernel
example : (later.exec gov (.submit (bundle 1 8 10))).isOk = true := by decide +kernel
example : second.pool.pools.get? 0 |>.map (fun p => (p.totalBundles, p.currentIndex)) |> (· = some (1, 10)) := by
  decide +kernel
example : (second.bun.finalized.get? (0, 0)).map (fun f => (f.storageId, f.fromIndex, f.toIndex, f.uploader)) =
    some (7, 0, 10, some 1) := by decide +kernel
example : (second.b (.mod .treasury)).amt kyve = 10000 ∧ (second.b (.mod .funders)).amt kyve = 1999000000 := by
  decide +kernel

end Verif.Chain.Sample
