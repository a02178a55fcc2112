import Verif.App.Model
import Verif.Chain.Crash
import Mathlib.Algebra.BigOperators.Group.Finset.Piecewise

/-!
# The histories of the application, and what the protocol sees of them

Every history of the application is one of the protocol in which the other modules act from outside, and the books of
x/bank stay balanced.
-/

set_option linter.dupNamespace false
namespace Verif.App
open Verif
open Verif.Chain (Chain)
open scoped BigOperators

/-- the books are balanced: finitely many accounts hold coins, together the supply -/
def Books (b : Bank) (supply : Coins) : Prop :=
  ∃ T : Finset Acct, (∀ a, a ∉ T → b a = Coins.zero) ∧ ∀ d, ∑ a ∈ T, (b a).amt d = supply.amt d

namespace App

/-- every intermediate state of the messages meets the side conditions of `Chain.Reachable` -/
def SaneMsgs (gov : Addr) (a : App) (ms : List Msg) : Prop :=
  ∀ k a', a.execAll gov (ms.take k) = .ok a' → Chain.Sane a'.chain

/-- the side conditions of an operation: those of `Chain.Reachable`, and other modules keep the books -/
def Fair (gov : Addr) (a : App) : Op → Prop
  | .tx t => ∀ w, Global.deductFee a.gw t.fees none = .ok w → SaneMsgs gov (a.withGlobal w) t.msgs
  | .proposal ms => SaneMsgs gov a ms
  | .outside b s g gd gs gf gt => Books (a.outside b s g gd gs gf gt).chain.b s
  | _ => True

/-- the histories: an empty chain with any valid parameters and balanced books, then any operations -/
inductive History (gov : Addr) : App → List Op → App → Prop
  | init (dp : Delegation.Params) (sp : Stakers.Params) (bp : Bundles.Params) (gp : Global.Params) (b : Bank)
      (supply : Coins) (now : Nat) : dp.validate = true → bp.validate = true → gp.validate = true →
      Books (Chain.Chain.init dp sp bp b now).b supply →
      History gov (init dp sp bp gp b supply now) [] (init dp sp bp gp b supply now)
  | step {a0 a : App} {ops : List Op} (op : Op) : History gov a0 ops a → Fair gov a op → Chain.Sane (a.step gov op).chain →
      History gov a0 (ops ++ [op]) (a.step gov op)

/-- the states of the application -/
def Reachable (gov : Addr) (a : App) : Prop := ∃ a0 ops, History gov a0 ops a

/-! ## balances -/

theorem coins_sub_add {x y : Coins} (h : ∀ d, y.amt d ≤ x.amt d) : y.add (x.sub y) = x := by
  ext d
  have := h d
  rw [Coins.amt_add, Coins.amt_sub]
  omega

/-- nothing is taken from the three modules -/
def Safe (c : Chain) (b : Bank) : Prop :=
  ∀ m, m = .delegation ∨ m = .stakers ∨ m = .funders → ∀ d, (c.b (.mod m)).amt d ≤ (b (.mod m)).amt d

theorem setBank_b {c : Chain} {b : Bank} (h : Safe c b) : (setBank c b).b = b := by
  funext a
  show (if a = .mod .delegation then _ else _) = _
  split
  · rename_i e; subst e; exact coins_sub_add (h _ (Or.inl rfl))
  · split
    · rename_i e; subst e; exact coins_sub_add (h _ (Or.inr (Or.inl rfl)))
    · split
      · rename_i e; subst e; exact coins_sub_add (h _ (Or.inr (Or.inr rfl)))
      · rfl

theorem safe_send {c : Chain} {b : Bank} {s t : Acct} {x : Coins} (h : c.b.send s t x = .ok b)
    (hs : s ≠ .mod .delegation ∧ s ≠ .mod .stakers ∧ s ≠ .mod .funders) : Safe c b := by
  intro m hm d
  rw [(Bank.send_ok h).2, if_neg (by rcases hm with rfl | rfl | rfl; exacts [hs.1.symm, hs.2.1.symm, hs.2.2.symm])]
  omega

theorem Safe.refl (c : Chain) : Safe c c.b := fun _ _ _ => Nat.le_refl _

theorem setBank_step {gov : Addr} {c : Chain} (b : Bank) (hc : c.crashed = false) :
    c.step gov (.external b ((b (.mod .delegation)).sub (c.b (.mod .delegation)))
      ((b (.mod .stakers)).sub (c.b (.mod .stakers))) ((b (.mod .funders)).sub (c.b (.mod .funders)))) = setBank c b := by
  unfold Chain.Chain.step
  rw [if_neg (by rw [hc]; decide)]
  rfl

theorem setBank_crashed (c : Chain) (b : Bank) : (setBank c b).crashed = c.crashed := rfl

theorem reach_external {gov : Addr} {c : Chain} (h : Chain.Reachable gov c) (hc : c.crashed = false) (b : Bank)
    (gd gs gf : Coins) : Chain.Reachable gov (c.external b gd gs gf) := by
  have hs : Chain.Sane (c.step gov (.external b gd gs gf)) := by
    have := (Chain.Reachable.good h).sane
    unfold Chain.Chain.step
    rw [if_neg (by rw [hc]; decide)]
    exact ⟨this.calm, this.small⟩
  have := Chain.Reachable.step (.external b gd gs gf) h hs
  unfold Chain.Chain.step at this
  rw [if_neg (by rw [hc]; decide)] at this
  exact this

theorem reach_setBank {gov : Addr} {c : Chain} (h : Chain.Reachable gov c) (hc : c.crashed = false) (b : Bank) :
    Chain.Reachable gov (setBank c b) := reach_external h hc _ _ _ _

/-! ## the books -/

end App

theorem Books.move {b b' : Bank} {s : Coins} (h : Books b s) (hm : Conserved b b') : Books b' s := by
  obtain ⟨T, t1, t2⟩ := h
  obtain ⟨S, s1, s2⟩ := hm
  refine ⟨S ∪ T, fun a ha => ?_, fun d => ?_⟩
  · rw [Finset.mem_union, not_or] at ha
    rw [s1 a ha.1, t1 a ha.2]
  · rw [Conserved.widen (T := S ∪ T) Finset.subset_union_left s1 d (s2 d), ← t2 d]
    refine (Finset.sum_subset Finset.subset_union_right fun a _ ha => ?_).symm
    rw [t1 a ha]; rfl

/-- one balance and the supply grow by the same -/
theorem Books.grow {b : Bank} {s : Coins} (h : Books b s) (x : Acct) (c : Coins) :
    Books (b.upd x ((b x).add c)) (s.add c) := by
  obtain ⟨T, t1, t2⟩ := h
  refine ⟨insert x T, fun a ha => ?_, fun d => ?_⟩
  · rw [Finset.mem_insert, not_or] at ha
    show (if a = x then _ else _) = _
    rw [if_neg ha.1, t1 a ha.2]
  · have e : ∑ a ∈ insert x T, (b a).amt d = s.amt d := by
      rw [← t2 d]
      refine (Finset.sum_subset (Finset.subset_insert x T) fun a _ ha => ?_).symm
      rw [t1 a ha]; rfl
    have e2 : ∑ a ∈ insert x T, ((b.upd x ((b x).add c)) a).amt d =
        ∑ a ∈ insert x T, ((b a).amt d + if a = x then c.amt d else 0) := by
      refine Finset.sum_congr rfl fun a _ => ?_
      show (if a = x then _ else b a).amt d = _
      split
      · rename_i e; subst e; rw [Coins.amt_add]
      · rfl
    rw [e2, Finset.sum_add_distrib, e, Finset.sum_ite_eq', if_pos (Finset.mem_insert_self x T), Coins.amt_add]

/-- one balance and the supply shrink by the same -/
theorem Books.shrink {b : Bank} {s : Coins} (h : Books b s) (x : Acct) (c : Coins) (hc : ∀ d, c.amt d ≤ (b x).amt d) :
    Books (b.upd x ((b x).sub c)) (s.sub c) := by
  obtain ⟨T, t1, t2⟩ := h
  refine ⟨insert x T, fun a ha => ?_, fun d => ?_⟩
  · rw [Finset.mem_insert, not_or] at ha
    show (if a = x then _ else _) = _
    rw [if_neg ha.1, t1 a ha.2]
  · have e : ∑ a ∈ insert x T, (b a).amt d = s.amt d := by
      rw [← t2 d]
      refine (Finset.sum_subset (Finset.subset_insert x T) fun a _ ha => ?_).symm
      rw [t1 a ha]; rfl
    have e2 : ∑ a ∈ insert x T, (b a).amt d =
        ∑ a ∈ insert x T, (((b.upd x ((b x).sub c)) a).amt d + if a = x then c.amt d else 0) := by
      refine Finset.sum_congr rfl fun a _ => ?_
      show _ = (if a = x then _ else b a).amt d + _
      split
      · rename_i e; subst e; rw [Coins.amt_sub]
        have := hc d
        omega
      · rfl
    rw [e2, Finset.sum_add_distrib, Finset.sum_ite_eq', if_pos (Finset.mem_insert_self x T)] at e
    rw [Coins.amt_sub]
    omega

/-! ## what every step keeps -/

namespace App

/-- the invariant of the application: a reachable protocol that has not crashed, balanced books -/
structure Inv (gov : Addr) (a : App) : Prop where
  reach : Chain.Reachable gov a.chain
  up : a.chain.crashed = false
  books : Books a.chain.b a.supply

theorem Inv.withBank {gov : Addr} {a a' : App} (h : Inv gov a) {b : Bank} (hs : Safe a.chain b)
    (hb : Conserved a.chain.b b) (hc : a'.chain = setBank a.chain b) (he : a'.supply = a.supply) : Inv gov a' := by
  refine ⟨?_, ?_, ?_⟩
  · rw [hc]; exact reach_setBank h.reach h.up b
  · rw [hc]; exact h.up
  · rw [hc, he, setBank_b hs]
    exact Books.move h.books hb

/-! ## messages -/

theorem payOut_bank {w : Team.World} {r : Addr} {n : Nat} {b : Bank} (h : Team.payOut w r n = .ok b) :
    w.bank.send (.mod .team) (.user r) (Coins.single kyve n) = .ok b := by
  unfold Team.payOut at h
  split at h
  · exact h
  · cases h

/-- a message of x/team either leaves all balances, or pays a user from x/team's account -/
theorem team_bank {w w' : Team.World} {m : TeamMsg} (h : m.exec w = .ok w') :
    w'.now = w.now ∧ w'.halted = w.halted ∧
      (w'.bank = w.bank ∨ ∃ r n, w.bank.send (.mod .team) (.user r) (Coins.single kyve n) = .ok w'.bank) := by
  cases m with
  | create x t c =>
    have h : Team.create w x t c = .ok w' := h
    unfold Team.create at h
    split at h
    · cases h
    · split at h
      · cases h
      · split at h
        · cases h
        · cases h; exact ⟨rfl, rfl, Or.inl rfl⟩
  | claimUnlocked x i n r =>
    have h : Team.claimUnlocked w x i n r = .ok w' := h
    unfold Team.claimUnlocked at h
    split at h
    · cases h
    · split at h
      · cases h
      · split at h
        · cases h
        · split at h
          · cases h
          · rename_i b hb
            cases h; exact ⟨rfl, rfl, Or.inr ⟨r, n, payOut_bank hb⟩⟩
  | clawback x i c =>
    have h : Team.clawback w x i c = .ok w' := h
    unfold Team.clawback at h
    split at h
    · cases h
    · split at h
      · cases h
      · split at h
        · cases h
        · split at h
          · cases h
          · cases h; exact ⟨rfl, rfl, Or.inl rfl⟩
  | claimAccountRewards x i n r =>
    have h : Team.claimAccountRewards w x i n r = .ok w' := h
    unfold Team.claimAccountRewards at h
    split at h
    · cases h
    · split at h
      · cases h
      · split at h
        · cases h
        · split at h
          · cases h
          · rename_i b hb
            cases h; exact ⟨rfl, rfl, Or.inr ⟨r, n, payOut_bank hb⟩⟩
  | claimAuthorityRewards x n r =>
    have h : Team.claimAuthorityRewards w x n r = .ok w' := h
    unfold Team.claimAuthorityRewards at h
    split at h
    · cases h
    · split at h
      · cases h
      · split at h
        · cases h
        · rename_i b hb
          cases h; exact ⟨rfl, rfl, Or.inr ⟨r, n, payOut_bank hb⟩⟩

theorem safe_eq {c : Chain} {b : Bank} (h : b = c.b) : Safe c b := h ▸ Safe.refl c

theorem team_safe {a : App} {w : Team.World} {m : TeamMsg} (h : m.exec a.tw = .ok w) :
    Safe a.chain w.bank ∧ Conserved a.chain.b w.bank := by
  rcases (team_bank h).2.2 with e | ⟨r, n, e⟩
  · exact ⟨safe_eq e, Conserved.of_eq e⟩
  · exact ⟨safe_send e (by decide), Conserved.send e⟩

theorem updateParams_eq {gov s : Addr} {w w' : Global.World} {y : Global.Payload}
    (h : Global.updateParams gov w s y = .ok w') : w' = { w with params := y.apply w.params } := by
  unfold Global.updateParams at h
  split at h
  · cases h
  · split at h
    · cases h
    · cases h; rfl

theorem setBank_self (c : Chain) : setBank c c.b = c := by
  have e : ∀ x : Coins, x.add (x.sub x) = x := fun x => coins_sub_add (fun _ => Nat.le_refl _)
  have e' : ∀ x y : Coins, x.add (y.sub y) = x := fun x y => by
    ext d; rw [Coins.amt_add, Coins.amt_sub]; omega
  have hb := setBank_b (Safe.refl c)
  show ({ c with b := (setBank c c.b).b, del := _, st := _, fund := _ } : Chain) = c
  rw [hb]
  simp only [e']

theorem exec_protocol {gov : Addr} {a a' : App} {op : Chain.Chain.Op} (he : a.exec gov (.protocol op) = .ok a') :
    op.signer ≠ none ∧ ∃ c, Chain.Chain.exec gov a.chain op = .ok c ∧ a' = { a with chain := c } := by
  have he : (if op.signer.isNone then .error "not a message"
    else (Chain.Chain.exec gov a.chain op).map (fun c => ({ a with chain := c } : App))) = .ok a' := he
  split at he
  · cases he
  · rename_i hsig
    obtain ⟨c, hc, e⟩ := Chain.Chain.map_ok he
    exact ⟨fun e => hsig (by rw [e]; rfl), c, hc, e⟩

theorem exec_send {gov : Addr} {a a' : App} {s : Addr} {d : Acct} {c : Coins} (he : a.exec gov (.send s d c) = .ok a') :
    ∃ b, a.chain.b.send (.user s) d c = .ok b ∧ a' = { a with chain := setBank a.chain b } := by
  have he : (if blocked d || c.isZero then .error "not allowed"
    else (a.chain.b.send (.user s) d c).map (fun b => ({ a with chain := setBank a.chain b } : App))) = .ok a' := he
  split at he
  · cases he
  · exact Chain.Chain.map_ok he

theorem inner_of_signed {op : Chain.Chain.Op} (h : op.signer ≠ none) : op.inner = true := by
  cases op <;> first | rfl | exact absurd rfl h

/-- a successful message keeps the invariant -/
theorem Inv.exec {gov : Addr} {a a' : App} (h : Inv gov a) {m : Msg} (he : a.exec gov m = .ok a')
    (hs : Chain.Sane a'.chain) : Inv gov a' ∧ a'.supply = a.supply := by
  cases m with
  | protocol op =>
    obtain ⟨hsig, c, hc, rfl⟩ := exec_protocol he
    have ho := inner_of_signed hsig
    have e : a.chain.step gov op = c := by
      unfold Chain.Chain.step
      rw [if_neg (by rw [h.up]; decide), hc]; rfl
    have hcr := Chain.Chain.C90_messages gov a.chain h.reach op hsig
    refine ⟨⟨?_, ?_, ?_⟩, rfl⟩
    · rw [← e]
      exact Chain.Reachable.step op h.reach (by rw [e]; exact hs)
    · show c.crashed = false
      rw [← e, hcr]; exact h.up
    · exact Books.move h.books (Chain.Chain.C89_exec gov a.chain c h.reach op ho hc)
  | team m =>
    obtain ⟨w, hw, rfl⟩ := Chain.Chain.map_ok (show (m.exec a.tw).map a.withTeam = .ok a' from he)
    have := team_safe hw
    exact ⟨h.withBank this.1 this.2 rfl rfl, rfl⟩
  | global s y =>
    obtain ⟨w, hw, rfl⟩ := Chain.Chain.map_ok (show (Global.updateParams gov a.gw s y).map a.withGlobal = .ok a' from he)
    rw [updateParams_eq hw]
    exact ⟨h.withBank (Safe.refl _) (Conserved.refl _) rfl rfl, rfl⟩
  | send s d c =>
    obtain ⟨b, hb, rfl⟩ := exec_send he
    exact ⟨h.withBank (safe_send hb ⟨by rintro ⟨⟩, by rintro ⟨⟩, by rintro ⟨⟩⟩) (Conserved.send hb) rfl rfl, rfl⟩

theorem Inv.execAll {gov : Addr} {a a' : App} (h : Inv gov a) {ms : List Msg} (he : a.execAll gov ms = .ok a')
    (hs : SaneMsgs gov a ms) : Inv gov a' ∧ a'.supply = a.supply := by
  induction ms generalizing a with
  | nil => cases he; exact ⟨h, rfl⟩
  | cons m l ih =>
    unfold App.execAll at he
    split at he
    · cases he
    · rename_i a1 h1
      have hx : Chain.Sane a1.chain := hs 1 a1 (by
        show App.execAll gov a [m] = _
        unfold App.execAll; rw [h1]; rfl)
      obtain ⟨i1, e1⟩ := h.exec h1 hx
      obtain ⟨i2, e2⟩ := ih i1 he (fun k a2 hk => hs (k + 1) a2 (by
        show App.execAll gov a (m :: l.take k) = _
        unfold App.execAll; rw [h1]; exact hk))
      exact ⟨i2, e2.trans e1⟩

/-! ## fees -/

theorem feeAccount_eq {w w' : Global.World} {t : Global.Tx} {x : Addr} (h : Global.feeAccount w t = .ok (x, w')) :
    w' = { w with grants := w'.grants } ∧ x = t.granter.getD t.payer := by
  unfold Global.feeAccount at h
  split at h
  · rename_i hg
    cases h; exact ⟨rfl, by rw [hg]; rfl⟩
  · rename_i g hg
    split at h
    · rename_i e
      cases h; exact ⟨rfl, by rw [hg, e]; rfl⟩
    · split at h
      · cases h
      · cases h; exact ⟨rfl, by rw [hg]; rfl⟩

theorem deduct_eq {w w' : Global.World} {t : Global.Tx} {o : Option DecCoins} (h : Global.deductFee w t o = .ok w') :
    ∃ x, x = t.granter.getD t.payer ∧ w.bank.send (.user x) (.mod .feeCollector) t.fee = .ok w'.bank ∧
      w' = { w with bank := w'.bank, grants := w'.grants } := by
  unfold Global.deductFee at h
  split at h
  · cases h
  · split at h
    · cases h
    · rename_i fee hfee
      have hf : fee = t.fee := by
        split at hfee
        · unfold Global.checkFee at hfee
          simp only at hfee
          split at hfee
          · cases hfee
          · split at hfee
            · cases hfee
            · cases hfee; rfl
        · unfold Global.defaultCheck at hfee
          split at hfee
          · cases hfee; rfl
          · split at hfee
            · cases hfee
            · cases hfee; rfl
      split at h
      · cases h
      · rename_i aw ha
        obtain ⟨x, w1⟩ := aw
        obtain ⟨e1, e2⟩ := feeAccount_eq ha
        split at h
        · cases h
        · rename_i b hb
          cases h
          refine ⟨x, e2, ?_, ?_⟩
          · rw [← hf]
            have : w1.bank = w.bank := by rw [e1]
            rw [this] at hb
            exact hb
          · show ({ w1 with bank := b } : Global.World) = _
            rw [e1]

theorem refund_eq {w w' : Global.World} {t : Global.Tx} (h : Global.refundFee w t = .ok w') :
    (w' = w) ∨ ∃ x c, x = t.granter.getD t.payer ∧ (∀ d, c.amt d ≤ (w.bank (.mod .feeCollector)).amt d) ∧
      w.bank.send (.mod .feeCollector) (.user x) c = .ok w'.bank ∧
      w' = { w with bank := w'.bank, grants := w'.grants } := by
  unfold Global.refundFee at h
  split at h
  · cases h; exact Or.inl rfl
  · split at h
    · split at h
      · cases h; exact Or.inl rfl
      · split at h
        · cases h
        · rename_i aw ha
          obtain ⟨x, w1⟩ := aw
          obtain ⟨e1, e2⟩ := feeAccount_eq ha
          split at h
          · cases h
          · rename_i b hb
            cases h
            have e3 : w1.bank = w.bank := by rw [e1]
            rw [e3] at hb
            refine Or.inr ⟨x, _, e2, fun d => (Bank.send_ok hb).1 d, hb, ?_⟩
            show ({ w1 with bank := b } : Global.World) = _
            rw [e1]
    · cases h; exact Or.inl rfl

/-- after x/global moved coins between accounts other than those of x/delegation, x/stakers and x/funders -/
theorem Inv.global {gov : Addr} {a : App} (h : Inv gov a) {w : Global.World} (hs : Safe a.chain w.bank)
    (hm : Conserved a.chain.b w.bank) (he : w.supply = a.supply) : Inv gov (a.withGlobal w) :=
  h.withBank hs hm rfl he

theorem Inv.deduct {gov : Addr} {a : App} (h : Inv gov a) {t : Global.Tx} {w : Global.World} {o : Option DecCoins}
    (hd : Global.deductFee a.gw t o = .ok w) : Inv gov (a.withGlobal w) := by
  obtain ⟨x, -, hb, e⟩ := deduct_eq hd
  exact h.global (safe_send hb ⟨by rintro ⟨⟩, by rintro ⟨⟩, by rintro ⟨⟩⟩) (Conserved.send hb) (by rw [e]; rfl)

theorem Inv.refund {gov : Addr} {a : App} (h : Inv gov a) {t : Global.Tx} {w : Global.World}
    (hd : Global.refundFee a.gw t = .ok w) : Inv gov (a.withGlobal w) := by
  rcases refund_eq hd with e | ⟨x, c, -, -, hb, e⟩
  · rw [e]
    exact h.global (Safe.refl _) (Conserved.refl _) rfl
  · exact h.global (safe_send hb ⟨by rintro ⟨⟩, by rintro ⟨⟩, by rintro ⟨⟩⟩) (Conserved.send hb) (by rw [e]; rfl)

theorem Inv.runTx {gov : Addr} {a : App} (h : Inv gov a) {t : Tx} (hf : Fair gov a (.tx t)) : Inv gov (a.runTx gov t) := by
  unfold App.runTx
  split
  · exact h
  · split
    · exact h
    · split
      · exact h
      · rename_i w1 h1
        have i1 := h.deduct h1
        split
        · exact i1
        · rename_i a2 h2
          have i2 := (i1.execAll h2 (hf w1 h1)).1
          split
          · exact i1
          · rename_i w3 h3
            exact i2.refund h3

/-! ## blocks -/

theorem mint_b (a : App) (p : Nat) : (a.mint p).chain.b =
    a.chain.b.upd (.mod .feeCollector) ((a.chain.b (.mod .feeCollector)).add (Coins.single kyve p)) := by
  refine setBank_b fun m hm d => ?_
  show _ ≤ (if (Acct.mod m) = .mod .feeCollector then _ else _ : Coins).amt d
  rw [if_neg (by rcases hm with rfl | rfl | rfl <;> decide)]

theorem Inv.mint {gov : Addr} {a : App} (h : Inv gov a) (p : Nat) : Inv gov (a.mint p) :=
  ⟨reach_setBank h.reach h.up _, h.up, by
    rw [mint_b]
    exact Books.grow h.books (.mod .feeCollector) (Coins.single kyve p)⟩

theorem teamBlock_send (a : App) (dt p : Nat) : ∃ n,
    (Team.distribute (a.twAt dt) p (a.supply.amt kyve)).bank =
      a.chain.b.orKeep (a.chain.b.send (.mod .feeCollector) (.mod .team) (Coins.single kyve n)) := ⟨_, rfl⟩

theorem safe_orKeep {c : Chain} {s t : Acct} {x : Coins}
    (hs : s ≠ .mod .delegation ∧ s ≠ .mod .stakers ∧ s ≠ .mod .funders) : Safe c (c.b.orKeep (c.b.send s t x)) := by
  cases h : c.b.send s t x with
  | error e => exact Safe.refl c
  | ok b => exact safe_send h hs

theorem Inv.teamBlock {gov : Addr} {a : App} (h : Inv gov a) (dt p : Nat) : Inv gov (a.teamBlock dt p) := by
  obtain ⟨n, e⟩ := teamBlock_send a dt p
  refine h.withBank (b := (Team.distribute (a.twAt dt) p (a.supply.amt kyve)).bank) ?_ ?_ rfl rfl
  · rw [e]; exact safe_orKeep (by decide)
  · rw [e]; exact Conserved.orKeep

/-- what is left if a crash is allowed -/
structure Inv' (gov : Addr) (a : App) : Prop where
  reach : Chain.Reachable gov a.chain
  books : Books a.chain.b a.supply

theorem Inv.weak {gov : Addr} {a : App} (h : Inv gov a) : Inv' gov a := ⟨h.reach, h.books⟩

theorem chain_step {gov : Addr} {c c' : Chain} (h : Chain.Reachable gov c) (hc : c.crashed = false) {op : Chain.Chain.Op}
    (he : Chain.Chain.exec gov c op = .ok c') (hs : Chain.Sane c') : Chain.Reachable gov c' := by
  have e : c.step gov op = c' := by
    unfold Chain.Chain.step
    rw [if_neg (by rw [hc]; decide), he]; rfl
  rw [← e]
  exact Chain.Reachable.step op h (by rw [e]; exact hs)

theorem Inv.chainBlock {gov : Addr} {a a' : App} (h : Inv gov a) (op : Chain.Chain.Op) (ho : op.inner = true)
    (he : Chain.Chain.exec gov a.chain op = .ok a'.chain) (hs : Chain.Sane a'.chain) (hk : a'.supply = a.supply) :
    Inv' gov a' :=
  ⟨chain_step h.reach h.up he hs, by rw [hk]; exact Books.move h.books (Chain.Chain.C89_exec gov _ _ h.reach _ ho he)⟩

theorem exec_begin (gov : Addr) (c : Chain) (dt p t : Nat) (r : Bool) :
    Chain.Chain.exec gov c (.beginBlock dt p t r) = .ok (c.beginBlock dt p t r) := by rw [Chain.Chain.exec]

theorem protocolBlock_chain (a : App) (dt p : Nat) (r : Bool) : (a.protocolBlock dt p r).chain =
    a.chain.beginBlock dt p (Team.blockProvision a.team p (a.supply.amt kyve)).1 r := by rw [App.protocolBlock]

theorem Inv.protocolBlock {gov : Addr} {a : App} (h : Inv gov a) (dt p : Nat) (r : Bool)
    (hs : Chain.Sane (a.protocolBlock dt p r).chain) : Inv' gov (a.protocolBlock dt p r) := by
  have he := exec_begin gov a.chain dt p (Team.blockProvision a.team p (a.supply.amt kyve)).1 r
  rw [← protocolBlock_chain] at he
  exact h.chainBlock _ rfl he hs (by rw [App.protocolBlock])

theorem Inv.beginBlock {gov : Addr} {a : App} (h : Inv gov a) (dt p : Nat) (r : Bool)
    (hs : Chain.Sane (a.beginBlock dt p r).chain) : Inv' gov (a.beginBlock dt p r) :=
  ((h.mint p).teamBlock dt p).protocolBlock dt p r hs

theorem burn_eq {w w' : Global.World} {m : Mod} {c : Coins} (h : Global.burn w m c = .ok w') :
    (∀ d, c.amt d ≤ (w.bank (.mod m)).amt d) ∧
      w' = { w with bank := w.bank.upd (.mod m) ((w.bank (.mod m)).sub c), supply := w.supply.sub c } := by
  unfold Global.burn at h
  split at h
  · rename_i hc
    cases h
    exact ⟨Coins.le_iff.1 hc, rfl⟩
  · cases h

theorem burnt (w : Global.World) : (Global.endBlock w = w) ∨ (Global.endBlock w = { w with halted := true }) ∨
    ∃ c : Coins, (∀ d, c.amt d ≤ (w.bank (.mod .feeCollector)).amt d) ∧
      c = Global.burnAmount (w.bank (.mod .feeCollector)) w.params.burnRatio ∧
      Global.endBlock w =
        { w with bank := w.bank.upd (.mod .feeCollector) ((w.bank (.mod .feeCollector)).sub c), supply := w.supply.sub c } := by
  unfold Global.endBlock
  split
  · exact Or.inl rfl
  · split
    · exact Or.inl rfl
    · split
      · exact Or.inl rfl
      · split
        · exact Or.inr (Or.inl rfl)
        · rename_i w' hw
          obtain ⟨h1, h2⟩ := burn_eq hw
          exact Or.inr (Or.inr ⟨_, h1, rfl, h2⟩)

theorem Inv.endBlock {gov : Addr} {a : App} (h : Inv gov a) (hs : Chain.Sane a.endBlock.chain) : Inv' gov a.endBlock := by
  have he : Chain.Chain.exec gov a.chain .endBlock = .ok a.chain.endBlock := rfl
  have hb : Books a.chain.endBlock.b a.supply :=
    Books.move h.books (Chain.Chain.C89_exec gov _ _ h.reach _ rfl he)
  unfold App.endBlock at hs ⊢
  split at hs
  · rename_i hc
    rw [if_pos hc]
    exact ⟨chain_step h.reach h.up he hs, hb⟩
  · rename_i hc
    rw [if_neg hc]
    have hc' : a.chain.endBlock.crashed = false := by simpa using hc
    have hr : Chain.Reachable gov a.chain.endBlock := chain_step h.reach h.up he ⟨hs.calm, hs.small⟩
    have i1 : Inv gov ({ a with chain := a.chain.endBlock } : App) := ⟨hr, hc', hb⟩
    rcases burnt ({ a with chain := a.chain.endBlock } : App).gw with e | e | ⟨c, h1, -, e⟩
    · rw [e]; exact (i1.global (Safe.refl _) (Conserved.refl _) rfl).weak
    · rw [e]; exact (i1.global (Safe.refl _) (Conserved.refl _) rfl).weak
    · rw [e]
      refine ⟨reach_setBank hr hc' _, ?_⟩
      show Books (setBank a.chain.endBlock _).b _
      rw [setBank_b]
      · exact Books.shrink hb (.mod .feeCollector) c h1
      · intro m hm d
        show _ ≤ (if (Acct.mod m) = .mod .feeCollector then _ else _ : Coins).amt d
        rw [if_neg (by rcases hm with rfl | rfl | rfl <;> decide)]
        exact Nat.le_refl _

theorem Inv.outside {gov : Addr} {a : App} (h : Inv gov a) (b : Bank) (s : Coins) (g : Map (Addr × Addr) Coins)
    (gd gs gf gt : Coins) (hf : Fair gov a (.outside b s g gd gs gf gt)) : Inv' gov (a.outside b s g gd gs gf gt) :=
  ⟨reach_external h.reach h.up _ _ _ _, hf⟩

theorem Inv.step {gov : Addr} {a : App} (h : Inv' gov a) {op : Op} (hf : Fair gov a op)
    (hs : Chain.Sane (a.step gov op).chain) : Inv' gov (a.step gov op) := by
  unfold App.step at hs ⊢
  split at hs
  · rename_i hc
    rw [if_pos hc]; exact h
  · rename_i hc
    rw [if_neg hc]
    have hi : Inv gov a := ⟨h.reach, by simpa using hc, h.books⟩
    cases op with
    | tx t => exact (hi.runTx hf).weak
    | proposal ms =>
      show Inv' gov (a.proposal gov ms)
      unfold App.proposal
      split
      · exact h
      · split
        · exact h
        · rename_i a' ha
          exact (hi.execAll ha hf).1.weak
    | beginBlock dt p r => exact hi.beginBlock dt p r hs
    | endBlock => exact hi.endBlock hs
    | outside b s g gd gs gf gt => exact hi.outside b s g gd gs gf gt hf

theorem History.inv {gov : Addr} {ops : List Op} {a0 a : App} (h : History gov a0 ops a) : Inv' gov a := by
  induction h with
  | init dp sp bp gp b supply now hd hb hg hk => exact ⟨Chain.Reachable.init dp sp bp b now hd hb, hk⟩
  | step op _ hf hs ih => exact Inv.step ih hf hs

theorem Reachable.inv {gov : Addr} {a : App} (h : Reachable gov a) : Inv' gov a := h.elim fun _ h => h.elim fun _ h => h.inv

end App
end Verif.App
