import Verif.App.Project
import Verif.Global.Properties

/-!
# Whose coins the application moves

C92 (accounts), C94 (coins of a user), C96 (transactions) for the whole application: several messages in one transaction,
fees, refunds, x/team, governance, wrapped messages.
-/

set_option linter.dupNamespace false
namespace Verif.App
open Verif
open Verif.Chain (Chain)

/-! ## specification -/

namespace Spec

/-- the accounts a message may take coins from: the signer; for the messages of the protocol also the accounts of
x/delegation, x/stakers, x/funders, x/pool and of the pools; for the messages of x/team its account -/
def MayPay (m : Msg) : Acct → Prop
  | .user u => m.signer = some u
  | .pool _ => ∃ op, m = .protocol op
  | .mod .delegation => ∃ op, m = .protocol op
  | .mod .stakers => ∃ op, m = .protocol op
  | .mod .funders => ∃ op, m = .protocol op
  | .mod .pool => ∃ op, m = .protocol op
  | .mod .team => ∃ t, m = .team t
  | .mod _ => False

/-- the account that pays the fee -/
def feePayer (t : Tx) : Addr := t.granter.getD t.payer

/-- what the messages together ask a user to pay -/
def asked (ms : List Msg) (u : Addr) (d : Denom) : Nat :=
  (ms.map fun m => if m.signer = some u then m.spends.amt d else 0).sum

/-- a user took part in a transaction: it signed it, or it allowed a signer to use a message in its name -/
def TookPart (t : Tx) (u : Addr) : Prop := u ∈ t.signers ∨ ∃ g ∈ t.signers, (u, g) ∈ t.authorized

/-- nothing differs but the balances of `x` and the fee collector, and the fee allowances -/
def OnlyFee (x : Addr) (a a' : App) : Prop :=
  a' = { a with chain := { a.chain with b := a'.chain.b }, grants := a'.grants } ∧
    ∀ y, y ≠ .user x → y ≠ .mod .feeCollector → a'.chain.b y = a.chain.b y

end Spec

open Spec

namespace App

/-! ## messages -/

theorem setBank_eq {c : Chain} {b : Bank} (h : ∀ m, m = .delegation ∨ m = .stakers ∨ m = .funders → b (.mod m) = c.b (.mod m)) :
    setBank c b = { c with b := b } := by
  have e : ∀ x : Coins, x.add (x.sub x) = x := fun x => coins_sub_add (fun _ => Nat.le_refl _)
  have e' : ∀ x y : Coins, x.add (y.sub y) = x := fun x y => by
    ext d; rw [Coins.amt_add, Coins.amt_sub]; omega
  have hb : (setBank c b).b = b := setBank_b fun m hm d => by rw [h m hm]
  show ({ c with b := (setBank c b).b, del := _, st := _, fund := _ } : Chain) = _
  rw [hb, h _ (Or.inl rfl), h _ (Or.inr (Or.inl rfl)), h _ (Or.inr (Or.inr rfl))]
  simp only [e']

theorem withTeam_b {a : App} {w : Team.World} (h : Safe a.chain w.bank) : (a.withTeam w).chain.b = w.bank := setBank_b h

theorem withGlobal_b {a : App} {w : Global.World} (h : Safe a.chain w.bank) : (a.withGlobal w).chain.b = w.bank := setBank_b h

theorem exec_global {gov : Addr} {a a' : App} {s : Addr} {y : Global.Payload} (he : a.exec gov (.global s y) = .ok a') :
    s = gov ∧ a' = { a with params := a'.params } ∧ (a.params.validate = true → a'.params.validate = true) := by
  obtain ⟨w, hw, rfl⟩ := Chain.Chain.map_ok (show (Global.updateParams gov a.gw s y).map a.withGlobal = .ok a' from he)
  have hs : s = gov := by
    unfold Global.updateParams at hw
    split at hw
    · cases hw
    · split at hw
      · cases hw
      · rename_i h; exact not_not.1 h
  have hv := fun h => Global.C47_params_stay_valid gov a.gw w s y h hw
  rw [updateParams_eq hw] at hv ⊢
  refine ⟨hs, ?_, hv⟩
  show (⟨setBank a.chain a.chain.b, _, _, _, _, _, _, _⟩ : App) = _
  rw [setBank_self]
  rfl

/-- a successful message only takes coins from the accounts it may take them from -/
theorem exec_spends {gov : Addr} {a a' : App} (h : Inv gov a) {m : Msg} (he : a.exec gov m = .ok a') :
    OnlySpends (MayPay m) a.chain.b a'.chain.b := by
  cases m with
  | protocol op =>
    obtain ⟨hsig, c, hc, rfl⟩ := exec_protocol he
    refine (Chain.Chain.spend_exec gov a.chain c h.reach op (inner_of_signed hsig) hc).mono fun x hx => ?_
    cases x with
    | user u => exact hx
    | pool i => exact ⟨op, rfl⟩
    | mod m =>
      have hb : op.begins = false := by cases op <;> first | rfl | exact absurd rfl hsig
      rw [hb] at hx
      cases m <;> first | exact ⟨op, rfl⟩ | exact hx | cases hx
  | team t =>
    obtain ⟨w, hw, rfl⟩ := Chain.Chain.map_ok (show (t.exec a.tw).map a.withTeam = .ok a' from he)
    rw [withTeam_b (team_safe hw).1]
    rcases (team_bank hw).2.2 with e | ⟨r, n, e⟩
    · exact OnlySpends.of_eq e
    · exact OnlySpends.send e ⟨t, rfl⟩
  | global s y =>
    obtain ⟨-, e, -⟩ := exec_global he
    rw [e]; exact OnlySpends.refl _ _
  | send s d c =>
    obtain ⟨b, hb, rfl⟩ := exec_send he
    have e : (setBank a.chain b).b = b := setBank_b (safe_send hb ⟨by rintro ⟨⟩, by rintro ⟨⟩, by rintro ⟨⟩⟩)
    show OnlySpends _ a.chain.b (setBank a.chain b).b
    rw [e]
    exact OnlySpends.send hb rfl

theorem exec_signed {gov : Addr} {a a' : App} {m : Msg} (he : a.exec gov m = .ok a') : m.signer ≠ none := by
  cases m with
  | protocol op => exact (exec_protocol he).1
  | _ => exact fun h => by cases h

/-- a successful message takes from a user what it asks its signer for -/
theorem exec_lost {gov : Addr} {a a' : App} (h : Inv gov a) {m : Msg} (he : a.exec gov m = .ok a') (u : Addr) :
    Chain.Chain.Lost u (Chain.Chain.due m.signer u m.spends) a.chain.b a'.chain.b := by
  cases m with
  | protocol op =>
    obtain ⟨hsig, c, hc, rfl⟩ := exec_protocol he
    exact Chain.Chain.C81_exec gov a.chain c h.reach op (inner_of_signed hsig) hc u
  | team t =>
    refine Chain.Chain.Lost.weak fun d => ?_
    obtain ⟨w, hw, rfl⟩ := Chain.Chain.map_ok (show (t.exec a.tw).map a.withTeam = .ok a' from he)
    rw [withTeam_b (team_safe hw).1]
    rcases (team_bank hw).2.2 with e | ⟨r, n, e⟩
    · rw [e]; exact Nat.le_add_right _ _
    · exact Chain.Chain.lost_mod e (by rintro u ⟨⟩) d
  | global s y =>
    obtain ⟨-, e, -⟩ := exec_global he
    rw [e]; exact Chain.Chain.Lost.of_eq rfl
  | send s d c =>
    obtain ⟨b, hb, rfl⟩ := exec_send he
    have e : (setBank a.chain b).b = b := setBank_b (safe_send hb ⟨by rintro ⟨⟩, by rintro ⟨⟩, by rintro ⟨⟩⟩)
    show Chain.Chain.Lost _ _ a.chain.b (setBank a.chain b).b
    rw [e]
    exact Chain.Chain.lost_send hb

/-- a message leaves the height, and only x/global's changes the parameters, to valid ones -/
theorem exec_params {gov : Addr} {a a' : App} {m : Msg} (he : a.exec gov m = .ok a') :
    a'.height = a.height ∧ a'.globalHalted = a.globalHalted ∧ (a.params.validate = true → a'.params.validate = true) := by
  cases m with
  | protocol op =>
    obtain ⟨-, c, -, rfl⟩ := exec_protocol he
    exact ⟨rfl, rfl, id⟩
  | team t =>
    obtain ⟨w, hw, rfl⟩ := Chain.Chain.map_ok (show (t.exec a.tw).map a.withTeam = .ok a' from he)
    exact ⟨rfl, rfl, id⟩
  | global s y =>
    obtain ⟨-, e, hv⟩ := exec_global he
    exact ⟨by rw [e], by rw [e], hv⟩
  | send s d c =>
    obtain ⟨b, hb, rfl⟩ := exec_send he
    exact ⟨rfl, rfl, id⟩

theorem execAll_params {gov : Addr} {a a' : App} {ms : List Msg} (he : a.execAll gov ms = .ok a') :
    a'.height = a.height ∧ a'.globalHalted = a.globalHalted ∧ (a.params.validate = true → a'.params.validate = true) := by
  induction ms generalizing a with
  | nil => cases he; exact ⟨rfl, rfl, id⟩
  | cons m l ih =>
    unfold App.execAll at he
    split at he
    · cases he
    · rename_i a1 h1
      obtain ⟨e1, e2, e3⟩ := exec_params h1
      obtain ⟨f1, f2, f3⟩ := ih he
      exact ⟨f1.trans e1, f2.trans e2, f3 ∘ e3⟩

theorem saneMsgs_tail {gov : Addr} {a a1 : App} {m : Msg} {l : List Msg} (h : SaneMsgs gov a (m :: l))
    (h1 : a.exec gov m = .ok a1) : Chain.Sane a1.chain ∧ SaneMsgs gov a1 l :=
  ⟨h 1 a1 (by
    show App.execAll gov a [m] = _
    unfold App.execAll; rw [h1]; rfl), fun k a2 hk => h (k + 1) a2 (by
    show App.execAll gov a (m :: l.take k) = _
    unfold App.execAll; rw [h1]; exact hk)⟩

theorem execAll_spends {gov : Addr} {a a' : App} (h : Inv gov a) {ms : List Msg} (he : a.execAll gov ms = .ok a')
    (hs : SaneMsgs gov a ms) : OnlySpends (fun x => ∃ m ∈ ms, MayPay m x) a.chain.b a'.chain.b := by
  induction ms generalizing a with
  | nil => cases he; exact OnlySpends.refl _ _
  | cons m l ih =>
    unfold App.execAll at he
    split at he
    · cases he
    · rename_i a1 h1
      obtain ⟨s1, s2⟩ := saneMsgs_tail hs h1
      refine OnlySpends.trans ((exec_spends h h1).mono fun x hx => ⟨m, List.mem_cons_self .., hx⟩)
        ((ih (h.exec h1 s1).1 he s2).mono ?_)
      rintro x ⟨m', hm, hx⟩
      exact ⟨m', List.mem_cons_of_mem _ hm, hx⟩

theorem execAll_lost {gov : Addr} {a a' : App} (h : Inv gov a) {ms : List Msg} (he : a.execAll gov ms = .ok a')
    (hs : SaneMsgs gov a ms) (u : Addr) (d : Denom) :
    (a.chain.b (.user u)).amt d ≤ (a'.chain.b (.user u)).amt d + asked ms u d := by
  induction ms generalizing a with
  | nil => cases he; exact Nat.le_add_right _ _
  | cons m l ih =>
    unfold App.execAll at he
    split at he
    · cases he
    · rename_i a1 h1
      obtain ⟨s1, s2⟩ := saneMsgs_tail hs h1
      have e1 := exec_lost h h1 u d
      have e2 := ih (h.exec h1 s1).1 he s2
      have e3 : asked (m :: l) u d = (if m.signer = some u then m.spends.amt d else 0) + asked l u d := by
        unfold asked; rw [List.map_cons, List.sum_cons]
      have e4 : (Chain.Chain.due m.signer u m.spends).amt d = if m.signer = some u then m.spends.amt d else 0 := by
        unfold Chain.Chain.due; split <;> rfl
      rw [e4] at e1
      omega

/-! ## fees -/

theorem feePayer_eq {w w' : Global.World} {t : Tx} {x : Addr} (h : Global.feeAccount w t.fees = .ok (x, w')) :
    x = feePayer t := (Global.feeAccount_ok h).1

/-- after the fee -/
theorem deduct_fee {a : App} {t : Tx} {w : Global.World} {o : Option DecCoins} (h : Global.deductFee a.gw t.fees o = .ok w) :
    a.chain.b.send (.user (feePayer t)) (.mod .feeCollector) t.fee = .ok w.bank ∧
      OnlyFee (feePayer t) a (a.withGlobal w) ∧ (a.withGlobal w).chain.b = w.bank := by
  obtain ⟨x, rfl, hx, e⟩ := deduct_eq h
  have hx : a.chain.b.send (.user (feePayer t)) (.mod .feeCollector) t.fee = .ok w.bank := hx
  have hk : ∀ m : Mod, m ≠ .feeCollector → w.bank (.mod m) = a.chain.b (.mod m) := fun m hm => by
    ext d
    rw [(Bank.send_ok hx).2, if_neg (by rintro ⟨⟩), if_neg (by rintro ⟨⟩; exact hm rfl)]
    simp
  refine ⟨hx, ⟨?_, ?_⟩, ?_⟩
  · have es : setBank a.chain w.bank = { a.chain with b := w.bank } :=
      setBank_eq fun m hm => hk m (by rcases hm with rfl | rfl | rfl <;> decide)
    show (⟨setBank a.chain w.bank, a.team, w.supply, w.grants, w.params, a.height, a.teamHalted, w.halted⟩ : App) = _
    rw [es, e]
    show _ = (⟨{ a.chain with b := (setBank a.chain w.bank).b }, _, _, _, _, _, _, _⟩ : App)
    rw [es]
    rfl
  · intro y hy1 hy2
    show (setBank a.chain w.bank).b y = _
    rw [setBank_b (safe_send hx ⟨by rintro ⟨⟩, by rintro ⟨⟩, by rintro ⟨⟩⟩)]
    ext d
    rw [(Bank.send_ok hx).2, if_neg hy1, if_neg hy2]
    simp
  · exact withGlobal_b (safe_send hx ⟨by rintro ⟨⟩, by rintro ⟨⟩, by rintro ⟨⟩⟩)

/-- after the refund: the fee collector gives the payer at most the fee -/
theorem refund_fee {a : App} {t : Tx} {w : Global.World} (h : Global.refundFee a.gw t.fees = .ok w) :
    (w = a.gw ∨ ∃ c, a.chain.b.send (.mod .feeCollector) (.user (feePayer t)) c = .ok w.bank ∧
      (a.params.validate = true → ∀ d, c.amt d ≤ t.fee.amt d)) ∧
      OnlyFee (feePayer t) a (a.withGlobal w) ∧ (a.withGlobal w).chain.b = w.bank := by
  have hmain : w = a.gw ∨ ∃ c, a.chain.b.send (.mod .feeCollector) (.user (feePayer t)) c = .ok w.bank ∧
      (a.params.validate = true → ∀ d, c.amt d ≤ t.fee.amt d) ∧
      w = { a.gw with bank := w.bank, grants := w.grants } := by
    unfold Global.refundFee at h
    split at h
    · cases h; exact Or.inl rfl
    · split at h
      · rename_i m hm
        split at h
        · cases h; exact Or.inl rfl
        · split at h
          · cases h
          · rename_i aw ha
            obtain ⟨z, w1⟩ := aw
            have hz := feePayer_eq ha
            obtain ⟨e1, -⟩ := feeAccount_eq ha
            have e3 : w1.bank = a.chain.b := (Global.feeAccount_ok ha).2.1
            split at h
            · cases h
            · rename_i b hb
              cases h
              rw [e3] at hb
              refine Or.inr ⟨_, by rw [← hz]; exact hb, fun hv d => ?_, by rw [e1]⟩
              rw [Global.refundOf_amt]
              exact Global.share_le (by rw [Global.refundFraction_eq]; exact Global.refundShare_le hv m)
      · cases h; exact Or.inl rfl
  rcases hmain with rfl | ⟨c, hc, hv, e⟩
  · refine ⟨Or.inl rfl, ⟨?_, fun y _ _ => ?_⟩, withGlobal_b (Safe.refl _)⟩
    · show (⟨setBank a.chain a.chain.b, _, _, _, _, _, _, _⟩ : App) =
        ⟨{ a.chain with b := (setBank a.chain a.chain.b).b }, _, _, _, _, _, _, _⟩
      rw [setBank_self]; rfl
    · show (setBank a.chain a.chain.b).b y = _
      rw [setBank_self]
  · have hk : ∀ m : Mod, m ≠ .feeCollector → w.bank (.mod m) = a.chain.b (.mod m) := fun m hm => by
      ext d
      rw [(Bank.send_ok hc).2, if_neg (by rintro ⟨⟩; exact hm rfl), if_neg (by rintro ⟨⟩)]
      simp
    refine ⟨Or.inr ⟨c, hc, hv⟩, ⟨?_, ?_⟩, ?_⟩
    · have es : setBank a.chain w.bank = { a.chain with b := w.bank } :=
        setBank_eq fun m hm => hk m (by rcases hm with rfl | rfl | rfl <;> decide)
      show (⟨setBank a.chain w.bank, a.team, w.supply, w.grants, w.params, a.height, a.teamHalted, w.halted⟩ : App) = _
      rw [es, e]
      show _ = (⟨{ a.chain with b := (setBank a.chain w.bank).b }, _, _, _, _, _, _, _⟩ : App)
      rw [es]
      rfl
    · intro y hy1 hy2
      show (setBank a.chain w.bank).b y = _
      rw [setBank_b (safe_send hc ⟨by rintro ⟨⟩, by rintro ⟨⟩, by rintro ⟨⟩⟩)]
      ext d
      rw [(Bank.send_ok hc).2, if_neg hy2, if_neg hy1]
      simp
    · exact withGlobal_b (safe_send hc ⟨by rintro ⟨⟩, by rintro ⟨⟩, by rintro ⟨⟩⟩)

/-! ## the parameters of x/global stay valid -/

theorem onlyFee_params {x : Addr} {a a' : App} (h : OnlyFee x a a') : a'.params = a.params ∧ a'.height = a.height ∧
    a'.globalHalted = a.globalHalted ∧ a'.supply = a.supply := by
  have e := h.1
  exact ⟨by rw [e], by rw [e], by rw [e], by rw [e]⟩

/-- the three outcomes of a transaction -/
theorem runTx_cases (gov : Addr) (a : App) (t : Tx) :
    (a.runTx gov t = a) ∨ (t.signed = true ∧ ∃ w1, Global.deductFee a.gw t.fees none = .ok w1 ∧
      (a.runTx gov t = a.withGlobal w1 ∨ ∃ a2 w3, (a.withGlobal w1).execAll gov t.msgs = .ok a2 ∧
        Global.refundFee a2.gw t.fees = .ok w3 ∧ a.runTx gov t = a2.withGlobal w3)) := by
  unfold App.runTx
  split
  · exact Or.inl rfl
  · rename_i hs
    split
    · exact Or.inl rfl
    · split
      · exact Or.inl rfl
      · rename_i w1 h1
        refine Or.inr ⟨by simpa using hs, w1, h1, ?_⟩
        split
        · exact Or.inl rfl
        · rename_i a2 h2
          split
          · exact Or.inl rfl
          · rename_i w3 h3
            exact Or.inr ⟨a2, w3, h2, h3, rfl⟩

theorem runTx_params {gov : Addr} {a : App} {t : Tx} : (a.runTx gov t).height = a.height ∧
    (a.runTx gov t).globalHalted = a.globalHalted ∧
    (a.params.validate = true → (a.runTx gov t).params.validate = true) := by
  rcases runTx_cases gov a t with e | ⟨-, w1, h1, h⟩
  · rw [e]; exact ⟨rfl, rfl, id⟩
  · obtain ⟨p1, p2, p3, -⟩ := onlyFee_params (deduct_fee h1).2.1
    rcases h with e | ⟨a2, w3, h2, h3, e⟩
    · rw [e, p1]; exact ⟨p2, p3, id⟩
    · obtain ⟨q1, q2, q3⟩ := execAll_params h2
      obtain ⟨r1, r2, r3, -⟩ := onlyFee_params (refund_fee h3).2.1
      rw [e, r1, r2, r3, q1, q2, p2, p3]
      rw [p1] at q3
      exact ⟨rfl, rfl, q3⟩

end App
end Verif.App
