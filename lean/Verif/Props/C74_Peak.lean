import Verif.Props.C37_FullCase
import Verif.Props.C74_Layout
/-!
C74: the number of nodes ever in use is needed in `SameView`.  Two histories lead to the same 512 bids and the same everything else, but
in one of them a 512th order was for a while in the tree of fixed orders, which needed one node more.  That side counts as full, the
other one does not.
-/
namespace OB
open OB.Spec

namespace PeakCase
open Scenario

/-- 511 bids of 22 accounts, and a deposit for the next orders of the last account. -/
def common : List Op := fillOps 22 511 ++ [.deposit 31 221 51 61 1000 0 1000000]

/-- A bid that rests and is cancelled again. -/
def rests : PlaceOrderArgs := limitOrder .bid 50 1 900
def cancels : Op := .cancelByClientId 31 221 900
/-- The same bid as immediate-or-cancel: it finds nothing to buy. -/
def passes : PlaceOrderArgs := { limitOrder .bid 50 1 900 with orderType := .immediateOrCancel }
/-- Then a pegged bid ... -/
def peg : PlaceOrderPeggedArgs := PlaceOrderPeggedArgs.mk .bid (-5) 1000 1 100000 901 .limit 0 .decrementTake 10 false
/-- ... and a bid below all others. -/
def last : Op := .placeOrder (fillCtx 21) (limitOrder .bid 60 1 902)

def alike (s t : State) : Bool :=
  decide (t.g.market = s.g.market ∧ t.g.accts = s.g.accts ∧ t.g.heap.events = s.g.heap.events ∧ t.book.resting = s.book.resting ∧
    s.tokens 61 = t.tokens 61 ∧ s.tokens 20 = t.tokens 20 ∧ s.tokens 21 = t.tokens 21)

def fails {α : Type} (r : R α) : Bool :=
  match r with
  | .ok _ => false
  | .error _ => true

theorem fails_spec {α : Type} {r : R α} (h : fails r = true) : ∃ e, r = .error e := by
  cases r with
  | ok a => cases h
  | error e => exact ⟨e, rfl⟩

def isVaults (s : State) : Bool := decide (s.g.market.marketBaseVault = 20 ∧ s.g.market.marketQuoteVault = 21)

/-- What the orders leave alone. -/
structure Kept (s s' : State) : Prop where
  lamports : s'.lamports = s.lamports
  key : s'.marketKey = s.marketKey
  closed : s'.closed = s.closed
  vaults : isVaults s = true → isVaults s' = true
  tokens : isVaults s = true → ∀ k, k ≠ 61 → k ≠ 20 → k ≠ 21 → s'.tokens k = s.tokens k

theorem Kept.trans {s s1 s2 : State} (h : Kept s s1) (h' : Kept s1 s2) : Kept s s2 :=
  ⟨h'.lamports.trans h.lamports, h'.key.trans h.key, h'.closed.trans h.closed, fun v => h'.vaults (h.vaults v),
    fun v k a b c => (h'.tokens (h.vaults v) k a b c).trans (h.tokens v k a b c)⟩

theorem transfer_others {t t' : Tokens} {x : Int} {a b u : Pubkey} (h : tokenTransfer t x a b u = .ok t') {k : Pubkey} (ha : k ≠ a)
    (hb : k ≠ b) : t' k = t k := by
  unfold tokenTransfer at h
  split at h
  · simp only [bind_ok, req_ok] at h
    obtain ⟨_, _, _, _, _, _, h⟩ := h
    split at h
    · cases h; rfl
    · simp only [bind_ok, pure_ok] at h
      obtain ⟨_, _, h⟩ := h
      cases h
      simp only [Tokens.setAmount, if_neg ha, if_neg hb]
  · cases h; rfl

theorem place_kept {s s' : State} {i : Nat} {o : Order} {lim : Nat} {r : OrderResult} (hr : Reachable s) (op : Op) (hop : step s op = .ok s')
    (hside : o.side = .bid) (h : placeOrder s (fillCtx i) o lim = .ok (r, s')) : Kept s s' := by
  have hcfg : isVaults s = true → isVaults s' = true := by
    intro hv
    unfold isVaults at hv ⊢
    rw [(step_cfg (reachable_Inv hr) hop).1.baseVault, (step_cfg (reachable_Inv hr) hop).1.quoteVault]
    exact hv
  unfold placeOrder at h
  simp only [bind_ok, pure_ok] at h
  obtain ⟨_, _, _, _, _, _, _, _, _, _, _, _, _, _, ⟨_, _, _⟩, _, _, _, ⟨_, _⟩, _, _, _, tk, ht, h⟩ := h
  cases h
  refine ⟨rfl, rfl, rfl, hcfg, ?_⟩
  intro hv k h1 h2 h3
  refine transfer_others ht h1 ?_
  rw [hside]
  unfold isVaults at hv
  rw [decide_eq_true_eq] at hv
  show k ≠ s.g.market.marketQuoteVault
  rw [hv.2]
  exact h3

theorem placeOrder_kept {s s' : State} {i : Nat} {a : PlaceOrderArgs} (hr : Reachable s) (hside : a.side = .bid)
    (h : step s (.placeOrder (fillCtx i) a) = .ok s') : Kept s s' := by
  have h0 := h
  simp only [step, placeOrderIx, bind_ok, pure_ok] at h
  obtain ⟨⟨_, s1⟩, ⟨_, _, o, ho, h⟩, e⟩ := h
  cases e
  cases o with
  | none =>
    simp only [bind_ok, pure_ok] at h
    obtain ⟨_, _, h⟩ := h
    cases h
    exact ⟨rfl, rfl, rfl, id, fun _ _ _ _ _ => rfl⟩
  | some o =>
    simp only [bind_ok, pure_ok] at h
    obtain ⟨⟨r, s2⟩, h1, h⟩ := h
    cases h
    refine place_kept hr _ h0 ?_ h1
    unfold PlaceOrderArgs.order at ho
    simp only [bind_ok] at ho
    obtain ⟨_, _, _, _, ho⟩ := ho
    split at ho
    · cases ho
    · simp only [bind_ok, pure_ok] at ho
      obtain ⟨_, _, ho⟩ := ho
      cases ho
      exact hside

theorem placeOrderPegged_kept {s s' : State} {i : Nat} {a : PlaceOrderPeggedArgs} (hr : Reachable s) (hside : a.side = .bid)
    (h : step s (.placeOrderPegged (fillCtx i) a) = .ok s') : Kept s s' := by
  have h0 := h
  simp only [step, placeOrderPeggedIx, bind_ok, pure_ok] at h
  obtain ⟨⟨_, s1⟩, ⟨_, _, o, ho, h⟩, e⟩ := h
  cases e
  cases o with
  | none =>
    simp only [bind_ok, pure_ok] at h
    obtain ⟨_, _, h⟩ := h
    cases h
    exact ⟨rfl, rfl, rfl, id, fun _ _ _ _ _ => rfl⟩
  | some o =>
    simp only [bind_ok, pure_ok] at h
    obtain ⟨⟨r, s2⟩, h1, h⟩ := h
    cases h
    refine place_kept hr _ h0 ?_ h1
    unfold PlaceOrderPeggedArgs.order at ho
    simp only [bind_ok] at ho
    obtain ⟨_, _, _, _, _, _, ho⟩ := ho
    split at ho
    · cases ho
    · simp only [bind_ok, pure_ok] at ho
      obtain ⟨_, _, ho⟩ := ho
      cases ho
      exact hside

theorem cancel_kept {s s' : State} {sg k : Pubkey} {cl : Nat} (h : step s (.cancelByClientId sg k cl) = .ok s') : Kept s s' := by
  obtain ⟨h1, _, h3, h4, h5, h6⟩ := LayoutCase.cancel_rest h
  exact ⟨h4, h5, h6, fun hv => by unfold isVaults at hv ⊢; rw [h1]; exact hv, fun _ k _ _ _ => by rw [h3]⟩

theorem runs : okAnd (exec args common) (fun s => isVaults s &&
    okAnd (step s (.placeOrder (fillCtx 21) passes)) fun s1 => okAnd (step s1 (.placeOrderPegged (fillCtx 21) peg)) fun s2 =>
    okAnd (step s (.placeOrder (fillCtx 21) rests)) fun t1 => okAnd (step t1 cancels) fun t2 =>
    okAnd (step t2 (.placeOrderPegged (fillCtx 21) peg)) fun t3 =>
      alike s2 t3 && okAnd (step s2 last) (fun _ => true) && fails (step t3 last)) = true := by decide +kernel

end PeakCase

/-- Two reachable states with the same market, accounts, queue, tokens, lamports and resting orders, of which one accepts a bid that the
other one rejects. -/
theorem C74_peak_matters : ∃ (s t : State) (op : Op) (s' : State) (e : Err), Reachable s ∧ Reachable t ∧
    t.g.market = s.g.market ∧ t.g.accts = s.g.accts ∧ t.g.heap.events = s.g.heap.events ∧ t.tokens = s.tokens ∧
    t.lamports = s.lamports ∧ t.marketKey = s.marketKey ∧ t.closed = s.closed ∧ t.book.resting = s.book.resting ∧
    step s op = .ok s' ∧ step t op = .error e := by
  open Scenario PeakCase in
  obtain ⟨s, hs, h⟩ := exec_spec runs
  rw [Bool.and_eq_true] at h
  obtain ⟨hv, h⟩ := h
  obtain ⟨s1, h1, h⟩ := okAnd_spec h
  obtain ⟨s2, h2, h⟩ := okAnd_spec h
  obtain ⟨t1, k1, h⟩ := okAnd_spec h
  obtain ⟨t2, k2, h⟩ := okAnd_spec h
  obtain ⟨t3, k3, h⟩ := okAnd_spec h
  rw [Bool.and_eq_true, Bool.and_eq_true] at h
  obtain ⟨⟨ha, h4⟩, h5⟩ := h
  obtain ⟨s', h4, _⟩ := okAnd_spec h4
  obtain ⟨e, h5⟩ := fails_spec h5
  unfold alike at ha
  rw [decide_eq_true_eq] at ha
  obtain ⟨a1, a2, a3, a4, a5, a6, a7⟩ := ha
  have r1 : Reachable s1 := .step _ _ _ hs h1
  have r2 : Reachable s2 := .step _ _ _ r1 h2
  have q1 : Reachable t1 := .step _ _ _ hs k1
  have q2 : Reachable t2 := .step _ _ _ q1 k2
  have q3 : Reachable t3 := .step _ _ _ q2 k3
  have ks := (placeOrder_kept hs rfl h1).trans (placeOrderPegged_kept r1 rfl h2)
  have kt := ((placeOrder_kept hs rfl k1).trans (cancel_kept k2)).trans (placeOrderPegged_kept q2 rfl k3)
  refine ⟨s2, t3, last, s', e, r2, q3, a1, a2, a3, ?_, kt.lamports.trans ks.lamports.symm, kt.key.trans ks.key.symm,
    kt.closed.trans ks.closed.symm, a4, h4, h5⟩
  funext k
  by_cases e1 : k = 61
  · rw [e1]; exact a5.symm
  by_cases e2 : k = 20
  · rw [e2]; exact a6.symm
  by_cases e3 : k = 21
  · rw [e3]; exact a7.symm
  rw [kt.tokens hv k e1 e2 e3, ks.tokens hv k e1 e2 e3]

end OB
