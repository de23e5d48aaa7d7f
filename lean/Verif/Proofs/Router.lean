import Verif.Spec.Router
import Verif.Proofs.Client
import Verif.Proofs.Exit
import Verif.Proofs.Step
import Verif.Proofs.Named
/-!
Lemmas about the adapter of the swap router.
-/
namespace OB
open Spec
namespace Router

theorem tracks_reach {l : Bool} {s : State} {a : Adapter} (h : Tracks l s a) : Reachable s := by
  induction h with
  | made s hr _ => exact hr
  | later s s' a op _ h ih => exact .step _ _ _ ih h
  | again s s' a args now _ _ h ih => exact .again _ _ args now ih h
  | updated _ _ _ _ _ _ _ _ ih => exact ih

theorem update_keeps {a a' : Adapter} {v : AccountMap} {o : Outcome} (h : update a v = .ok (a', o)) :
    a'.market = a.market ∧ a'.key = a.key ∧ a'.permissioned = a.permissioned := by
  unfold update at h
  split at h
  · cases h; exact ⟨rfl, rfl, rfl⟩
  · simp only [bind_ok, unwrapR_ok] at h
    obtain ⟨b, _, k, _, _, _, h⟩ := h
    split at h
    · cases h
    · cases h; exact ⟨rfl, rfl, rfl⟩
    · simp only [bind_ok, pure_ok] at h
      obtain ⟨n, _, h⟩ := h
      cases h; exact ⟨rfl, rfl, rfl⟩

/-- The copy of the market is as good as the market. -/
structure Agrees (s : State) (a : Adapter) : Prop where
  cfg : SameCfg a.market s.g.market
  key : a.key = s.marketKey
  flag : a.permissioned = decide (s.g.market.openOrdersAdmin ≠ 0)

theorem tracks_agrees {s : State} {a : Adapter} (h : Tracks false s a) : Agrees s a := by
  induction h with
  | made s hr _ => exact ⟨SameCfg.refl _, rfl, rfl⟩
  | later s s' a op ht h ih =>
    have hi := reachable_Inv (tracks_reach ht)
    have hc := (step_cfg hi h).1
    exact ⟨ih.cfg.trans hc, by rw [ih.key, step_marketKey hi h], by rw [ih.flag, hc.ooAdmin]⟩
  | again s s' a args now hl _ _ _ => cases hl
  | updated s a a' o clock oracle ht h ih =>
    obtain ⟨h1, h2, h3⟩ := update_keeps h
    exact ⟨by rw [h1]; exact ih.cfg, by rw [h2]; exact ih.key, by rw [h3]; exact ih.flag⟩

theorem iterStep_cfg {m m' : Market} (h : SameCfg m m') (item : IterItem) (st : Client.St) :
    Client.iterStep m item st = Client.iterStep m' item st := by
  unfold Client.iterStep Market.makerRebateFloor Market.unsignedMakerFeesFloor
  rw [h.qls, h.maker]

theorem iterLoop_cfg {m m' : Market} (h : SameCfg m m') (t : Nodes) (now : Nat) (o : Option Int) (n : Nat) (it : SideIter)
    (st : Client.St) : Client.iterLoop m t now o n it st = Client.iterLoop m' t now o n it st := by
  induction n generalizing it st with
  | zero => rfl
  | succ n ih =>
    simp only [Client.iterLoop, iterStep_cfg h, ih]

theorem quote_cfg {m m' : Market} (h : SameCfg m m') (book : Book) (o : Option Int) (side : Side) (n : Nat) :
    Client.quote book m o side n = Client.quote book m' o side n := by
  have e1 : Client.quoteLots m side n = Client.quoteLots m' side n := by
    unfold Client.quoteLots Market.maxBaseLots Market.maxQuoteLots
    rw [h.qls, h.bls]
  have e2 : ∀ x, Client.maxQuoteLots m x side = Client.maxQuoteLots m' x side := by
    intro x
    unfold Client.maxQuoteLots Market.subtractTakerFees
    rw [h.taker]
  unfold Client.quote Client.amountsFromBook Client.iterateBook
  simp only [e1, e2, iterLoop_cfg h, h.ooAdmin, h.qls, h.bls]

/-- What a successful update of the adapter of a market open to all leaves. -/
theorem update_open {s : State} {a a' : Adapter} {o : Outcome} {clock : Int} {oracle : R (Option Int)} (hp : a.permissioned = false)
    (h : update a (accountMap s clock oracle) = .ok (a', o)) :
    s.closed = false ∧ a'.book = s.book ∧
      ((∃ p, oracle = .ok p ∧ o = .done ∧ a'.oracle = p ∧ (a'.timestamp : Int) = clock ∧ 0 ≤ clock ∧ clock ≤ i64Max) ∨
       (∃ e, oracle = .error e ∧ e ≠ .panic ∧ o = .failed e ∧ a'.oracle = a.oracle ∧ a'.timestamp = a.timestamp)) := by
  unfold update accountMap at h
  rw [if_neg (by rw [hp]; simp)] at h
  cases hc : s.closed with
  | true =>
    rw [hc] at h
    simp [unwrapR] at h
    cases h
  | false =>
    rw [hc] at h
    simp only [bind_ok, unwrapR_ok, Bool.false_eq_true, if_false] at h
    obtain ⟨b, hb, k, hk, _, _, h⟩ := h
    cases hb; cases hk
    refine ⟨rfl, ?_⟩
    cases oracle with
    | error e =>
      have hne : e ≠ .panic := by rintro rfl; cases h
      have h' : (Except.ok ({ a with book := s.book }, Outcome.failed e) : R (Adapter × Outcome)) = .ok (a', o) := by
        rw [← h]
        cases e <;> first | rfl | exact absurd rfl hne
      cases h'
      exact ⟨rfl, .inr ⟨e, rfl, hne, rfl, rfl, rfl⟩⟩
    | ok p =>
      unfold nowU64 at h
      simp only [bind_ok, pure_ok, assertR, req_ok] at h
      obtain ⟨n, ⟨_, h1, rfl⟩, h⟩ := h
      cases h
      exact ⟨rfl, .inl ⟨p, rfl, rfl, rfl, Int.toNat_of_nonneg h1.1, h1.1, h1.2⟩⟩

/-- An adapter that was never updated sees no orders. -/
theorem quote_empty (m : Market) (o : Option Int) (side : Side) (n : Nat) {q : Client.Quote}
    (h : Client.quote { bids := BookSide.empty .bid, asks := BookSide.empty .ask } m o side n = .ok q) :
    q.inAmount = 0 ∧ q.outAmount = 0 ∧ q.feeAmount = 0 := by
  have key : ∀ mb mq x, Client.iterateBook { bids := BookSide.empty .bid, asks := BookSide.empty .ask } side mb mq m o 0 = .ok x →
      x.baseLots = 0 ∧ x.quoteLots = 0 ∧ x.rebates = 0 := by
    intro mb mq x hx
    unfold Client.iterateBook at hx
    simp only [bind_ok, pure_ok, ckI64_ok] at hx
    obtain ⟨mq', _, it, hit, st, hst, b, ⟨_, rfl⟩, c, ⟨_, rfl⟩, rfl⟩ := hx
    have : st = { remBase := mb, remQuote := mq', rebates := 0, limit := Client.maximumTakenOrders, processed := 0, dropped := 0, accounts := [] } := by
      cases side <;> cases o <;> (cases hit; cases hst; rfl)
    subst this
    exact ⟨by simp, by simp, rfl⟩
  unfold Client.quote at h
  split at h
  · cases h; exact ⟨rfl, rfl, rfl⟩
  · simp only [bind_ok, req_ok] at h
    obtain ⟨_, _, p, _, y, hy, h⟩ := h
    unfold Client.amountsFromBook at hy
    simp only [bind_ok, pure_ok, ckI64_ok] at hy
    obtain ⟨x, hx, b, ⟨_, rfl⟩, c, ⟨_, rfl⟩, rfl⟩ := hy
    obtain ⟨h1, h2, h3⟩ := key _ _ _ hx
    simp only [h1, h2, h3, Int.zero_mul] at h
    cases side <;> (simp only [bind_ok, pure_ok, ckU64_ok] at h; obtain ⟨i, ⟨_, rfl⟩, rfl⟩ := h; exact ⟨rfl, rfl, rfl⟩)

end Router
end OB
