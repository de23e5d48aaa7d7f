import Verif.Proofs.Router
import Verif.Props.C41_Client
import Verif.Props.C60_Accept
import Verif.Props.C65_Named
import Verif.Props.C67_Again
/-!
C91  The adapter of the swap router.

It copies the market account once and refreshes only the book, the clock and the price of the oracle.  This is enough as long as the
market lives: its quotes and the accounts of its swaps are those of an adapter made from the market as it is now.  It is not enough
after the market was closed and created again, and the adapter does not see that a market has expired.
-/
namespace OB
open Spec Router

/-- The side traded by someone who gives tokens of this mint: a bid for quote tokens, an ask for all others. -/
def gives (s : State) (mint : Pubkey) : Side := if mint = s.g.market.quoteMint then .bid else .ask

/-- C91 in full, for quotes: after an update the adapter quotes what is to be quoted for book, market and price as they are now. -/
def QuotesCurrent (lives : Bool) : Prop :=
  ∀ (s : State) (a a' : Adapter) (clock : Int) (p : Option Int), Tracks lives s a →
    update a (accountMap s clock (.ok p)) = .ok (a', .done) →
    ∀ mint n, quote a' mint n = Client.quote s.book s.g.market p (gives s mint) n

/-- It holds during the life of a market. -/
theorem C91_current_partial : QuotesCurrent false := by
  intro s a a' clock p ht h mint n
  have hg := tracks_agrees ht
  have hk := update_keeps h
  have hs : a'.sideOf mint = gives s mint := by
    unfold Adapter.sideOf gives
    rw [hk.1, hg.cfg.quoteMint]
  unfold quote
  cases hp : a.permissioned with
  | true =>
    rw [hk.2.2, hp, if_pos rfl]
    rw [hg.flag, decide_eq_true_eq] at hp
    unfold Client.quote
    rw [if_pos hp]
  | false =>
    obtain ⟨_, hb, h2⟩ := update_open hp h
    rw [hk.2.2, hp, if_neg (by simp), hs, hb, hk.1, quote_cfg hg.cfg]
    rcases h2 with ⟨p', e, _, ho, _⟩ | ⟨_, e, _⟩
    · cases e; rw [ho]
    · cases e

/-- Nothing is quoted before the first update. -/
theorem C91_unread (k : Pubkey) (m : Market) (mint : Pubkey) (n : Nat) {q : Client.Quote} (h : quote (fromKeyedAccount k m) mint n = .ok q) :
    q.inAmount = 0 ∧ q.outAmount = 0 ∧ q.feeAmount = 0 := by
  unfold quote at h
  split at h
  · cases h; exact ⟨rfl, rfl, rfl⟩
  · exact quote_empty _ _ _ _ h

/-- When an update succeeds: always for a permissioned market, for which nothing is read; else while the market exists, the oracle can be
read and the clock is not before 1970.  It panics after the market was closed. -/
theorem C91_update {s : State} {a : Adapter} (ht : Tracks false s a) (clock : Int) (hc : clock ≤ i64Max) (oracle : R (Option Int)) :
    ((∃ a', update a (accountMap s clock oracle) = .ok (a', .done)) ↔
      (s.g.market.openOrdersAdmin ≠ 0 ∨ (s.closed = false ∧ 0 ≤ clock ∧ ∃ p, oracle = .ok p))) ∧
    (s.g.market.openOrdersAdmin = 0 → s.closed = true → update a (accountMap s clock oracle) = .error .panic) := by
  have hg := tracks_agrees ht
  constructor
  · constructor
    · rintro ⟨a', h⟩
      cases hp : a.permissioned with
      | true =>
        rw [hg.flag, decide_eq_true_eq] at hp
        exact .inl hp
      | false =>
        obtain ⟨h0, _, h2⟩ := update_open hp h
        rcases h2 with ⟨p', e, _, _, _, e1, _⟩ | ⟨_, _, _, e, _⟩
        · exact .inr ⟨h0, e1, p', e⟩
        · cases e
    · intro h
      cases hp : a.permissioned with
      | true => exact ⟨a, by unfold update; rw [hp, if_pos rfl]⟩
      | false =>
        rw [hg.flag, decide_eq_false_iff_not] at hp
        rcases h with h | ⟨h0, h1, p, rfl⟩
        · exact absurd h hp
        · refine ⟨{ a with book := s.book, oracle := p, timestamp := clock.toNat }, ?_⟩
          unfold update accountMap nowU64 assertR
          rw [if_neg (by rw [hg.flag]; simpa using hp), h0, req_true ⟨h1, hc⟩]
          rfl
  · intro h0 h1
    unfold update accountMap
    rw [if_neg (by rw [hg.flag]; simpa using h0), h1]
    rfl

/-- The accounts of a swap after an update: those that the market names, the authority of the user as signer and payer, the user's
wallets in their places, and at most three owners of opposing orders that can be matched, without repetition. -/
theorem C91_accounts {s : State} {a a' : Adapter} {clock : Int} {p : Option Int} (ht : Tracks false s a)
    (h : update a (accountMap s clock (.ok p)) = .ok (a', .done)) (w : SwapParams) (hadm : s.g.market.openOrdersAdmin = 0) :
    ∃ x rem, swap a' w = .ok (gives s w.sourceMint, some (x, rem)) ∧ Named s x ∧ x.signer = w.authority ∧ x.penaltyPayer = w.authority ∧
      (∀ now o, payWallet (x.ctx rem now o) (gives s w.sourceMint) = w.source ∧
        getWallet (x.ctx rem now o) (gives s w.sourceMint) = w.destination) ∧
      Client.remainingAccountsToCrank s.book (gives s w.sourceMint) p clock.toNat = .ok rem ∧
      rem.Nodup ∧ rem.length ≤ 3 ∧
      ∀ k ∈ rem, ∃ c l q, ((gives s w.sourceMint).invert, c, l) ∈ s.book.resting ∧
        TradableAt clock.toNat p (gives s w.sourceMint).invert c l q ∧ l.owner = k := by
  have hg := tracks_agrees ht
  have hk := update_keeps h
  have hp : a.permissioned = false := by rw [hg.flag]; simpa using hadm
  obtain ⟨_, hb, h2⟩ := update_open hp h
  have hs : a'.sideOf w.sourceMint = gives s w.sourceMint := by
    unfold Adapter.sideOf gives
    rw [hk.1, hg.cfg.quoteMint]
  rcases h2 with ⟨p', e, _, ho, hts, _⟩ | ⟨_, e, _⟩
  · cases e
    have hts' : a'.timestamp = clock.toNat := by omega
    obtain ⟨rem, hrem, r1, r2, r3⟩ := Client.crank_list (.reachable s (tracks_reach ht)) (gives s w.sourceMint) p clock.toNat
    refine ⟨{ signer := w.authority, penaltyPayer := w.authority, market := a'.key, marketAuthority := a'.market.marketAuthority,
              userBase := if w.sourceMint = a'.market.quoteMint then w.destination else w.source,
              userQuote := if w.sourceMint = a'.market.quoteMint then w.source else w.destination,
              baseVault := a'.market.marketBaseVault, quoteVault := a'.market.marketQuoteVault, oracleA := a'.market.oracleA,
              oracleB := a'.market.oracleB, admin := 0 }, rem, ?_, ?_, rfl, rfl, ?_, hrem, r1, r2, r3⟩
    · unfold swap
      rw [hk.2.2, hp, if_neg (by simp), hs, hb, ho, hts', hrem]
      rfl
    · exact ⟨hk.2.1.trans hg.key, by simp only [hk.1, hg.cfg.authority], by simp only [hk.1, hg.cfg.baseVault],
        by simp only [hk.1, hg.cfg.quoteVault], by simp only [hk.1, hg.cfg.oracleA], by simp only [hk.1, hg.cfg.oracleB], hadm.symm⟩
    · intro now o
      unfold TakeAccounts.ctx gives
      rw [hk.1, ← hg.cfg.quoteMint]
      by_cases e : w.sourceMint = s.g.market.quoteMint
      · simp only [if_pos e]; exact ⟨rfl, rfl⟩
      · simp only [if_neg e]; exact ⟨rfl, rfl⟩
  · cases e

/-- C91 in full, for swaps: if something is quoted after an update, then some take order is accepted at the time of the clock. -/
def QuotesTradable : Prop :=
  ∀ (s : State) (a a' : Adapter) (clock : Int) (p : Option Int), Tracks false s a →
    update a (accountMap s clock (.ok p)) = .ok (a', .done) →
    ∀ mint n q, quote a' mint n = .ok q → 0 < q.outAmount →
    ∃ (c : TakeCtx) (o : PlaceOrderArgs) (s' : State), c.now = clock ∧ step s (.placeTakeOrder c o) = .ok s'

/-- What holds: as long as the market has not expired, a swap with the accounts of the adapter is accepted if the user's wallet holds
what the order may cost. -/
theorem C91_accepted_partial {s : State} {a a' : Adapter} {clock : Int} {p : Option Int} (ht : Tracks false s a)
    (h : update a (accountMap s clock (.ok p)) = .ok (a', .done)) (hadm : s.g.market.openOrdersAdmin = 0)
    (hlive : s.g.market.timeExpiry = 0 ∨ clock ≤ s.g.market.timeExpiry)
    (horacle : ∀ x, p = some x → s.g.market.oracleA ≠ 0 ∧ i64Min ≤ x ∧ x ≤ i64Max)
    (w : SwapParams) (hw : Swapper s (gives s w.sourceMint) w)
    (o : PlaceOrderArgs) (hot : o.typed) (hop : 1 ≤ o.priceLots) (hok : o.orderType = .market ∨ o.orderType = .immediateOrCancel)
    (hos : o.side = gives s w.sourceMint) (hc : CountersFit s) (hf : AmountsFit s o.side o.maxBaseLots o.maxQuoteLots o.limit)
    (hfunds : maxCost s o.side o.maxBaseLots o.maxQuoteLots ≤ tokens s w.source)
    (hroom : 0 ≤ tokens s w.destination ∧ tokens s w.destination + maxCost s o.side.invert o.maxBaseLots o.maxQuoteLots ≤ u64Max) :
    ∃ x rem s', swap a' w = .ok (o.side, some (x, rem)) ∧ Named s x ∧ step s (.placeTakeOrder (x.ctx rem clock p) o) = .ok s' := by
  have hg := tracks_agrees ht
  have hp : a.permissioned = false := by rw [hg.flag]; simpa using hadm
  obtain ⟨hopen, _, h2⟩ := update_open hp h
  obtain ⟨x, rem, hx, hn, k1, k2, kw, _⟩ := C91_accounts ht h w hadm
  obtain ⟨kp, kg⟩ := kw clock p
  rw [← hos] at hx kp kg hw
  have hclock : 0 ≤ clock ∧ clock ≤ i64Max := by
    rcases h2 with ⟨_, _, _, _, _, c⟩ | ⟨_, e, _⟩
    · exact c
    · cases e
  have hm : MayTake s (x.ctx rem clock p) := by
    cases hside : o.side with
    | bid =>
      rw [hside] at kp kg hw
      exact ⟨hopen, hlive, hclock, by rw [show (x.ctx rem clock p).signer = x.signer from rfl, k1]; exact hw.signer,
        by rw [show (x.ctx rem clock p).signer = x.signer from rfl, k1]; exact hw.notVault,
        by rw [show (x.ctx rem clock p).penaltyPayer = x.penaltyPayer from rfl, k2]; exact hw.notVault, hn.admin.symm,
        by rw [show (x.ctx rem clock p).userBase = w.destination from kg]; exact hw.destination,
        by rw [show (x.ctx rem clock p).userQuote = w.source from kp]; exact hw.source,
        by rw [show (x.ctx rem clock p).userBase = w.destination from kg]; exact hw.owned.2.trans k1.symm,
        by rw [show (x.ctx rem clock p).userQuote = w.source from kp]; exact hw.owned.1.trans k1.symm, horacle,
        by rw [show (x.ctx rem clock p).penaltyPayer = x.penaltyPayer from rfl, k2]; exact hw.lamports⟩
    | ask =>
      rw [hside] at kp kg hw
      exact ⟨hopen, hlive, hclock, by rw [show (x.ctx rem clock p).signer = x.signer from rfl, k1]; exact hw.signer,
        by rw [show (x.ctx rem clock p).signer = x.signer from rfl, k1]; exact hw.notVault,
        by rw [show (x.ctx rem clock p).penaltyPayer = x.penaltyPayer from rfl, k2]; exact hw.notVault, hn.admin.symm,
        by rw [show (x.ctx rem clock p).userBase = w.source from kp]; exact hw.source,
        by rw [show (x.ctx rem clock p).userQuote = w.destination from kg]; exact hw.destination,
        by rw [show (x.ctx rem clock p).userBase = w.source from kp]; exact hw.owned.1.trans k1.symm,
        by rw [show (x.ctx rem clock p).userQuote = w.destination from kg]; exact hw.owned.2.trans k1.symm, horacle,
        by rw [show (x.ctx rem clock p).penaltyPayer = x.penaltyPayer from rfl, k2]; exact hw.lamports⟩
  rcases C60_place_take_order s (tracks_reach ht) (x.ctx rem clock p) o hot hop (hok.elim .inl (fun h => .inr (.inl h))) hm hc hf
    (by rw [kg]; exact hroom) with ⟨s', hs'⟩ | ⟨hx2, _⟩ | ⟨hx2, _⟩
  · exact ⟨x, rem, s', hx, hn, hs'⟩
  · rcases hok with h | h <;> rw [h] at hx2 <;> cases hx2
  · rw [kp] at hx2; omega

/-! A router follows the market of C31 from its creation on; 8 lots can be bought. -/
namespace RouterCase
open Scenario

theorem tracks_run {l : Bool} {s s' : State} {a : Adapter} {ops : List Op} (ht : Tracks l s a) (h : run s ops = .ok s') : Tracks l s' a := by
  induction ops generalizing s with
  | nil => injection h with h; rwa [← h]
  | cons op ops ih =>
    unfold run at h
    cases h1 : step s op with
    | error e => rw [h1] at h; cases h
    | ok s1 => rw [h1] at h; exact ih (.later s s1 a op ht h1) h

/-- The adapter is made from the market just created; then the operations follow. -/
def follow (ops : List Op) (p : State → Adapter → Bool) : Bool :=
  okAnd (start args) fun s0 => decide (s0.closed = false) && okAnd (run s0 ops) fun s => p s (fromKeyedAccount s0.marketKey s0.g.market)

theorem follow_spec {ops : List Op} {p : State → Adapter → Bool} (h : follow ops p = true) : ∃ s a, Tracks false s a ∧ p s a = true := by
  obtain ⟨s0, h0, h⟩ := okAnd_spec h
  rw [Bool.and_eq_true, decide_eq_true_eq] at h
  obtain ⟨s, h1, h2⟩ := okAnd_spec h.2
  exact ⟨s, _, tracks_run (.made s0 (start_reachable h0) h.1) h1, h2⟩

/-- Updating succeeds and then buying with `n` gives this much. -/
def quotes (s : State) (a : Adapter) (clock : Int) (p : Option Int) (n : Nat) (out : Int) : Bool :=
  okAnd (update a (accountMap s clock (.ok p))) fun x => decide (x.2 = .done) &&
    okAnd (quote x.1 11 n) fun q => decide (q.outAmount = out)

theorem quotes_spec {s : State} {a : Adapter} {clock : Int} {p : Option Int} {n : Nat} {out : Int} (h : quotes s a clock p n out = true) :
    ∃ a', update a (accountMap s clock (.ok p)) = .ok (a', .done) ∧ ∃ q, quote a' 11 n = .ok q ∧ q.outAmount = out := by
  obtain ⟨⟨a', o⟩, h1, h2⟩ := okAnd_spec h
  rw [Bool.and_eq_true, decide_eq_true_eq] at h2
  obtain ⟨rfl, h2⟩ := h2
  obtain ⟨q, h3, h4⟩ := okAnd_spec h2
  exact ⟨a', h1, q, h3, of_decide_eq_true h4⟩

/-- 31 000 quote lots are enough for the three asks. -/
example : ∃ s a a' q, Tracks false s a ∧ update a (accountMap s 1000 (.ok (some 1000))) = .ok (a', .done) ∧ quote a' 11 31000 = .ok q ∧
    q.outAmount = 1000 := by
  obtain ⟨s, a, ht, h⟩ := follow_spec (ops := ops0) (p := fun s a => quotes s a 1000 (some 1000) 31000 1000) (by decide +kernel)
  obtain ⟨a', h1, q, h2, h3⟩ := quotes_spec h
  exact ⟨s, a, a', q, ht, h1, h2, h3⟩

/-- The wallets of trader 33, to buy. -/
def buyer : SwapParams := { sourceMint := 11, source := 63, destination := 53, authority := 33 }

/-- An order for all that 3 000 quote lots buy. -/
def buying : PlaceOrderArgs := { ClientCase.market .bid 500 with maxQuoteLots := 3000 }

/-- Trader 33 meets the hypotheses, and gets two lots at 1007. -/
example : ∃ s a a', Tracks false s a ∧ update a (accountMap s 1000 (.ok (some 1000))) = .ok (a', .done) ∧ s.g.market.openOrdersAdmin = 0 ∧
    s.g.market.timeExpiry = 0 ∧ s.g.market.oracleA ≠ 0 ∧ Swapper s (gives s buyer.sourceMint) buyer ∧ buying.side = gives s buyer.sourceMint ∧
    CountersFit s ∧ AmountsFit s .bid 500 3000 45 ∧ maxCost s .bid 500 3000 ≤ tokens s buyer.source ∧ 0 ≤ tokens s buyer.destination ∧
    tokens s buyer.destination + maxCost s .ask 500 3000 ≤ u64Max ∧
    (∃ x rem s', swap a' buyer = .ok (.bid, some (x, rem)) ∧ rem ≠ [] ∧ step s (.placeTakeOrder (x.ctx rem 1000 (some 1000)) buying) = .ok s' ∧
      tokens s' 53 = tokens s 53 + 200) := by
  obtain ⟨s, a, ht, h⟩ := follow_spec (ops := ops0) (p := fun s a => quotes s a 1000 (some 1000) 31000 1000 &&
    C60_fits s (ctx 1 .bid []) buying && C60_takes s (takeCtx 2) buying &&
    decide (maxCost s .bid 500 3000 ≤ tokens s 63 ∧ s.g.market.quoteMint = 11) &&
    okAnd (update a (accountMap s 1000 (.ok (some 1000)))) fun u => okAnd (swap u.1 buyer) fun y =>
      match y with
      | (.bid, some (x, rem)) => decide (rem ≠ []) && okAnd (step s (.placeTakeOrder (x.ctx rem 1000 (some 1000)) buying)) fun s' =>
          decide (tokens s' 53 = tokens s 53 + 200)
      | _ => false) (by decide +kernel)
  simp only [Bool.and_eq_true, decide_eq_true_eq] at h
  obtain ⟨⟨⟨⟨h1, h2⟩, h3⟩, h4, h5⟩, h6⟩ := h
  obtain ⟨a', h1, _⟩ := quotes_spec h1
  obtain ⟨⟨u, o⟩, hu, h6⟩ := okAnd_spec h6
  rw [h1] at hu
  cases hu
  obtain ⟨⟨side, y⟩, hy, h6⟩ := okAnd_spec h6
  obtain ⟨m1, m2, m3, m4⟩ := C60_fits_spec h2 (by decide) (fun p hp => by injection hp with hp; subst hp; decide) (by decide)
  obtain ⟨k, k1, k2⟩ := C60_takes_spec h3 (by decide) (fun p hp => by injection hp with hp; subst hp; decide)
  have hg : gives s buyer.sourceMint = .bid := by unfold gives; rw [h5]; rfl
  have hexp : s.g.market.timeExpiry = 0 := by
    unfold C60_takes at h3
    simp only [Bool.and_eq_true, decide_eq_true_eq] at h3
    exact h3.1.1.2.1
  refine ⟨s, a, a', ht, h1, k.admin, hexp, (k.oracle 1000 rfl).1, ?_, hg.symm, m2, m3, h4, k1, k2, ?_⟩
  · rw [hg]
    exact ⟨k.signer, k.notVault, k.quoteMint, k.baseMint, ⟨k.quoteWallet, k.baseWallet⟩, k.lamports⟩
  · cases side with
    | ask => cases h6
    | bid =>
      cases y with
      | none => cases h6
      | some y =>
        obtain ⟨x, rem⟩ := y
        rw [Bool.and_eq_true, decide_eq_true_eq] at h6
        obtain ⟨s', hs', h7⟩ := okAnd_spec h6.2
        exact ⟨x, rem, s', hy, h6.1, hs', of_decide_eq_true h7⟩

end RouterCase

/-- A take order is accepted only while the market has not expired. -/
theorem take_live {s s' : State} {c : TakeCtx} {o : PlaceOrderArgs} (h : step s (.placeTakeOrder c o) = .ok s') :
    s.g.market.isExpired c.now = false := by
  unfold step placeTakeOrderIx placeTakeOrder at h
  simp only [bind_ok, req_ok] at h
  obtain ⟨_, ⟨_, _, _, _, _, _, _, _, _, _, _, _, _, _, _, _, _, _, _, _, _, he, _⟩, _⟩ := h
  exact he

open RouterCase Scenario in
/-- The claim about swaps fails: the adapter quotes for an expired market, which takes no orders. -/
theorem C91_not_tradable : ¬ QuotesTradable := by
  intro H
  obtain ⟨s, a, ht, h⟩ := follow_spec (ops := ops0 ++ [.setMarketExpired 2 1000]) (p := fun s a =>
    quotes s a 1001 (some 1000) 31000 1000 && decide (s.g.market.isExpired 1001 = true)) (by decide +kernel)
  rw [Bool.and_eq_true, decide_eq_true_eq] at h
  obtain ⟨a', h1, q, h2, h3⟩ := quotes_spec h.1
  obtain ⟨c, o, s', hc, hs⟩ := H s a a' 1001 (some 1000) ht h1 11 31000 q h2 (by omega)
  have := take_live hs
  rw [hc, h.2] at this
  cases this

namespace RouterCase
open Scenario AgainCase

/-- The adapter is made in the first life and used in the second. -/
def outlive (p : State → Adapter → Bool) : Bool :=
  okAnd (exec args ops1) fun s => decide (s.closed = false) && okAnd (run s closing) fun s1 =>
    okAnd (recreateMarket s1 args2 3000) fun s2 => okAnd (run s2 life2) fun s3 => p s3 (fromKeyedAccount s.marketKey s.g.market)

theorem outlive_spec {p : State → Adapter → Bool} (h : outlive p = true) : ∃ s a, Tracks true s a ∧ p s a = true := by
  obtain ⟨s, h0, h⟩ := okAnd_spec h
  rw [Bool.and_eq_true, decide_eq_true_eq] at h
  obtain ⟨s1, h1, h2⟩ := okAnd_spec h.2
  obtain ⟨s2, h2, h3⟩ := okAnd_spec h2
  obtain ⟨s3, h3, h4⟩ := okAnd_spec h3
  exact ⟨s3, _, tracks_run (.again s1 s2 _ _ _ rfl (tracks_run (.made s (exec_reachable h0) h.1) h1) h2) h3, h4⟩

end RouterCase

open RouterCase Scenario in
/-- The claim about quotes fails after the market was closed and created again for other mints: asked for a price of the old base token
in the old quote token, the adapter answers with the orders of the new market, in which neither is traded. -/
theorem C91_not_current : ¬ QuotesCurrent true ∧
    ∃ s a a' q, Tracks true s a ∧ update a (accountMap s 3000 (.ok none)) = .ok (a', .done) ∧ quote a' 11 6000 = .ok q ∧
      q.outAmount = 500 ∧ s.g.market.baseMint ≠ 10 ∧ s.g.market.quoteMint ≠ 11 := by
  obtain ⟨s, a, ht, h⟩ := outlive_spec (p := fun s a => quotes s a 3000 none 6000 500 &&
    decide (s.g.market.baseMint ≠ 10 ∧ s.g.market.quoteMint ≠ 11) &&
    okAnd (Client.quote s.book s.g.market none .ask 6000) fun q => decide (q.outAmount = 0)) (by decide +kernel)
  simp only [Bool.and_eq_true, decide_eq_true_eq] at h
  obtain ⟨⟨h1, h2, h3⟩, h4⟩ := h
  obtain ⟨a', h1, q, hq, hq'⟩ := quotes_spec h1
  refine ⟨fun H => ?_, s, a, a', q, ht, h1, hq, hq', h2, h3⟩
  have := H s a a' 3000 none ht h1 11 6000
  rw [hq, show gives s 11 = .ask by unfold gives; rw [if_neg (Ne.symm h3)]] at this
  rw [← this] at h4
  obtain ⟨q', e, hq2⟩ := okAnd_spec h4
  cases e
  have := of_decide_eq_true hq2
  omega

/-- The claim that an update that fails leaves the quotes as they were. -/
def FailedKeeps : Prop :=
  ∀ (s : State) (a a' : Adapter) (clock : Int) (oracle : R (Option Int)) (e : Err), Tracks false s a →
    update a (accountMap s clock oracle) = .ok (a', .failed e) → ∀ mint n, quote a' mint n = quote a mint n

open RouterCase Scenario in
/-- It fails: with an oracle that cannot be read the book is replaced, the price of the oracle and the time are not. -/
theorem C91_failed_mixes : ¬ FailedKeeps ∧
    ∀ (s : State) (a a' : Adapter) (clock : Int) (oracle : R (Option Int)) (e : Err), Tracks false s a →
      update a (accountMap s clock oracle) = .ok (a', .failed e) →
      a'.book = s.book ∧ a'.oracle = a.oracle ∧ a'.timestamp = a.timestamp := by
  constructor
  · intro H
    obtain ⟨s, a, ht, h⟩ := follow_spec (ops := ops0) (p := fun s a =>
      okAnd (update a (accountMap s 1000 (.error .someError))) fun x => decide (x.2 = .failed .someError) &&
        (okAnd (quote x.1 11 31000) fun q => decide (q.outAmount = 800)) && okAnd (quote a 11 31000) fun q => decide (q.outAmount = 0))
      (by decide +kernel)
    obtain ⟨⟨a', o⟩, h1, h⟩ := okAnd_spec h
    simp only [Bool.and_eq_true, decide_eq_true_eq] at h
    obtain ⟨⟨rfl, h2⟩, h3⟩ := h
    rw [H s a a' 1000 _ _ ht h1 11 31000] at h2
    obtain ⟨q, e, h2⟩ := okAnd_spec h2
    obtain ⟨q', e', h3⟩ := okAnd_spec h3
    rw [e] at e'
    cases e'
    have h2 := of_decide_eq_true h2
    have h3 := of_decide_eq_true h3
    omega
  · intro s a a' clock oracle e ht h
    cases hp : a.permissioned with
    | true => unfold update at h; rw [hp, if_pos rfl] at h; cases h
    | false =>
      obtain ⟨_, hb, h2⟩ := update_open hp h
      rcases h2 with ⟨_, _, e, _⟩ | ⟨_, _, _, _, h3, h4⟩
      · cases e
      · exact ⟨hb, h3, h4⟩

end OB
