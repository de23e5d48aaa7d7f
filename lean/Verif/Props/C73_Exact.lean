import Verif.Proofs.Exact
import Verif.Props.C40_Live
import Verif.Props.C24_Close
/-!
C73  The instructions that place no orders succeed exactly when their stated conditions hold: no hidden reason to fail.
-/
namespace OB
open Spec

/-- A deposit succeeds exactly when the market is open and has not ended, the open orders account exists, the two token accounts are of the
right mints, and the signer can pay. -/
theorem C73_deposit (s : State) (hr : Reachable s) (signer k ub uq : Pubkey) (now b q : Int) (hb : 0 ≤ b ∧ b ≤ u64Max)
    (hq : 0 ≤ q ∧ q ≤ u64Max) (hs : signer ≠ s.g.market.marketAuthority)
    (hf : SupplyFits s [s.g.market.marketBaseVault, s.g.market.marketQuoteVault, ub, uq]) :
    (∃ s', step s (.deposit signer k ub uq now b q) = .ok s') ↔
      s.closed = false ∧ ¬ Ended s now ∧ (∃ a, s.g.accts.get? k = some a) ∧ (s.tokens ub).mint = s.g.market.baseMint ∧
      (s.tokens uq).mint = s.g.market.quoteMint ∧ CanPay s signer ub b ∧ CanPay s signer uq q :=
  deposit_exact hr hb hq hs hf

/-- A refill succeeds exactly when the deposit of what is missing would. -/
theorem C73_refill (s : State) (hr : Reachable s) (signer k ub uq : Pubkey) (now b q : Int) (hb : 0 ≤ b ∧ b ≤ u64Max)
    (hq : 0 ≤ q ∧ q ≤ u64Max) (hs : signer ≠ s.g.market.marketAuthority)
    (hf : SupplyFits s [s.g.market.marketBaseVault, s.g.market.marketQuoteVault, ub, uq]) :
    (∃ s', step s (.refill signer k ub uq now b q) = .ok s') ↔
      s.closed = false ∧ ¬ Ended s now ∧ (s.tokens ub).mint = s.g.market.baseMint ∧ (s.tokens uq).mint = s.g.market.quoteMint ∧
      ∃ a, s.g.accts.get? k = some a ∧ CanPay s signer ub (b - a.position.baseFreeNative) ∧ CanPay s signer uq (q - a.position.quoteFreeNative) := by
  cases ha : s.g.accts.get? k with
  | none =>
    constructor
    · rintro ⟨s', h⟩
      obtain ⟨a, h1, _⟩ := refill_inv h
      rw [ha] at h1; cases h1
    · rintro ⟨_, _, _, _, a, h1, _⟩; cases h1
  | some a =>
    obtain ⟨k1, k2, _⟩ := (reachable_Inv hr).core.linv.acctOk ha
    unfold inU64 at k1 k2
    have key := deposit_exact (k := k) (now := now) hr (signer := signer) (ub := ub) (uq := uq)
      (b := b - min b a.position.baseFreeNative) (q := q - min q a.position.quoteFreeNative) (by omega) (by omega) hs hf
    have e : (∃ s', step s (.refill signer k ub uq now b q) = .ok s') ↔
        ∃ s', deposit s signer k ub uq now (b - min b a.position.baseFreeNative) (q - min q a.position.quoteFreeNative) = .ok s' := by
      constructor
      · rintro ⟨s', h⟩
        obtain ⟨a2, h1, _, _, _, _, h2⟩ := refill_inv h
        rw [ha] at h1; injection h1 with h1
        rw [h1]
        exact ⟨s', h2⟩
      · rintro ⟨s', h⟩
        refine ⟨s', ?_⟩
        simp only [step, refill, bind_ok, req_ok, Accts.get_ok]
        exact ⟨a, ha, (), ⟨hb.1, hb.2, hq⟩, h⟩
    rw [e, key]
    have c1 : CanPay s signer ub (b - min b a.position.baseFreeNative) ↔ CanPay s signer ub (b - a.position.baseFreeNative) := by
      by_cases h : b ≤ a.position.baseFreeNative
      · unfold CanPay
        constructor <;> intro _ h0 <;> omega
      · rw [Int.min_eq_right (by omega)]
    have c2 : CanPay s signer uq (q - min q a.position.quoteFreeNative) ↔ CanPay s signer uq (q - a.position.quoteFreeNative) := by
      by_cases h : q ≤ a.position.quoteFreeNative
      · unfold CanPay
        constructor <;> intro _ h0 <;> omega
      · rw [Int.min_eq_right (by omega)]
    rw [c1, c2]
    constructor
    · rintro ⟨h1, h2, ⟨x, hx⟩, h3, h4, h5, h6⟩; exact ⟨h1, h2, h3, h4, a, rfl, h5, h6⟩
    · rintro ⟨h1, h2, h3, h4, x, hx, h5, h6⟩
      injection hx with hx; subst hx
      exact ⟨h1, h2, ⟨_, ha⟩, h3, h4, h5, h6⟩

/-- Settling succeeds exactly when the market is open, the owner or the delegate of the account signs, the token accounts are of the
right mints, those given by the delegate belong to the owner, and the penalties can be paid. -/
theorem C73_settle (s : State) (hr : Reachable s) (c : SettleCtx)
    (hf : SupplyFits s ([s.g.market.marketBaseVault, s.g.market.marketQuoteVault, c.userBase, c.userQuote] ++ c.referrer.toList))
    (hl : LamportsFit s c.penaltyPayer) (hs : s.g.market.feesToReferrers < 2 ^ 127)
    (hsig : c.signer ≠ s.g.market.marketAuthority) (hpay : c.penaltyPayer ≠ s.g.market.marketAuthority) :
    (∃ s', step s (.settleFunds c) = .ok s') ↔
      s.closed = false ∧ ∃ a, s.g.accts.get? c.ooKey = some a ∧
        ((a.delegate = 0 ∨ c.signer ≠ a.delegate) ∧ c.signer = a.owner ∨
          a.delegate ≠ 0 ∧ c.signer = a.delegate ∧ (s.tokens c.userBase).owner = a.owner ∧ (s.tokens c.userQuote).owner = a.owner) ∧
        RightAccounts s c a := by
  constructor
  · rintro ⟨s', h⟩
    obtain ⟨h1, h2, a, ha, h3, h4, h5⟩ := settleFunds_inv h
    refine ⟨h2, a, ha, ?_, (settle_exact hr ha hf hl hs).mp ⟨s', h1⟩⟩
    unfold OOA.isSettleDestinationAllowed at h4 h5
    by_cases hd : a.delegate ≠ 0 ∧ c.signer = a.delegate
    · rw [if_pos hd] at h4 h5
      exact .inr ⟨hd.1, hd.2, (by simpa using h4 : a.owner = _).symm, (by simpa using h5 : a.owner = _).symm⟩
    · rw [if_neg hd] at h4
      refine .inl ⟨?_, by simpa using h4⟩
      by_cases h0 : a.delegate = 0
      · exact .inl h0
      · exact .inr (fun e => hd ⟨h0, e⟩)
  · rintro ⟨h2, a, ha, h3, R⟩
    obtain ⟨s', h⟩ := (settle_exact hr ha hf hl hs).mpr R
    refine ⟨s', settleFunds_ok h2 ha hsig hpay ?_ ?_ h⟩
    · rcases h3 with ⟨_, h⟩ | ⟨h, h', _⟩
      · exact .inl h
      · exact .inr ⟨h, h'⟩
    · rintro h4
      rcases h3 with ⟨h5, h⟩ | ⟨_, _, h, h'⟩
      · rcases h4 with h4 | h4
        · exact absurd h h4
        · rcases h5 with h5 | h5
          · exact absurd h5 h4.1
          · exact absurd h4.2 h5
      · exact ⟨h, h'⟩

/-- Settling for somebody else on a market that has ended: the same for the close admin, to token accounts of the owner. -/
theorem C73_settle_expired (s : State) (hr : Reachable s) (admin : Pubkey) (c : SettleCtx) (now : Int)
    (hf : SupplyFits s ([s.g.market.marketBaseVault, s.g.market.marketQuoteVault, c.userBase, c.userQuote] ++ c.referrer.toList))
    (hl : LamportsFit s c.penaltyPayer) (hs : s.g.market.feesToReferrers < 2 ^ 127) (hpay : c.penaltyPayer ≠ s.g.market.marketAuthority) :
    (∃ s', step s (.settleFundsExpired admin c now) = .ok s') ↔
      s.closed = false ∧ Ended s now ∧ IsCloser s admin ∧ ∃ a, s.g.accts.get? c.ooKey = some a ∧
        (s.tokens c.userBase).owner = a.owner ∧ (s.tokens c.userQuote).owner = a.owner ∧ RightAccounts s c a := by
  constructor
  · rintro ⟨s', h⟩
    obtain ⟨h1, h2, h3, h4, h5, a, ha, h6, h7⟩ := settleFundsExpired_inv h
    exact ⟨h2, isExpired_iff.mp h5, ⟨h3, h4⟩, a, ha, h6, h7, (settle_exact hr ha hf hl hs).mp ⟨s', h1⟩⟩
  · rintro ⟨h1, h2, h3, a, ha, h4, h5, R⟩
    obtain ⟨s', h⟩ := (settle_exact hr ha hf hl hs).mpr R
    refine ⟨s', ?_⟩
    simp only [step, settleFundsExpired, State.open?, signerOk, bind_ok, req_ok, Accts.get_ok]
    exact ⟨(), h1, (), hpay, (), h3.1, (), h3.2, a, ha, (), h4, (), h5, (), isExpired_iff.mpr h2, h⟩

/-- Sweeping the fees succeeds exactly when the market is open, the fee admin signs and the receiver is of the quote mint. -/
theorem C73_sweep (s : State) (hr : Reachable s) (admin receiver : Pubkey) (hf : SupplyFits s [s.g.market.marketQuoteVault, receiver]) :
    (∃ s', step s (.sweepFees admin receiver) = .ok s') ↔
      s.closed = false ∧ s.g.market.collectFeeAdmin = admin ∧ (s.tokens receiver).mint = s.g.market.quoteMint := by
  have hi := reachable_Inv hr
  have hvq := hi.vq
  have M : mintIs s.tokens receiver s.g.market.marketQuoteVault = .ok () ↔ _ := mintIs_iff hvq.mint (reachable_mints0 hr).2
  constructor
  · rintro ⟨s', h⟩
    simp only [step, sweepFees, State.open?, bind_ok, req_ok] at h
    obtain ⟨_, h1, _, h2, _, h3, _⟩ := h
    exact ⟨h1, h2, M.mp h3⟩
  · rintro ⟨h1, h2, h3⟩
    have av := hi.core.avail
    have le := hvq.le
    have t0 := hvq.total
    have fl := fees_covered hi
    unfold inU64 at av t0
    obtain ⟨t, ht⟩ := tokenTransfer_ok2 (t := s.tokens) (amt := s.g.market.feesAvailable) (src := s.g.market.marketQuoteVault)
      (dst := receiver) (auth := s.g.market.marketAuthority) (by omega) (by rw [hvq.mint, h3]) hvq.owner (by
        by_cases e : receiver = s.g.market.marketQuoteVault
        · exact .inl e
        · have g1 := hf.1 receiver (by simp)
          have g2 := hf.2 s.g.market.marketQuoteVault (by simp) receiver (by simp) (Ne.symm e) (by rw [hvq.mint, h3])
          unfold tokens at g1 g2
          right; omega)
    simp only [step, sweepFees, State.open?, bind_ok, req_ok, pure_ok, ckU64_ok]
    exact ⟨_, (), h1, (), h2, (), M.mpr h3, _, ⟨⟨by omega, by omega⟩, rfl⟩, t, ht, rfl⟩

/-- An order is cancelled exactly when it rests on the book, it is of the account given, and the owner or delegate of the account signs.
(As long as less than 2^63 orders were posted.) -/
theorem C73_cancel_order (s : State) (hr : Reachable s) (hn : s.g.market.seqNum < 2 ^ 63) (signer k : Pubkey) (id : Nat)
    (hs : signer ≠ s.g.market.marketAuthority) :
    (∃ s', step s (.cancelOrder signer k id) = .ok s') ↔
      Controls s signer k ∧ ∃ x ∈ s.book.resting, x.2.2.owner = k ∧ x.2.2.key = id := by
  constructor
  · rintro ⟨s', h⟩
    obtain ⟨x, h1, h2, h3⟩ := cancelOrderIx_full (reachable_Inv hr) h
    exact ⟨h3, x, h2.book.mem_iff.mpr (by simp), h2.owner x (by simp), h1⟩
  · rintro ⟨h1, x, hx, rfl, rfl⟩
    obtain ⟨s', h, _⟩ := C40_cancel_order s hr hn x hx signer h1 hs
    exact ⟨s', h⟩

/-- Cancelling all orders, of one or both sides, succeeds exactly when the market is open and the owner or delegate signs.  (The
instruction adds up the cancelled lots in 64 bits, hence the bound.) -/
theorem C73_cancel_all (s : State) (hr : Reachable s) (signer k : Pubkey) (side : Option Side) (limit : Nat)
    (hs : signer ≠ s.g.market.marketAuthority)
    (hl : ∀ a, s.g.accts.get? k = some a → a.position.bidsBaseLots + a.position.asksBaseLots < 2 ^ 63) :
    (∃ s', step s (.cancelAll signer k side limit) = .ok s') ↔ s.closed = false ∧ Controls s signer k := by
  constructor
  · rintro ⟨s', h⟩
    simp only [step, cancelAll, authCancel, State.open?, signerOk, bind_ok, req_ok, pure_ok, Accts.get_ok] at h
    obtain ⟨_, ⟨_, h1, _, _, a, ha, _, h2, _⟩, _⟩ := h
    exact ⟨h1, owner_controls ha h2⟩
  · rintro ⟨h1, h2⟩
    obtain ⟨a, ha, _⟩ := id h2
    have := hl a ha
    obtain ⟨q, s', h⟩ := cancelAllFor_ok (limit := limit) (so := side) (co := none) (reachable_Inv hr) (reachable_Extra hr) ha
      (by have : i64Max = 2 ^ 63 - 1 := by decide
          omega)
    refine ⟨s', ?_⟩
    simp only [step, cancelAll, authCancel, State.open?, signerOk, bind_ok, req_ok, pure_ok, Accts.get_ok]
    exact ⟨a, ⟨(), h1, (), hs, a, ha, (), controls_owner ha h2, rfl⟩, _, h, rfl⟩

/-- Cancelling by client order id: the same, whether or not any order has that id. -/
theorem C73_cancel_by_client_id (s : State) (hr : Reachable s) (signer k : Pubkey) (client : Nat)
    (hs : signer ≠ s.g.market.marketAuthority)
    (hl : ∀ a, s.g.accts.get? k = some a → a.position.bidsBaseLots + a.position.asksBaseLots < 2 ^ 63) :
    (∃ s', step s (.cancelByClientId signer k client) = .ok s') ↔ s.closed = false ∧ Controls s signer k := by
  constructor
  · rintro ⟨s', h⟩
    simp only [step, cancelByClientId, authCancel, State.open?, signerOk, bind_ok, req_ok, pure_ok, Accts.get_ok] at h
    obtain ⟨_, ⟨_, ⟨_, h1, _, _, a, ha, _, h2, _⟩, _⟩, _⟩ := h
    exact ⟨h1, owner_controls ha h2⟩
  · rintro ⟨h1, h2⟩
    obtain ⟨a, ha, _⟩ := id h2
    have := hl a ha
    obtain ⟨q, s', h⟩ := cancelAllFor_ok (limit := 255) (so := none) (co := some client) (reachable_Inv hr) (reachable_Extra hr) ha
      (by have : i64Max = 2 ^ 63 - 1 := by decide
          omega)
    refine ⟨s', ?_⟩
    simp only [step, cancelByClientId, authCancel, State.open?, signerOk, bind_ok, req_ok, pure_ok, Accts.get_ok]
    exact ⟨_, ⟨a, ⟨(), h1, (), hs, a, ha, (), controls_owner ha h2, rfl⟩, h⟩, rfl⟩

/-- Pruning succeeds exactly when the market is open and has ended, the close admin signs and the account exists. -/
theorem C73_prune (s : State) (hr : Reachable s) (admin k : Pubkey) (now : Int) (limit : Nat)
    (hl : ∀ a, s.g.accts.get? k = some a → a.position.bidsBaseLots + a.position.asksBaseLots < 2 ^ 63) :
    (∃ s', step s (.pruneOrders admin k now limit) = .ok s') ↔
      s.closed = false ∧ Ended s now ∧ IsCloser s admin ∧ ∃ a, s.g.accts.get? k = some a := by
  constructor
  · rintro ⟨s', h⟩
    obtain ⟨h1, h2, q, h3⟩ := pruneOrders_inv h
    obtain ⟨h4, h5⟩ := authClose_iff.mp h1
    unfold cancelAllFor at h3
    simp only [bind_ok, Accts.get_ok] at h3
    obtain ⟨a, ha, _⟩ := h3
    exact ⟨h4, isExpired_iff.mp h2, h5, a, ha⟩
  · rintro ⟨h1, h2, h3, a, ha⟩
    have := hl a ha
    obtain ⟨q, s', h⟩ := cancelAllFor_ok (limit := limit) (so := none) (co := none) (reachable_Inv hr) (reachable_Extra hr) ha
      (by have : i64Max = 2 ^ 63 - 1 := by decide
          omega)
    refine ⟨s', ?_⟩
    simp only [step, pruneOrders, bind_ok, req_ok, pure_ok]
    exact ⟨(), authClose_iff.mpr ⟨h1, h3⟩, (), isExpired_iff.mpr h2, _, h, rfl⟩

/-- Delivering events succeeds exactly when the market is open and the admin for it, if there is one, signs: no event can be stuck. -/
theorem C73_consume (s : State) (hr : Reachable s) (hc : CountersLow s) (admin : Pubkey) (limit : Nat) (rem : List Pubkey) :
    (∃ s', step s (.consumeEvents admin limit rem) = .ok s') ↔ s.closed = false ∧ s.g.market.consumeEventsAdmin = admin := by
  constructor
  · rintro ⟨s', h⟩
    simp only [step, consumeEvents, State.open?, bind_ok, req_ok] at h
    obtain ⟨_, h1, _, h2, _⟩ := h
    exact ⟨h1, h2⟩
  · rintro ⟨h1, rfl⟩
    exact consumeEvents_ok (reachable_Inv hr) (reachable_Extra hr) h1 (fun _ h => by cases h) hc.2.2 hc.1 hc.2.1

/-- With a list of slots, all of them must be in range. -/
theorem C73_consume_given (s : State) (hr : Reachable s) (hc : CountersLow s) (admin : Pubkey) (slots : List Nat) (rem : List Pubkey) :
    (∃ s', step s (.consumeGivenEvents admin slots rem) = .ok s') ↔
      s.closed = false ∧ s.g.market.consumeEventsAdmin = admin ∧ ∀ i ∈ slots, i < 600 := by
  constructor
  · rintro ⟨s', h⟩
    simp only [step, consumeGivenEvents, consumeEvents, State.open?, bind_ok, req_ok] at h
    obtain ⟨_, h0, _, h1, _, h2, _⟩ := h
    exact ⟨h1, h2, fun i hi => of_decide_eq_true (List.all_eq_true.mp h0 i hi)⟩
  · rintro ⟨h1, rfl, h3⟩
    obtain ⟨s', h⟩ := consumeEvents_ok (slots := slots) (limit := slots.length) (rem := rem) (reachable_Inv hr) (reachable_Extra hr)
      h1 h3 hc.2.2 hc.1 hc.2.1
    refine ⟨s', ?_⟩
    simp only [step, consumeGivenEvents, bind_ok, req_ok]
    exact ⟨(), List.all_eq_true.mpr (fun i hi => decide_eq_true (h3 i hi)), h⟩

/-- A market is ended exactly when it is open, has not ended, and the close admin signs. -/
theorem C73_set_expired (s : State) (admin : Pubkey) (now : Int) :
    (∃ s', step s (.setMarketExpired admin now) = .ok s') ↔ s.closed = false ∧ ¬ Ended s now ∧ IsCloser s admin := by
  constructor
  · rintro ⟨s', h⟩
    obtain ⟨h1, h2, _⟩ := setMarketExpired_inv h
    obtain ⟨h4, h5⟩ := authClose_iff.mp h1
    exact ⟨h4, not_expired_iff.mp h2, h5⟩
  · rintro ⟨h1, h2, h3⟩
    simp only [step, setMarketExpired, bind_ok, req_ok, pure_ok]
    exact ⟨_, (), authClose_iff.mpr ⟨h1, h3⟩, (), not_expired_iff.mpr h2, rfl⟩

/-- A market is closed exactly when it is open and has ended, the close admin signs, no order rests, no event is queued, the fees are
swept, and nothing is owed to any account. -/
theorem C73_close_market (s : State) (hr : Reachable s) (admin : Pubkey) (now : Int) :
    (∃ s', step s (.closeMarket admin now) = .ok s') ↔
      s.closed = false ∧ Ended s now ∧ IsCloser s admin ∧ s.book.resting = [] ∧ s.g.heap.events = [] ∧
      s.g.market.feesAvailable = 0 ∧ ∀ k a, s.g.accts.get? k = some a → NothingOwed a := by
  have hi := reachable_Inv hr
  constructor
  · rintro ⟨s', h⟩
    have P := closeMarket_inv h
    obtain ⟨h4, h5⟩ := authClose_iff.mp P.auth
    have hb := resting_nil hi.core.bookOk P.bids P.asks
    have he := events_nil hi.core.linv P.heap
    exact ⟨h4, isExpired_iff.mp P.expired, h5, hb, he, (empty_exact hi hb he).mp P.empty⟩
  · rintro ⟨h1, h2, h3, hb, he, h4⟩
    obtain ⟨b1, b2⟩ := isEmpty_of_resting hi.core.bookOk hb
    have hheap : s.g.heap.isEmpty = true := by
      obtain ⟨O, q, hw⟩ := hi.core.linv
      have c := hw.heap.count
      have hq : q = [] := by
        have : q.map (·.2) = [] := by rw [← hw.heap.events]; exact he
        exact List.map_eq_nil_iff.mp this
      rw [hq] at c
      unfold EventHeap.isEmpty
      exact decide_eq_true c
    simp only [step, closeMarket, bind_ok, req_ok, pure_ok]
    exact ⟨_, (), authClose_iff.mpr ⟨h1, h3⟩, (), isExpired_iff.mpr h2, (), (empty_exact hi hb he).mpr h4, true, b1, true, b2, (), ⟨rfl, rfl⟩,
      (), hheap, rfl⟩

/-- An open orders account is created exactly when the market is open and the address is free. -/
theorem C73_create_account (s : State) (k owner delegate : Pubkey) (hs : owner ≠ s.g.market.marketAuthority) :
    (∃ s', step s (.createOO k owner delegate) = .ok s') ↔ s.closed = false ∧ s.g.accts.get? k = none := by
  constructor
  · rintro ⟨s', h⟩
    obtain ⟨h1, _, h2, _⟩ := createOO_inv h
    exact ⟨h1, h2⟩
  · rintro ⟨h1, h2⟩
    simp only [step, createOO, State.open?, signerOk, bind_ok, req_ok, pure_ok]
    exact ⟨_, (), h1, (), hs, (), h2, rfl⟩

/-- An open orders account is closed exactly when its owner signs, it has no lots in orders, nothing is owed to it, and it owes no
penalty. -/
theorem C73_close_account (s : State) (k owner : Pubkey) :
    (∃ s', step s (.closeOO k owner) = .ok s') ↔ ∃ a, s.g.accts.get? k = some a ∧ a.owner = owner ∧ NothingOwed a ∧
      a.position.bidsBaseLots = 0 ∧ a.position.bidsQuoteLots = 0 ∧ a.position.asksBaseLots = 0 ∧ a.position.penaltyHeapCount = 0 := by
  constructor
  · rintro ⟨s', h⟩
    obtain ⟨a, h1, h2, h3, _⟩ := closeOO_inv h
    exact ⟨a, h1, h2, ⟨h3.base, h3.quote, h3.fees, h3.refs⟩, h3.bids, h3.bidsQ, h3.asks, h3.pen⟩
  · rintro ⟨a, h1, h2, ⟨b1, b2, b3, b4⟩, h4, h5, h6, h7⟩
    simp only [step, closeOO, bind_ok, req_ok, pure_ok, Accts.get_ok]
    exact ⟨_, a, h1, (), h2, (), isEmpty_iff.mpr ⟨h4, h6, b1, b2, b3, b4, h7, h5⟩, rfl⟩

/-- The delegate is set exactly when the owner signs. -/
theorem C73_set_delegate (s : State) (k owner delegate : Pubkey) :
    (∃ s', step s (.setDelegate k owner delegate) = .ok s') ↔ ∃ a, s.g.accts.get? k = some a ∧ a.owner = owner := by
  constructor
  · rintro ⟨s', h⟩
    obtain ⟨a, h1, h2, _⟩ := setDelegate_inv h
    exact ⟨a, h1, h2⟩
  · rintro ⟨a, h1, h2⟩
    simp only [step, setDelegate, bind_ok, req_ok, pure_ok, Accts.get_ok]
    exact ⟨_, a, h1, (), h2, rfl⟩

namespace ExactCase
open Scenario

/-- The facts about the environment that the theorems use, checked. -/
def fitsB (s : State) (ks : List Pubkey) : Bool :=
  ks.all (fun i => decide (0 ≤ tokens s i)) &&
  ks.all (fun i => ks.all (fun j => decide (i ≠ j → (s.tokens i).mint = (s.tokens j).mint → tokens s i + tokens s j ≤ u64Max)))

theorem fitsB_spec {s : State} {ks : List Pubkey} (h : fitsB s ks = true) : SupplyFits s ks := by
  unfold fitsB at h
  rw [Bool.and_eq_true] at h
  refine ⟨fun i hi => of_decide_eq_true (List.all_eq_true.mp h.1 i hi), fun i hi j hj => ?_⟩
  exact of_decide_eq_true (List.all_eq_true.mp (List.all_eq_true.mp h.2 i hi) j hj)

/-- A market in use: the environment is as assumed.  A deposit by 31 works; the same from the token accounts of 32 does not, nor does one
of more than 31 has. -/
example : ∃ s : State, Reachable s ∧ SupplyFits s [s.g.market.marketBaseVault, s.g.market.marketQuoteVault, 51, 61] ∧
    (31 : Pubkey) ≠ s.g.market.marketAuthority ∧
    ((step s (.deposit 31 41 51 61 1000 100 100)).isOk ∧ ¬ (step s (.deposit 31 41 52 62 1000 100 100)).isOk ∧
      (step s (.deposit 31 41 52 62 1000 0 0)).isOk ∧ ¬ (step s (.deposit 31 41 51 61 1000 1000000 100)).isOk) := by
  obtain ⟨s, h1, h2⟩ := exec_spec (a := args) (ops := ops1) (p := fun s =>
    fitsB s [s.g.market.marketBaseVault, s.g.market.marketQuoteVault, 51, 61] &&
    decide ((31 : Pubkey) ≠ s.g.market.marketAuthority) &&
    decide ((step s (.deposit 31 41 51 61 1000 100 100)).isOk ∧ ¬ (step s (.deposit 31 41 52 62 1000 100 100)).isOk ∧
      (step s (.deposit 31 41 52 62 1000 0 0)).isOk ∧ ¬ (step s (.deposit 31 41 51 61 1000 1000000 100)).isOk)) (by decide +kernel)
  simp only [Bool.and_eq_true, decide_eq_true_eq] at h2
  exact ⟨s, h1, fitsB_spec h2.1.1, h2.1.2, h2.2⟩

/-- Settling with a referrer, and the bounds for cancelling. -/
example : ∃ s : State, Reachable s ∧ SupplyFits s ([s.g.market.marketBaseVault, s.g.market.marketQuoteVault, 51, 61] ++ (some 63).toList) ∧
    LamportsFit s 31 ∧ s.g.market.feesToReferrers < 2 ^ 127 ∧ s.g.market.seqNum < 2 ^ 63 ∧
    (∀ a, s.g.accts.get? 41 = some a → a.position.bidsBaseLots + a.position.asksBaseLots < 2 ^ 63) ∧
    ((step s (.settleFunds ⟨31, 31, 41, 51, 61, some 63⟩)).isOk ∧ (step s (.settleFunds ⟨31, 31, 41, 52, 62, some 63⟩)).isOk ∧
      ¬ (step s (.settleFunds ⟨31, 31, 41, 61, 51, none⟩)).isOk ∧ ¬ (step s (.settleFunds ⟨32, 31, 41, 51, 61, none⟩)).isOk ∧
      (step s (.cancelAll 31 41 none 3)).isOk ∧ ¬ (step s (.cancelAll 32 41 none 3)).isOk ∧ (step s (.sweepFees 1 62)).isOk) := by
  obtain ⟨s, h1, h2⟩ := exec_spec (a := args) (ops := ops1) (p := fun s =>
    fitsB s ([s.g.market.marketBaseVault, s.g.market.marketQuoteVault, 51, 61] ++ (some 63).toList) &&
    decide (0 ≤ s.lamports 31 ∧ s.lamports 31 ≤ u64Max ∧ 0 ≤ s.lamports s.marketKey ∧
      (31 ≠ s.marketKey → s.lamports 31 + s.lamports s.marketKey ≤ u64Max)) &&
    decide (s.g.market.feesToReferrers < 2 ^ 127 ∧ s.g.market.seqNum < 2 ^ 63) &&
    decide (∀ x ∈ s.g.accts, x.2.position.bidsBaseLots + x.2.position.asksBaseLots < 2 ^ 63) &&
    decide ((step s (.settleFunds ⟨31, 31, 41, 51, 61, some 63⟩)).isOk ∧ (step s (.settleFunds ⟨31, 31, 41, 52, 62, some 63⟩)).isOk ∧
      ¬ (step s (.settleFunds ⟨31, 31, 41, 61, 51, none⟩)).isOk ∧ ¬ (step s (.settleFunds ⟨32, 31, 41, 51, 61, none⟩)).isOk ∧
      (step s (.cancelAll 31 41 none 3)).isOk ∧ ¬ (step s (.cancelAll 32 41 none 3)).isOk ∧ (step s (.sweepFees 1 62)).isOk))
    (by decide +kernel)
  simp only [Bool.and_eq_true, decide_eq_true_eq] at h2
  obtain ⟨⟨⟨⟨a1, a2⟩, a3⟩, a4⟩, a5⟩ := h2
  refine ⟨s, h1, fitsB_spec a1, a2, a3.1, a3.2, fun a ha => a4 (41, a) ?_, a5⟩
  obtain ⟨_, _, h, _⟩ := Accts.split ha
  rw [h]; simp

/-- A market that can be closed, and the same market before the fees are swept, which cannot. -/
example : ∃ (s : State), Reachable s ∧ (step s (.closeMarket 2 1000)).isOk ∧ s.g.accts.length = 3 ∧ (step s (.closeOO 42 32)).isOk := by
  obtain ⟨s, h1, h2⟩ := exec_spec (a := args) (ops := CloseCase.unwind) (p := fun s =>
    decide ((step s (.closeMarket 2 1000)).isOk ∧ s.g.accts.length = 3 ∧ (step s (.closeOO 42 32)).isOk)) (by decide +kernel)
  exact ⟨s, h1, of_decide_eq_true h2⟩

example : ∃ (s : State), Reachable s ∧ ¬ (step s (.closeMarket 2 1000)).isOk ∧ s.book.resting = [] ∧ s.g.heap.events = [] := by
  obtain ⟨s, h1, h2⟩ := exec_spec (a := args) (ops := CloseCase.unwind.take 17 ++ [.setMarketExpired 2 1000]) (p := fun s =>
    decide (¬ (step s (.closeMarket 2 1000)).isOk ∧ s.book.resting.length = 0 ∧ s.g.heap.events.length = 0)) (by decide +kernel)
  obtain ⟨a, b, c⟩ := of_decide_eq_true h2
  exact ⟨s, h1, a, List.length_eq_zero_iff.mp b, List.length_eq_zero_iff.mp c⟩

end ExactCase

end OB
