import Verif.Proofs.TsPlace
import Verif.Props.C80_Ui
import Verif.Props.C63_Penalty
import Verif.Props.C59_Payment
/-!
C97  `placeOrder` of the TypeScript library places the order that was asked for, and names the accounts it trades with.

Price and size that the library shows come back as the same lots (C97_copy_partial, with the bounds of C80).  The limit on quote is read in
lots, not in the units of price and size (C97_limit_unit): the order spends no more than the limit if a lot is not more than a unit
(C97_limit_partial), but usually buys far less than asked.  A limit of 0 is no limit (C97_zero_limit), and without a limit the order asks
for more quote lots than the program takes, so that it is refused unless a lot is one native unit (C97_no_limit_refused).  The client
order id 0 becomes the time (C97_zero_id).  The accounts named suffice as in C65 if there are no pegged and expired orders (C97_makers, C97_immediate); if a
pegged order rests on the other side nothing can be placed at all (C97_pegged_blocks).
-/
namespace OB
open Spec TsTrade

variable {s s' : State} {um : Ui.Mkt} {oo wallet : Pubkey} {delegate : Option Pubkey} {ata : Pubkey → Pubkey → Pubkey} {o : OrderToPlace}
  {x : Ts.BookSide} {dateNow : Nat} {now : Int} {oracle : Option Int} {ix : Sent.Ix} {keys : List Pubkey}

/-- On a book side without pegged and expired orders the library names at most three accounts, the ones that the program of the router
would be given (C65). -/
theorem C97_makers (now : Nat) (oracle : Option Int) (hr : Reachable s)
    (hf : SideFits (s.book.side o.side.invert)) (hx : Loads s.book o.side.invert x)
    (hp : ∀ l, (o.side.invert, Comp.pegged, l) ∉ s.book.resting) (he : ∀ c l, (o.side.invert, c, l) ∈ s.book.resting → ¬ expired now l)
    (ht : o.orderType ≠ some .postOnly ∧ o.orderType ≠ some .postOnlySlide) :
    ∃ ks, makers o (some x) = .ok ks ∧ ks.Nodup ∧ ks.length ≤ 3 ∧ Client.remainingAccountsToCrank s.book o.side oracle now = .ok ks := by
  obtain ⟨ks, h1, h2⟩ := makers_eq (oracle := oracle) hr hf hx hp he ht
  obtain ⟨ks', k1, k2, k3, _⟩ := C65_router_list (.reachable s hr) o.side oracle now
  rw [h2] at k1
  cases k1
  exact ⟨ks, h1, k2, k3, h2⟩

/-- So an order of a trader without opposing orders that makes at most 15 fills with at most three makers, and removes no orders of others,
queues nothing and owes no penalty. -/
theorem C97_immediate (hr : Reachable s) (hf : SideFits (s.book.side o.side.invert)) (hx : Loads s.book o.side.invert x)
    (hp : ∀ l, (o.side.invert, Comp.pegged, l) ∉ s.book.resting)
    (he : ∀ c l, (o.side.invert, c, l) ∈ s.book.resting → ¬ expired now.toNat l ∧ l.owner ≠ oo)
    (ht : o.orderType ≠ some .postOnly ∧ o.orderType ≠ some .postOnlySlide)
    (hs : TsTrade.placeOrder s.g.market um oo wallet delegate ata o (some x) dateNow now oracle = .ok ix) (h : ix.run s keys = .ok s') :
    s' = s ∨ ∃ env r g1, EngineCall env s.book s.g r s'.book g1 ∧ env.order.side = o.side ∧ env.owner = oo ∧
      (r.fills.length ≤ 15 → AtMostMakers 3 r.fills → (∀ e ∈ r.outs, ¬ absent env e) →
        s'.g.heap.events = s.g.heap.events ∧ ∀ k, owes s' k = owes s k) := by
  obtain ⟨rem, args, h1, h2, rfl⟩ := placeOrder_sent hs
  obtain ⟨_, h⟩ := run_inv h
  obtain ⟨ks, k1, _, _, k2⟩ := C97_makers now.toNat oracle hr hf hx hp (fun c l hl => (he c l hl).1) ht
  rw [h1] at k1; cases k1
  have hside : args.side = o.side := (placeArgs_inv h2).1
  rcases placeOrder_call hr h with ⟨e, _⟩ | ⟨env, r, g1, P, E, hh⟩
  · exact .inl e
  · refine .inr ⟨env, r, g1, E, by rw [P.side, hside], P.owner.1, fun hl hm ho => ?_⟩
    have hnow : now.toNat = env.nowTs := by have := P.now; dsimp only at this; omega
    have hrem : env.rem = rem := P.rem
    have hor : env.oracle = oracle := P.oracle
    obtain ⟨A, a1, a2, a3⟩ := C65_router E (by
        rw [P.side, hside, P.owner.1]
        exact fun c l hl _ => (he c l hl).2) (ks := rem) (by rw [P.side, hside, hor, ← hnow]; exact k2) (by rw [hrem]; exact fun _ h => h)
      (n := r.fills.length) hl (by rw [List.take_length]; exact hm)
    rw [List.drop_length] at a2
    rw [List.filter_eq_nil_iff.mpr (fun e he => by simpa using ho e he)] at a3
    have hA : A = [] := by
      have := C65_events A
      rw [List.sublist_nil.mp a2, a3] at this
      exact List.length_eq_zero_iff.mp this
    have hev : s'.g.heap.events = s.g.heap.events := by rw [hh, a1, hA, List.append_nil]
    refine ⟨hev, fun k => ?_⟩
    obtain ⟨p1, p2, _⟩ := C63_order s s' _ oo hr rfl h
    by_cases hk : k = oo
    · subst hk
      rw [p1, if_neg (by unfold Grows; rw [hev]; omega)]; omega
    · exact p2 k hk

/-- Whenever an order goes through, the account of it is controlled by the wallet, or by the delegate if there is one, who signed; what it
costs comes from the token account of the wallet for the quote token if it is a bid, for the base token if it is an ask, and from no
other. -/
theorem C97_payer (hr : Reachable s) {book : Option Ts.BookSide}
    (hs : TsTrade.placeOrder s.g.market um oo wallet delegate ata o book dateNow now oracle = .ok ix) (h : ix.run s keys = .ok s') :
    Controls s (delegate.getD wallet) oo ∧ delegate.getD wallet ∈ keys ∧
    (o.side = .bid → FromWallets s s' (ata wallet s.g.market.quoteMint) (ata wallet s.g.market.quoteMint)) ∧
    (o.side = .ask → FromWallets s s' (ata wallet s.g.market.baseMint) (ata wallet s.g.market.baseMint)) := by
  obtain ⟨rem, args, h1, h2, rfl⟩ := placeOrder_sent hs
  obtain ⟨hk, h⟩ := run_inv h
  have hw := C59_from_wallets hr h rfl
  refine ⟨?_, hk _ (by simp [Sent.tsPlaceOrder]), fun e => by rw [e] at hw; exact hw, fun e => by rw [e] at hw; exact hw⟩
  have key : authPlace s (delegate.getD wallet) oo s.g.market.openOrdersAdmin = .ok () := by
    simp only [step, placeOrderIx, bind_ok, pure_ok, Sent.tsPlaceOrder] at h
    obtain ⟨⟨r, s1⟩, ⟨_, _, x, _, h⟩, _⟩ := h
    cases x with
    | none => simp only [bind_ok] at h; exact h.choose_spec.1
    | some z =>
      simp only [bind_ok] at h
      obtain ⟨_, h, _⟩ := h
      unfold OB.placeOrder at h
      simp only [bind_ok] at h
      exact h.choose_spec.1
  unfold authPlace at key
  simp only [bind_ok, req_ok, Accts.get_ok] at key
  obtain ⟨_, _, _, _, b, hb, _, hc, _⟩ := key
  exact owner_controls hb hc

/-- If a pegged order rests on the other side, `placeOrder` throws, unless the order only posts. -/
theorem C97_pegged_blocks {l : LeafNode} (hr : Reachable s) (hf : SideFits (s.book.side o.side.invert)) (hx : Loads s.book o.side.invert x)
    (hp : (o.side.invert, Comp.pegged, l) ∈ s.book.resting) (ht : o.orderType ≠ some .postOnly ∧ o.orderType ≠ some .postOnlySlide) :
    TsTrade.placeOrder s.g.market um oo wallet delegate ata o (some x) dateNow now oracle = .error .notImplemented := by
  obtain ⟨h1, _⟩ := C75_pegged_throws hr hf hx hp
  have : makers o (some x) = .error .notImplemented := by
    unfold makers
    simp only [ht.1, ht.2, or_self, if_false]
    rw [h1]; rfl
  unfold TsTrade.placeOrder
  rw [this]
  rfl

/-- An order that only posts is sent in the same way whatever rests on the other side, also if that cannot be read. -/
theorem C97_only_posts (m : Market) (book : Option Ts.BookSide) (ho : o.orderType = some .postOnly ∨ o.orderType = some .postOnlySlide) :
    TsTrade.placeOrder m um oo wallet delegate ata o book dateNow now oracle = TsTrade.placeOrder m um oo wallet delegate ata o none dateNow now oracle := by
  unfold TsTrade.placeOrder makers
  cases book with
  | none => rfl
  | some b => simp only [if_pos ho]

/-- Price and size as the library shows them, and a client order id other than 0: the order has exactly these. -/
theorem C97_copy_partial {p n b : Int} {c : Nat} (hm : UiMarket um) (ht : 1 / 10 ^ 4 ≤ lotPrice um ∨ ∃ k : Int, lotPrice um * 10 ^ 20 = k)
    (hp : 1 ≤ p) (hP : p * (10 ^ um.baseDecimals * um.quoteLotSize) ≤ 2 ^ 49) (hn : 0 ≤ n) (hN : n * um.baseLotSize ≤ 2 ^ 49)
    (hb : 1 ≤ b ∧ b < 2 ^ 53) (hc : c ≠ 0) :
    placeArgs um { o with price := um.priceLotsToUi p, size := um.baseLotsToUi n, quoteLimit := some (.fin b), clientOrderId := some c } dateNow =
      some { side := o.side, priceLots := p, maxBaseLots := n, maxQuoteLots := b, clientOrderId := c, orderType := o.orderType.getD .limit,
             expiry := o.expiryTimestamp.getD 0, stb := o.selfTradeBehavior.getD .decrementTake, limit := o.matchLoopLimit.getD 16 } := by
  unfold placeArgs
  rw [C80_price_partial hm ht hp hP, C80_base_partial hm hn hN]
  have htr : truthy (.fin (b : Rat)) = true := by simp [truthy, show b ≠ 0 by omega]
  simp [hc, budget, htr, bnOfNumber_int (show 0 ≤ b by omega) hb.2]

/-- An order without a limit, or with a limit of 0 or `NaN`, is never placed, neither a bid nor an ask, if a quote lot is more than one native unit (and the
taker fee less than 100 %): the program refuses it unless it has expired, and then ignores it. -/
theorem C97_no_limit_refused (hr : Reachable s) {book : Option Ts.BookSide} (hq : o.quoteLimit = none ∨ o.quoteLimit = some (.fin 0) ∨ o.quoteLimit = some .nan)
    (hlot : 2 ≤ s.g.market.quoteLotSize) (hfee : s.g.market.takerFee < 1000000)
    (hs : TsTrade.placeOrder s.g.market um oo wallet delegate ata o book dateNow now oracle = .ok ix) (h : ix.run s keys = .ok s') :
    s' = s ∧ ∃ t, o.expiryTimestamp = some t ∧ t ≠ 0 ∧ (t : Int) ≤ now := by
  obtain ⟨rem, args, h1, h2, rfl⟩ := placeOrder_sent hs
  obtain ⟨_, h⟩ := run_inv h
  obtain ⟨_, _, e3, e4⟩ := placeArgs_inv h2
  have hb : args.maxQuoteLots = i64Max := by
    rcases hq with hq | hq | hq <;> rw [hq] at e4
    · injection e4 with e4
      exact e4.symm
    · have : budget (some (.fin 0)) = some i64Max := by decide +kernel
      rw [this] at e4
      injection e4 with e4
      exact e4.symm
    · have : budget (some .nan) = some i64Max := by decide +kernel
      rw [this] at e4
      injection e4 with e4
      exact e4.symm
  obtain ⟨a1, a2, a3⟩ := unlimited_refused hr hlot hfee hb h
  refine ⟨a1, ?_⟩
  rw [placeArgs_expiry h2] at a2 a3
  cases ho : o.expiryTimestamp with
  | none => rw [ho] at a2; exact absurd rfl a2
  | some t => rw [ho] at a2 a3; exact ⟨t, rfl, a2, a3⟩

/-- A buyer with a limit other than 0 pays at most the limit if a quote lot is at most a unit of the quote token. -/
theorem C97_limit_partial (hr : Reachable s) {book : Option Ts.BookSide} {v : Rat} (hside : o.side = .bid) (hq : o.quoteLimit = some (.fin v))
    (hv : 0 < v) (hlot : s.g.market.quoteLotSize ≤ 10 ^ um.quoteDecimals)
    (hs : TsTrade.placeOrder s.g.market um oo wallet delegate ata o book dateNow now oracle = .ok ix) (h : ix.run s keys = .ok s') :
    ∃ amount : Int, (amount : Rat) ≤ v * 10 ^ um.quoteDecimals ∧ PaysQuote s s' oo (ata wallet s.g.market.quoteMint) amount := by
  obtain ⟨rem, args, h1, h2, rfl⟩ := placeOrder_sent hs
  obtain ⟨_, h⟩ := run_inv h
  obtain ⟨e1, _, _, e4⟩ := placeArgs_inv h2
  rw [hq] at e4
  have htr : truthy (.fin v) = true := by simp [truthy, hv.ne']
  simp only [budget, htr, if_true] at e4
  obtain ⟨b0, b1⟩ := bnOfNumber_le hv.le e4
  refine ⟨args.maxQuoteLots * s.g.market.quoteLotSize, ?_, ?_⟩
  · push_cast
    have hl : (s.g.market.quoteLotSize : Rat) ≤ 10 ^ um.quoteDecimals := by exact_mod_cast hlot
    calc (args.maxQuoteLots : Rat) * s.g.market.quoteLotSize ≤ args.maxQuoteLots * 10 ^ um.quoteDecimals :=
          mul_le_mul_of_nonneg_left hl (by exact_mod_cast b0)
      _ ≤ v * 10 ^ um.quoteDecimals := mul_le_mul_of_nonneg_right b1 (by positivity)
  · rw [hside] at h e1
    have := C02_instruction hr h oo (ata wallet s.g.market.quoteMint) (max args.maxQuoteLots 0) (by simp [Sent.tsPlaceOrder, bidBudget, e1])
    rw [max_eq_left b0] at this
    exact this

/-- The limit is taken as a number of lots: in a market of SOL against USDC a limit of 1000 USDC is one of 0.1 USDC. -/
theorem C97_limit_unit (o : OrderToPlace) (d : Nat) : (∀ um a, placeArgs um { o with quoteLimit := some (.fin 1000) } d = some a → a.maxQuoteLots = 1000) ∧
    UiMarket solUsdc ∧ solUsdc.quoteUiToLots (.fin 1000) = some 10000000 := by
  refine ⟨fun um a h => ?_, solUsdc_ok, by decide +kernel⟩
  have := (placeArgs_inv h).2.2.2
  have e : budget (some (.fin 1000)) = some 1000 := by decide +kernel
  simp only [e] at this
  injection this with this
  exact this.symm

/-- A limit of 0, or one that is not a number, is no limit. -/
theorem C97_zero_limit (um : Ui.Mkt) (o : OrderToPlace) (d : Nat) {q : F64} (hq : q = .fin 0 ∨ q = .nan) :
    placeArgs um { o with quoteLimit := some q } d = placeArgs um { o with quoteLimit := none } d ∧
    ∀ a, placeArgs um { o with quoteLimit := some q } d = some a → a.maxQuoteLots = i64Max := by
  have e : placeArgs um { o with quoteLimit := some q } d = placeArgs um { o with quoteLimit := none } d := by
    unfold placeArgs
    have : budget (some q) = budget none := by rcases hq with rfl | rfl <;> decide +kernel
    simp only [this]
  refine ⟨e, fun a h => ?_⟩
  rw [e] at h
  have := (placeArgs_inv h).2.2.2
  injection this with this
  exact this.symm

/-- The client order id 0 becomes the time in milliseconds. -/
theorem C97_zero_id (um : Ui.Mkt) (o : OrderToPlace) (d : Nat) : ∀ a, placeArgs um { o with clientOrderId := some 0 } d = some a → a.clientOrderId = d := by
  intro a h
  unfold placeArgs at h
  simp only [Option.bind_eq_bind, Option.bind_eq_some_iff] at h
  obtain ⟨_, _, _, _, _, _, h⟩ := h
  cases h
  rfl

/-! ### cases -/

namespace PlaceCase
open Scenario

/-- Asks of two traders, none of the third. -/
def asks : List Op := TsCase.setup ++ [place 1 .ask 1010 5 2, place 2 .ask 1010 3 3]

/-- Decimals for the market of the scenario: sizes in steps of 0.1, prices in steps of 0.1. -/
def mkt : Ui.Mkt := { baseDecimals := 3, quoteDecimals := 3, baseLotSize := 100, quoteLotSize := 10 }

theorem mkt_ok : UiMarket mkt := ⟨by decide, by decide, by decide, by decide⟩

/-- Buy 6 lots at up to 1020 lots, for 10000 quote lots. -/
def buy : OrderToPlace :=
  { side := .bid, price := mkt.priceLotsToUi 1020, size := mkt.baseLotsToUi 6, quoteLimit := some (.fin (10000 : Int)), clientOrderId := some 7 }

def buyArgs : PlaceOrderArgs :=
  { side := .bid, priceLots := 1020, maxBaseLots := 6, maxQuoteLots := 10000, clientOrderId := 7, orderType := .limit, expiry := 0,
    stb := .decrementTake, limit := 16 }

theorem buy_args (d : Nat) : placeArgs mkt buy d = some buyArgs :=
  C97_copy_partial (o := buy) (p := 1020) (n := 6) (b := 10000) (c := 7) mkt_ok (.inl (by unfold lotPrice mkt; norm_num)) (by decide) (by decide) (by decide)
    (by decide) (by decide) (by decide)

/-- It is sent with the accounts of both sellers, and bought at once from both. -/
example : ∃ (s s' : State) (x : Ts.BookSide) (ix : Sent.Ix), Reachable s ∧ SideFits (s.book.side .ask) ∧ Loads s.book .ask x ∧
    (∀ l, (Side.ask, Comp.pegged, l) ∉ s.book.resting) ∧ (∀ c l, (Side.ask, c, l) ∈ s.book.resting → ¬ expired (1000 : Int).toNat l ∧ l.owner ≠ 41) ∧
    TsTrade.placeOrder s.g.market mkt 41 31 none (fun _ _ => 61) buy (some x) 5 1000 none = .ok ix ∧ ix.run s [31] = .ok s' ∧
    decide (s.book.resting.length = 2 ∧ s'.book.resting.length = 1 ∧ s'.g.heap.events = []) = true := by
  obtain ⟨s, h1, h2⟩ := Scenario.exec_spec (a := Scenario.args) (ops := asks) (p := fun s =>
    decide (SideFits (s.book.side .ask) ∧ (∀ y ∈ s.book.resting, y.2.1 ≠ .pegged ∧ ¬ expired (1000 : Int).toNat y.2.2 ∧ y.2.2.owner ≠ 41) ∧
      s.g.market.quoteMint = 11 ∧ s.g.market.openOrdersAdmin = 0 ∧
      Client.remainingAccountsToCrank s.book .bid none 1000 = .ok [42, 43] ∧ s.book.resting.length = 2) &&
    okAnd (step s (.placeOrder { signer := 31, ooKey := 41, admin := 0, userToken := 61, now := 1000, oracle := none, rem := [42, 43] } buyArgs)) (fun s' => decide (s'.book.resting.length = 1 ∧ s'.g.heap.events = []))) (by decide +kernel)
  rw [Bool.and_eq_true, decide_eq_true_eq] at h2
  obtain ⟨⟨hf, hall, hq, had, hcr, hlen⟩, h2⟩ := h2
  obtain ⟨s', h3, h4⟩ := okAnd_spec h2
  obtain ⟨x, hx, _⟩ := C75_loads hf
  have hp : ∀ l, (Side.ask, Comp.pegged, l) ∉ s.book.resting := fun l hl => (hall _ hl).1 rfl
  obtain ⟨ks, k1, _, _, k2⟩ := C97_makers (o := buy) 1000 none h1 hf hx hp (fun c l hl => (hall _ hl).2.1) (by decide)
  have k3 : Client.remainingAccountsToCrank s.book .bid none 1000 = .ok ks := k2
  rw [hcr] at k3
  cases k3
  refine ⟨s, s', x, Sent.tsPlaceOrder s.g.market 31 41 61 buyArgs [42, 43] none 1000 none, h1, hf, hx, hp, fun c l hl => (hall _ hl).2, ?_, ?_, ?_⟩
  · unfold TsTrade.placeOrder
    rw [k1, buy_args]
    rfl
  · refine run_ok ?_ ?_
    · simp [Sent.tsPlaceOrder, Sent.given, had]
    · simp only [Sent.tsPlaceOrder, had]
      exact h3
  · have := of_decide_eq_true h4
    exact decide_eq_true ⟨hlen, this⟩

/-- The same order without a limit is sent to the same market, whose quote lots are of 10 native units. -/
example : ∃ (s : State) (ix : Sent.Ix), Reachable s ∧ 2 ≤ s.g.market.quoteLotSize ∧ s.g.market.takerFee < 1000000 ∧
    TsTrade.placeOrder s.g.market mkt 41 31 none (fun _ _ => 61) { buy with quoteLimit := none } none 5 1000 none = .ok ix := by
  obtain ⟨s, h1, h2⟩ := Scenario.exec_spec (a := Scenario.args) (ops := asks) (p := fun s =>
    decide (2 ≤ s.g.market.quoteLotSize ∧ s.g.market.takerFee < 1000000)) (by decide +kernel)
  obtain ⟨h2, h3⟩ := of_decide_eq_true h2
  obtain ⟨a, ha⟩ := Option.isSome_iff_exists.mp (show (placeArgs mkt { buy with quoteLimit := none } 5).isSome = true by decide +kernel)
  exact ⟨s, Sent.tsPlaceOrder s.g.market 31 41 61 a [] none 1000 none, h1, h2, h3, by unfold TsTrade.placeOrder; rw [ha]; rfl⟩

/-- A pegged ask of another trader rests far from the market: `buy` cannot be placed. -/
example : ∃ (s : State) (x : Ts.BookSide), Reachable s ∧ Loads s.book .ask x ∧
    TsTrade.placeOrder s.g.market mkt 41 31 none (fun _ _ => 61) buy (some x) 5 1000 none = .error .notImplemented := by
  obtain ⟨s, h1, h2⟩ := Scenario.exec_spec (a := Scenario.args) (ops := asks ++ [placePegged 1 .ask 500 1000 2 9]) (p := fun s =>
    decide (SideFits (s.book.side .ask) ∧ ∃ y ∈ s.book.resting, y.1 = .ask ∧ y.2.1 = .pegged)) (by decide +kernel)
  obtain ⟨hf, ⟨_, _, l⟩, hy, rfl, rfl⟩ := of_decide_eq_true h2
  obtain ⟨x, hx, _⟩ := C75_loads hf
  exact ⟨s, x, h1, hx, C97_pegged_blocks (o := buy) h1 hf hx hy (by decide)⟩

/-- The same order with a limit of 0.05: it is one of 0 lots; with a limit of 3: it is paid for by 3 lots, which buy nothing. -/
example : (placeArgs mkt { buy with quoteLimit := some (.fin (1 / 20)) } 5).map (·.maxQuoteLots) = some 0 ∧
    (placeArgs mkt { buy with quoteLimit := some (.fin 3) } 5).map (·.maxQuoteLots) = some 3 ∧ mkt.quoteUiToLots (.fin 3) = some 300 := by
  decide +kernel

end PlaceCase

end OB
