import Verif.Proofs.Ui
/-!
C80  Prices and sizes mean the same on the screen and in an order.

What the library shows for lots, typed in again, gives the same lots as long as the numbers stay below 2^49 native units
(C80_base_partial, C80_quote_partial, C80_price_partial).  Above, the price can come out one lot too low, in ordinary markets
(C80_price_wrong).  A typed price between two lots is rounded down (C80_entered), for an ask too, which then sells cheaper than
typed (C80_ask_below).  `uiPriceToLots` of market.ts rounds the price to the decimals of the quote token first and gives 0 for prices of
cheap tokens (C80_cheap_token).
-/
namespace OB
open Spec

/-- A size in base lots. -/
theorem C80_base_partial {m : Ui.Mkt} {lots : Int} (hm : UiMarket m) (hl : 0 ≤ lots) (hN : lots * m.baseLotSize ≤ 2 ^ 49) :
    m.baseUiToLots (m.baseLotsToUi lots) = some lots :=
  Ui.lots_round (by have := hm.baseDecimals; omega) hm.base.1 hl hN

/-- A size in quote lots. -/
theorem C80_quote_partial {m : Ui.Mkt} {lots : Int} (hm : UiMarket m) (hl : 0 ≤ lots) (hN : lots * m.quoteLotSize ≤ 2 ^ 49) :
    m.quoteUiToLots (m.quoteLotsToUi lots) = some lots :=
  Ui.lots_round hm.quoteDecimals hm.quote.1 hl hN

/-- A price, in a market where the price of a lot is at least 0.0001 or has at most 20 decimals. -/
theorem C80_price_partial {m : Ui.Mkt} {p : Int} (hm : UiMarket m) (ht : 1 / 10 ^ 4 ≤ lotPrice m ∨ ∃ k : Int, lotPrice m * 10 ^ 20 = k)
    (hp : 1 ≤ p) (hN : p * (10 ^ m.baseDecimals * m.quoteLotSize) ≤ 2 ^ 49) : m.priceUiToLots (m.priceLotsToUi p) = some p :=
  Ui.price_round hm.baseDecimals hm.quoteDecimals hm.base hm.quote.1 ht hp hN

/-- A typed price is rounded down to a whole number of lots; half of a native unit and a relative error of 2^-50 come on top. -/
theorem C80_entered {m : Ui.Mkt} {v : Rat} (hm : UiMarket m) (hv : 1 / 10 ^ 20 ≤ v) (hX : v * m.baseLotSize * 10 ^ m.quoteDecimals ≤ 10 ^ 20) :
    ∃ p, m.priceUiToLots (.fin v) = some p ∧ 0 ≤ p ∧
      p * lotPrice m ≤ v * (1 + 1 / 2 ^ 50) + 1 / (2 * m.baseLotSize * 10 ^ m.quoteDecimals) ∧
      v * (1 - 1 / 2 ^ 50) - 1 / (2 * m.baseLotSize * 10 ^ m.quoteDecimals) < (p + 1) * lotPrice m :=
  Ui.price_entered hm hv hX

/-- The same for `uiPriceToLots`, which rounds the price of a whole token to native units first: half a unit is a larger error. -/
theorem C80_entered_free {m : Ui.Mkt} {v : Rat} (hm : UiMarket m) (hv : 1 / 10 ^ 20 ≤ v) (hX : v * 10 ^ m.quoteDecimals ≤ 10 ^ 20) :
    ∃ p, m.uiPriceToLots (.fin v) = some p ∧ 0 ≤ p ∧
      p * lotPrice m ≤ v * (1 + 1 / 2 ^ 50) + 1 / (2 * 10 ^ m.quoteDecimals) ∧
      v * (1 - 1 / 2 ^ 50) - 1 / (2 * 10 ^ m.quoteDecimals) < (p + 1) * lotPrice m :=
  Ui.free_entered hm hv hX

/-- A market of a token with 9 decimals against one with 6: sizes in steps of 0.1, prices in steps of 0.001. -/
def solUsdc : Ui.Mkt := { baseDecimals := 9, quoteDecimals := 6, baseLotSize := 100000000, quoteLotSize := 100 }

theorem solUsdc_ok : UiMarket solUsdc := ⟨by decide, by decide, by decide, by decide⟩

theorem solUsdc_lot : lotPrice solUsdc = 1 / 1000 := by
  unfold lotPrice solUsdc
  norm_num

/-- The price shown as 64.064 is taken for 64.063. -/
theorem C80_price_wrong : ∃ m : Ui.Mkt, UiMarket m ∧ lotPrice m = 1 / 1000 ∧ m.priceUiToLots (m.priceLotsToUi 64064) = some 64063 :=
  ⟨solUsdc, solUsdc_ok, solUsdc_lot, by decide +kernel⟩

/-- An ask typed with a price of nearly two lots is placed at one. -/
theorem C80_ask_below : ∃ (m : Ui.Mkt) (v : Rat) (p : Int), UiMarket m ∧ F64.rnd (19 / 10000) = .fin v ∧ m.priceUiToLots (.fin v) = some p ∧
    p * lotPrice m < v * (6 / 10) := by
  refine ⟨solUsdc, 8762203435012037 / 4611686018427387904, 1, solUsdc_ok, by decide +kernel, by decide +kernel, ?_⟩
  rw [solUsdc_lot]
  decide +kernel

/-- A cheap token with 5 decimals: the price of 15 lots is shown and read back right by the class, while `uiPriceToLots` makes it 0. -/
theorem C80_cheap_token : ∃ m : Ui.Mkt, UiMarket m ∧ m.priceUiToLots (m.priceLotsToUi 15) = some 15 ∧ m.uiPriceToLots (m.priceLotsToUi 15) = some 0 := by
  refine ⟨{ baseDecimals := 5, quoteDecimals := 6, baseLotSize := 10000000, quoteLotSize := 1 }, ⟨by decide, by decide, by decide, by decide⟩, ?_⟩
  decide +kernel

/-- The hypotheses of the round trips. -/
example : solUsdc.baseUiToLots (solUsdc.baseLotsToUi 1234567) = some 1234567 ∧ solUsdc.quoteUiToLots (solUsdc.quoteLotsToUi 987654321) = some 987654321 ∧
    solUsdc.priceUiToLots (solUsdc.priceLotsToUi 5629) = some 5629 :=
  ⟨C80_base_partial solUsdc_ok (by decide) (by decide), C80_quote_partial solUsdc_ok (by decide) (by decide),
   C80_price_partial solUsdc_ok (.inl (by rw [solUsdc_lot]; norm_num)) (by decide) (by decide)⟩

/-- The hypotheses of `C80_entered`: typing 23.4567. -/
example : ∃ v, F64.rnd (234567 / 10000) = .fin v ∧ 1 / 10 ^ 20 ≤ v ∧ v * solUsdc.baseLotSize * 10 ^ solUsdc.quoteDecimals ≤ 10 ^ 20 :=
  ⟨6602474086208845 / 281474976710656, by decide +kernel, by decide +kernel, by decide +kernel⟩


example : ∃ v, F64.rnd (234567 / 10000) = .fin v ∧ 1 / 10 ^ 20 ≤ v ∧ v * 10 ^ solUsdc.quoteDecimals ≤ 10 ^ 20 :=
  ⟨6602474086208845 / 281474976710656, by decide +kernel, by decide +kernel, by decide +kernel⟩

end OB
