import Verif.Model.Oracle
/-!
ts/client: the conversions between lots and the numbers that people read and type (accounts/market.ts, utils/utils.ts, market.ts).

A JavaScript number is a double (`F64` of Model/Oracle).  A `Big` of big.js is exact, except for quotients, which have 20 decimals (its
defaults `DP` = 20 and `RM` = 1, rounding half up).  Everything converted here is positive or zero.
-/
namespace OB.Ui

/-- What of a market the conversions use: state/market.rs:27-29, 66-73. -/
structure Mkt where
  baseDecimals : Nat
  quoteDecimals : Nat
  baseLotSize : Int
  quoteLotSize : Int

/-- `a.div(b)` of big.js -/
def bigDiv (a b : Rat) : Rat := ((a / b * 10 ^ 20 + 1 / 2).floor : Rat) / 10 ^ 20

/-- `new Big(10).pow(e)` of big.js -/
def bigPow10 (e : Int) : Rat := if e < 0 then bigDiv 1 (10 ^ (-e).toNat) else 10 ^ e.toNat

/-- accounts/market.ts:41-42, 43-45 -/
def Mkt.baseNativeFactor (m : Mkt) : Rat := bigPow10 (-(m.baseDecimals : Int))
def Mkt.quoteNativeFactor (m : Mkt) : Rat := bigPow10 (-(m.quoteDecimals : Int))
def Mkt.minOrderSize (m : Mkt) : Rat := m.baseLotSize * m.baseNativeFactor

/-- accounts/market.ts:46-48 -/
def Mkt.quoteLotFactor (m : Mkt) : Rat := m.quoteLotSize * m.quoteNativeFactor

/-- accounts/market.ts:49-52 -/
def Mkt.tickSize (m : Mkt) : Rat := bigDiv (bigPow10 ((m.baseDecimals : Int) - m.quoteDecimals) * m.quoteLotSize) m.baseLotSize

/-- accounts/market.ts:63-65, 69-71, 75-77.  `toNumber` is the nearest double. -/
def Mkt.baseLotsToUi (m : Mkt) (lots : Int) : F64 := F64.rnd (lots * m.minOrderSize)
def Mkt.quoteLotsToUi (m : Mkt) (lots : Int) : F64 := F64.rnd (lots * m.quoteLotFactor)
def Mkt.priceLotsToUi (m : Mkt) (lots : Int) : F64 := F64.rnd (lots * m.tickSize)

/-- `x.toFixed(0)`: the nearest integer, the larger of two.  From 10^21 on it is in the notation with exponent, which `BN` does not read, nor
does it read `NaN`. -/
def toFixed0 : F64 → Option Int
  | .fin v => if absQ v < 10 ^ 21 then some (if v < 0 then -(-v + 1 / 2).floor else (v + 1 / 2).floor) else none
  | _ => none

/-- utils/utils.ts:47-49.  `Math.pow(10, decimals)` is the nearest double. -/
def toNative (uiAmount : F64) (decimals : Nat) : Option Int := toFixed0 (uiAmount.mul (F64.rnd (10 ^ decimals)))

/-- `new BN(number)` throws for numbers from 2^53 on. -/
def bnOfPow10 (d : Nat) : Option Int := if (10 : Int) ^ d < 2 ^ 53 then some (10 ^ d) else none

/-- accounts/market.ts:79-83.  `div` drops the fraction. -/
def Mkt.baseUiToLots (m : Mkt) (uiAmount : F64) : Option Int := do return (← toNative uiAmount m.baseDecimals).tdiv m.baseLotSize

/-- accounts/market.ts:84-88 -/
def Mkt.quoteUiToLots (m : Mkt) (uiAmount : F64) : Option Int := do return (← toNative uiAmount m.quoteDecimals).tdiv m.quoteLotSize

/-- accounts/market.ts:89-98 -/
def Mkt.priceUiToLots (m : Mkt) (uiAmount : F64) : Option Int := do
  let n ← toNative (uiAmount.mul (F64.rnd m.baseLotSize)) m.quoteDecimals
  let d ← bnOfPow10 m.baseDecimals
  return n.tdiv (d * m.quoteLotSize)

/-- market.ts:144-148 -/
def Mkt.uiPriceToLots (m : Mkt) (price : F64) : Option Int := do
  let n ← toNative price m.quoteDecimals
  let d ← bnOfPow10 m.baseDecimals
  return (n * m.baseLotSize).tdiv (m.quoteLotSize * d)

end OB.Ui
