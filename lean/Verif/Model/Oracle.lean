import Verif.Model.Program
/-!
state/oracle.rs and the oracle part of state/market.rs: from the oracle accounts to a price in lots.

f64 arithmetic is modelled exactly: a finite f64 is the rational it denotes, and every operation rounds the exact result to the
nearest double, ties to even, with subnormals and overflow to infinity (IEEE 754 binary64, which rust requires).  Simplified: the two
zeros are one, so that `x / 0` has the sign of `x`; the code uses quotients only squared, or as a price that is rejected when infinite.
-/
namespace OB

/-- An f64. -/
inductive F64
  | nan
  | inf (neg : Bool)
  | fin (q : Rat)
  deriving DecidableEq, Repr

/-- 2^e -/
def pow2 (e : Int) : Rat := if 0 ≤ e then ((2 ^ e.toNat : Nat) : Rat) else 1 / ((2 ^ (-e).toNat : Nat) : Rat)

/-- |q| -/
def absQ (q : Rat) : Rat := if q < 0 then -q else q

/-- 10^e -/
def pow10 (e : Int) : Rat := if 0 ≤ e then ((10 ^ e.toNat : Nat) : Rat) else 1 / ((10 ^ (-e).toNat : Nat) : Rat)

/-- The nearest integer, ties to even. -/
def roundEven (q : Rat) : Int :=
  let f := q.floor
  if q - f < 1 / 2 then f else if 1 / 2 < q - f then f + 1 else if f % 2 = 0 then f else f + 1

/-- The e with 2^e ≤ |q| < 2^(e+1), for q ≠ 0. -/
def ilog2 (q : Rat) : Int :=
  let d : Int := (Nat.log2 q.num.natAbs : Int) - (Nat.log2 q.den : Int)
  if pow2 d ≤ absQ q then d else d - 1

namespace F64

/-- Rounding an exact result to an f64: 53 significant bits, exponents from -1022 to 1023. -/
def rnd (q : Rat) : F64 :=
  if q = 0 then .fin 0 else
    let u := pow2 (max (ilog2 q) (-1022) - 52)
    let v := (roundEven (q / u) : Rat) * u
    if pow2 1024 ≤ absQ v then .inf (decide (q < 0)) else .fin v

def sign (q : Rat) : Bool := decide (q < 0)

/-- `a * b` -/
def mul : F64 → F64 → F64
  | .fin a, .fin b => rnd (a * b)
  | .nan, _ => .nan
  | _, .nan => .nan
  | .inf s, .inf t => .inf (s != t)
  | .inf s, .fin b => if b = 0 then .nan else .inf (s != sign b)
  | .fin a, .inf t => if a = 0 then .nan else .inf (sign a != t)

/-- `a / b` -/
def div : F64 → F64 → F64
  | .fin a, .fin b => if b = 0 then (if a = 0 then .nan else .inf (sign a)) else rnd (a / b)
  | .nan, _ => .nan
  | _, .nan => .nan
  | .inf _, .inf _ => .nan
  | .inf s, .fin b => .inf (s != sign b)
  | .fin _, .inf _ => .fin 0

/-- `a + b` -/
def add : F64 → F64 → F64
  | .fin a, .fin b => rnd (a + b)
  | .nan, _ => .nan
  | _, .nan => .nan
  | .inf s, .inf t => if s = t then .inf s else .nan
  | .inf s, .fin _ => .inf s
  | .fin _, .inf t => .inf t

def neg : F64 → F64
  | .nan => .nan
  | .inf s => .inf (!s)
  | .fin q => .fin (-q)

/-- `a > b`; false when one of them is NaN. -/
def gt : F64 → F64 → Bool
  | .fin a, .fin b => decide (b < a)
  | .nan, _ => false
  | _, .nan => false
  | .inf s, .inf t => !s && t
  | .inf s, .fin _ => !s
  | .fin _, .inf t => t

/-- `x >= 0.0`; false for NaN. -/
def nonneg : F64 → Bool
  | .nan => false
  | .inf s => !s
  | .fin q => decide (0 ≤ q)

/-- `x.powi(2)` -/
def sq (x : F64) : F64 := mul x x

end F64

/-- u8 or i32 `as i8`. -/
def asI8 (x : Int) : Int := let y := x % 256; if y ≤ 127 then y else y - 256

/-- state/oracle.rs:14-22: a table of the powers from -12 to 12; out of bounds panics. -/
def powerOfTenFloat (d : Int) : R F64 := do
  assertR (-12 ≤ d ∧ d ≤ 12)
  return F64.rnd (pow10 d)

/-- state/oracle.rs:34-41.  conf_filter is the f64 of an arbitrary f32. -/
structure OracleConfig where
  confFilter : F64
  maxStalenessSlots : Int

/-- state/oracle.rs:45-61: nothing is checked.  The cast from f32 to f64 is exact. -/
def toOracleConfig (confFilter : F64) (maxStaleness : Option Nat) : OracleConfig :=
  { confFilter := confFilter, maxStalenessSlots := match maxStaleness with | some v => v | none => -1 }

/-- The oracle accounts, with the fields used in state/oracle.rs:140-327.  Pyth: aggregate (trading?, price, conf, slot), previous
(price, conf, slot) and exponent.  Switchboard v2: `get_result` and the deviation as f64, when the conversions succeed. -/
inductive OracleAcc
  | pyth (trading : Bool) (aggPrice : Int) (aggConf : Nat) (aggSlot : Nat) (prevPrice : Int) (prevConf : Nat) (prevSlot : Nat) (expo : Int)
  | stub (price deviation : F64) (slot : Nat)
  | switchboardV1 (result maxResponse minResponse : F64) (slot : Nat)
  | switchboardV2 (result deviation : Option F64) (slot : Nat)
  | raydium (sqrtPriceX64 : Nat) (decimals0 decimals1 : Nat)
  | unknown
  deriving DecidableEq, Repr

/-- state/oracle.rs:64-70 -/
inductive OracleType | pyth | stub | switchboardV1 | switchboardV2 | raydium
  deriving DecidableEq, Repr

/-- state/oracle.rs:154-177 -/
def OracleAcc.type : OracleAcc → R OracleType
  | .pyth .. => .ok .pyth
  | .stub .. => .ok .stub
  | .switchboardV1 .. => .ok .switchboardV1
  | .switchboardV2 .. => .ok .switchboardV2
  | .raydium .. => .ok .raydium
  | .unknown => .error .unknownOracleType

/-- state/oracle.rs:72-77 -/
structure OracleState where
  price : F64
  deviation : F64
  lastUpdateSlot : Nat

/-- u64::MAX -/
def maxSlot : Nat := 18446744073709551615

/-- state/oracle.rs:221-327 -/
def OracleAcc.state : OracleAcc → R OracleState
  | .stub price deviation slot =>
    .ok { price, deviation, lastUpdateSlot := if slot = 0 then maxSlot else slot }
  | .pyth trading aggPrice aggConf aggSlot prevPrice prevConf prevSlot expo => do
    let (p, c, slot) := if trading then (aggPrice, aggConf, aggSlot) else (prevPrice, prevConf, prevSlot)
    let adj ← powerOfTenFloat (asI8 expo)
    let price := (F64.rnd p).mul adj
    let deviation := (F64.rnd c).mul adj
    req (price.nonneg = true) .requireViolated
    return { price, deviation, lastUpdateSlot := slot }
  | .switchboardV2 result deviation slot => do
    let price ← okOr .foreign result
    let deviation ← okOr .foreign deviation
    req (price.nonneg = true) .requireViolated
    return { price, deviation, lastUpdateSlot := slot }
  | .switchboardV1 result maxR minR slot => do
    req (result.nonneg = true) .requireViolated
    return { price := result, deviation := maxR.add minR.neg, lastUpdateSlot := slot }
  | .raydium x64 d0 d1 => do
    let sq := x64 * x64 / 18446744073709551616
    assertR (sq < 340282366920938463463374607431768211456)
    let d := asI8 d0 - asI8 d1
    assertR (-128 ≤ d ∧ d ≤ 127)
    let price := (F64.rnd ((sq : Rat) / pow2 64)).mul (← powerOfTenFloat d)
    req (price.nonneg = true) .requireViolated
    return { price, deviation := .fin 0, lastUpdateSlot := maxSlot }
  | .unknown => .error .unknownOracleType

namespace OracleState

/-- state/oracle.rs:80-99 -/
def isStale (o : OracleState) (c : OracleConfig) (now : Nat) : Bool :=
  decide (0 ≤ c.maxStalenessSlots) && decide (min (o.lastUpdateSlot + c.maxStalenessSlots.toNat) maxSlot < now)

/-- state/oracle.rs:101-114 -/
def hasValidConfidence (o : OracleState) (c : OracleConfig) : Bool := !(o.deviation.gt (c.confFilter.mul o.price))

/-- state/oracle.rs:116-137 -/
def hasValidCombinedConfidence (o other : OracleState) (c : OracleConfig) : Bool :=
  !(((o.deviation.div o.price).sq.add (other.deviation.div other.price).sq).gt c.confFilter.sq)

end OracleState

/-- `I80F48::checked_from_num(f64)`: nearest multiple of 2^-48, ties to even; the value is kept as its bits, an i128. -/
def fixFromF64 : F64 → Option Int
  | .fin q =>
    let b := roundEven (q * pow2 48)
    if i128Min ≤ b ∧ b ≤ i128Max then some b else none
  | _ => none

/-- What the market account knows about oracles (state/market.rs:43-44, 66-70), beside the keys. -/
structure OracleInfo where
  config : OracleConfig
  baseDecimals : Nat
  quoteDecimals : Nat

/-- Price in native units to I80F48: state/market.rs:269-273 and 299-301. -/
def fixedPrice (i : OracleInfo) (price : F64) : R (Option Int) := do
  let d := asI8 i.quoteDecimals - asI8 i.baseDecimals
  assertR (-128 ≤ d ∧ d ≤ 127)
  return fixFromF64 (price.mul (← powerOfTenFloat d))

/-- state/market.rs:258-275.  The key assertion is a constraint of the instruction. -/
def oraclePriceFromA (i : OracleInfo) (a : OracleAcc) (now : Nat) : R (Option Int) := do
  let o ← a.state
  if o.isStale i.config now || !o.hasValidConfidence i.config then return none else fixedPrice i o.price

/-- state/market.rs:277-304 -/
def oraclePriceFromAB (i : OracleInfo) (a b : OracleAcc) (now : Nat) : R (Option Int) := do
  let oa ← a.state
  let ob ← b.state
  if oa.isStale i.config now || ob.isStale i.config now || !oa.hasValidCombinedConfidence ob i.config then return none
  else fixedPrice i (oa.price.div ob.price)

/-- state/market.rs:220-227.  The arguments are bits of I80F48: multiplying by an integer is exact, dividing by one rounds towards zero,
and conversion to i64 rounds down. -/
def nativePriceToLot (m : Market) (bits : Int) : R Int := do
  let x := bits * m.baseLotSize
  req (i128Min ≤ x ∧ x ≤ i128Max) .invalidOraclePrice
  req (m.quoteLotSize ≠ 0) .invalidOraclePrice
  let l := (x.tdiv m.quoteLotSize) / 281474976710656
  req (i64Min ≤ l ∧ l ≤ i64Max) .invalidOraclePrice
  return l

/-- An oracle account that is passed to an instruction. -/
abbrev OraclePassed := Option (Pubkey × OracleAcc)

/-- pubkey_option.rs: the key of an optional account, 0 when it is missing. -/
def passedKey : OraclePassed → Pubkey
  | some (k, _) => k
  | none => 0

/-- state/market.rs:229-256 with the constraints of accounts_ix/place_order.rs:30-31 and place_take_order.rs:22-23. -/
def oraclePriceLots (m : Market) (i : OracleInfo) (a b : OraclePassed) (slot : Nat) : R (Option Int) := do
  req (m.oracleA = passedKey a) .constraint
  req (m.oracleB = passedKey b) .constraint
  let price ← (if m.oracleA ≠ 0 ∧ m.oracleB ≠ 0 then do
      let (_, x) ← unwrapR a
      let (_, y) ← unwrapR b
      oraclePriceFromAB i x y slot
    else if m.oracleA ≠ 0 then do
      let (_, x) ← unwrapR a
      oraclePriceFromA i x slot
    else .ok none)
  match price with
  | some p => return some (← nativePriceToLot m p)
  | none => return none

/-- pubkey_option.rs: an account with key 0 counts as missing. -/
def givenOracle : OraclePassed → OraclePassed
  | some (k, x) => if k = 0 then none else some (k, x)
  | none => none

/-- instructions/create_market.rs:44-63: the checks of the oracles at creation. -/
def checkOracles (a b : OraclePassed) : R Unit :=
  match givenOracle a, givenOracle b with
  | some (ka, x), some (kb, y) => do
    req (ka ≠ kb) .requireViolated
    let t ← x.type
    let t' ← y.type
    req (t = t') .invalidOracleTypes
  | some (_, x), none => do let _ ← x.type; return
  | none, some _ => .error .invalidSecondOracle
  | none, none => .ok ()

/-- instructions/create_market.rs:11-126 with the oracle accounts that are passed, whose keys the market stores.  (The checks of
`createMarket` that come before in the code come after here, which matters only for the kind of the error.) -/
def createPriced (a : CreateArgs) (now : Int) (tokens : Tokens) (lamports : Lamports) (pa pb : OraclePassed) : R State := do
  req (a.oracleA = passedKey pa ∧ a.oracleB = passedKey pb) .constraint
  checkOracles pa pb
  createMarket a now tokens lamports

/-- The instruction with the oracle price that it computes. -/
def Op.withOracle (o : Option Int) : Op → Op
  | .placeOrder c a => .placeOrder { c with oracle := o } a
  | .placeOrderPegged c a => .placeOrderPegged { c with oracle := o } a
  | .editOrder c client e a => .editOrder { c with oracle := o } client e a
  | .editOrderPegged c client e a => .editOrderPegged { c with oracle := o } client e a
  | .placeOrders c cancel t bids asks limit => .placeOrders { c with oracle := o } cancel t bids asks limit
  | .placeTakeOrder c a => .placeTakeOrder { c with oracle := o } a
  | op => op

def Op.usesOracle : Op → Bool
  | .placeOrder .. | .placeOrderPegged .. | .editOrder .. | .editOrderPegged .. | .placeOrders .. | .placeTakeOrder .. => true
  | _ => false

/-- An instruction together with the oracle accounts passed to it and the slot of the clock: instructions/place_order.rs:48-55,
place_take_order.rs:40-47, cancel_all_and_place_orders.rs:37-44.  The price is computed after other checks and, in edit_order, after the
cancellation; neither changes what it depends on, so only the kind of the error may differ. -/
def stepPriced (s : State) (i : OracleInfo) (a b : OraclePassed) (slot : Nat) (op : Op) : R State := do
  if op.usesOracle then
    let o ← oraclePriceLots s.g.market i a b slot
    step s (op.withOracle o)
  else step s op

end OB
