/-!
Machine integers and failure.

The release profile of /repo (Cargo.toml, `[profile.release] overflow-checks = true`) makes every
`+ - *` on a machine integer panic when the exact result leaves the range of the type.  The model
therefore computes in `Int` and follows every such operation by the range check of its rust type.
`as` casts wrap silently and are modelled by `asU64`, `asI64`.
-/
namespace OB

/-- Failure of an instruction.  `panic` is a rust panic (overflow, `unwrap` on `None`, failed `assert!`,
index out of bounds, failed `try_into().unwrap()`); `fuel` is running out of fuel in a modelled loop
(shown unreachable from well formed states); the others are the error codes of
programs/openbook-v2/src/error.rs:6-107 (only those used) and of anchor / the token programs. -/
inductive Err
  | panic | fuel
  | invalidInputLots | invalidInputLotsSize | invalidInputMarketFees | invalidInputMarketExpired
  | invalidInputPriceLots | invalidInputPegLimit | invalidInputOrderId | invalidInputOrderType
  | invalidInputCancelSize | invalidInputOrdersAmounts | invalidInputHeapSlots
  | invalidPriceLots | oraclePegInvalidOracleState | wouldSelfTrade | wouldExecutePartially
  | invalidPostAmount | someError | openOrdersFull | orderIdNotFound | openOrdersOrderNotFound
  | marketHasExpired | marketHasNotExpired | nonEmptyMarket | bookContainsElements
  | eventHeapContainsElements | nonEmptyOpenOrdersPosition | noOwnerOrDelegate
  | invalidOpenOrdersAdmin | invalidConsumeEventsAdmin | noCloseMarketAdmin | invalidCloseMarketAdmin
  | disabledOraclePeg | invalidSecondOracle | indexerActiveOO
  | constraint | accountMissing | accountBorrowed | requireViolated | insufficientFunds | tokenAuth
  | marketClosed
  | unknownOracleType | invalidOracleTypes | invalidOraclePrice | foreign
  deriving DecidableEq, Repr

abbrev R (α : Type) := Except Err α

deriving instance DecidableEq for Except

/-- i64 / u64 / u128 / i128 bounds. -/
def i64Max : Int := 9223372036854775807
def i64Min : Int := -9223372036854775808
def u64Max : Int := 18446744073709551615
def u128Max : Int := 340282366920938463463374607431768211455
def i128Max : Int := 170141183460469231731687303715884105727
def i128Min : Int := -170141183460469231731687303715884105728

/-- Overflow check of an i64 operation. -/
def ckI64 (x : Int) : R Int := if i64Min ≤ x ∧ x ≤ i64Max then .ok x else .error .panic
/-- Overflow check of a u64 operation (also `u64::try_from(x).unwrap()`). -/
def ckU64 (x : Int) : R Int := if 0 ≤ x ∧ x ≤ u64Max then .ok x else .error .panic
/-- Overflow check of a u128 operation. -/
def ckU128 (x : Int) : R Int := if 0 ≤ x ∧ x ≤ u128Max then .ok x else .error .panic
/-- Overflow check of an i128 operation. -/
def ckI128 (x : Int) : R Int := if i128Min ≤ x ∧ x ≤ i128Max then .ok x else .error .panic

/-- rust `x as u64` for an integer. -/
def asU64 (x : Int) : Int := x % 18446744073709551616
/-- rust `x as i64` for an integer. -/
def asI64 (x : Int) : Int :=
  let y := x % 18446744073709551616
  if y ≤ i64Max then y else y - 18446744073709551616

/-- `require!(c, e)`. -/
def req (c : Prop) [Decidable c] (e : Err) : R Unit := if c then .ok () else .error e

/-- `assert!(c)`. -/
abbrev assertR (c : Prop) [Decidable c] : R Unit := req c .panic

/-- `Option::unwrap`. -/
def unwrapR {α : Type} : Option α → R α
  | some a => .ok a
  | none => .error .panic

/-- `Option::ok_or(e)?`. -/
def okOr {α : Type} (e : Err) : Option α → R α
  | some a => .ok a
  | none => .error e

end OB
