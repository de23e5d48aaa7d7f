import Verif.Model.Stub
import Verif.Model.TsEvents
/-!
state/oracle.rs:154-331 on the bytes of the oracle accounts: how the program tells what kind of oracle an account is, and reads it.

The formats of Pyth and Switchboard are those of other crates, not part of the source; their readers are parameters (`Feeds`), and the
theorems hold for all readers.  The data of an account is aligned to 8 bytes on chain, so that the casts of bytemuck do not fail for
want of alignment.
-/
namespace OB
open Layout

/-- The f64 with these 64 bits (IEEE 754 binary64). -/
def F64.ofBits (n : Nat) : F64 :=
  let neg := n / 2 ^ 63 % 2 = 1
  let e : Nat := n / 2 ^ 52 % 2 ^ 11
  let m : Nat := n % 2 ^ 52
  if e = 2047 then (if m = 0 then .inf (decide neg) else .nan)
  else
    let v : Rat := if e = 0 then (m : Rat) * pow2 (-1074) else ((2 ^ 52 + m : Nat) : Rat) * pow2 ((e : Int) - 1075)
    .fin (if neg then -v else v)

/-- An account: the program that owns it and may write it, and its data. -/
structure RawAccount where
  owner : Pubkey
  data : Bytes

/-- What comes from outside: addresses of programs (lib.rs: `declare_id!`; oracle.rs:24-31, raydium_internal.rs:4-7) and the readers of
other crates, which reject some data (`none`). -/
structure Feeds where
  program : Pubkey
  switchboardDevnet : Pubkey
  switchboardMainnet : Pubkey
  raydium : Pubkey
  /-- `pyth_sdk_solana::state::load_price_account` -/
  pyth : Bytes → Option (Bool × Int × Nat × Nat × Int × Nat × Nat × Int)
  /-- `FastRoundResultAccountData::deserialize` -/
  switchboardV1 : Bytes → Option (F64 × F64 × F64 × Nat)
  /-- `bytemuck::from_bytes::<AggregatorAccountData>`, `get_result` -/
  switchboardV2 : Bytes → Option (Option F64 × Option F64 × Nat)

/-- `pyth_sdk_solana::state::MAGIC` -/
def pythMagic : Nat := 0xa1b2c3d4

/-- `StubOracle::discriminator()`: the first 8 bytes of the SHA-256 hash of `account:StubOracle` -/
def stubDisc : Bytes := [224, 251, 254, 99, 177, 174, 137, 4]

/-- state/oracle.rs:164 -/
def switchboardDisc : Bytes := [217, 230, 65, 101, 201, 162, 27, 125]

/-- state/oracle.rs:154-177.  Slicing panics if there are not enough bytes. -/
def determineType (F : Feeds) (a : RawAccount) : R OracleType := do
  assertR (4 ≤ a.data.length)
  if at' 4 0 a.data = pythMagic then return .pyth
  else do
    assertR (8 ≤ a.data.length)
    if a.data.take 8 = stubDisc then return .stub
    else if a.data.take 8 = switchboardDisc then return .switchboardV2
    else if a.owner = F.switchboardDevnet ∨ a.owner = F.switchboardMainnet then return .switchboardV1
    else if a.owner = F.raydium then return .raydium
    else .error .unknownOracleType

/-- accounts_zerocopy.rs:219-234 for state/oracle.rs:138-147: owner and discriminator are checked, the rest must be there. -/
def readStub (F : Feeds) (a : RawAccount) : R OracleAcc := do
  req (a.owner = F.program) .constraint
  req (8 ≤ a.data.length) .constraint
  req (a.data.take 8 = stubDisc) .constraint
  assertR (208 ≤ a.data.length)
  return .stub (F64.ofBits (at' 8 72 a.data)) (F64.ofBits (at' 8 96 a.data)) (at' 8 88 a.data)

/-- state/oracle.rs:312-317 with raydium_internal.rs:16-99, a packed struct of 1536 bytes; `bytemuck::from_bytes` panics unless the
length is exactly this. -/
def readRaydium (a : RawAccount) : R OracleAcc := do
  assertR (a.data.length = 8 + 1536)
  return .raydium (at' 16 253 a.data) (at' 1 233 a.data) (at' 1 234 a.data)

/-- state/oracle.rs:221-331: the fields that are used, by the type of the account. -/
def readOracle (F : Feeds) (a : RawAccount) : R OracleAcc := do
  match ← determineType F a with
  | .stub => readStub F a
  | .pyth => do
    let (t, p, c, s, p', c', s', e) ← unwrapR (F.pyth a.data)
    return .pyth t p c s p' c' s' e
  | .switchboardV2 => do
    let (r, d, s) ← unwrapR (F.switchboardV2 (a.data.drop 8))
    return .switchboardV2 r d s
  | .switchboardV1 => do
    let (r, hi, lo, s) ← unwrapR (F.switchboardV1 a.data)
    return .switchboardV1 r hi lo s
  | .raydium => readRaydium a

/-- An oracle account passed to an instruction, as bytes. -/
abbrev RawPassed := Option (Pubkey × RawAccount)

/-- `oraclePriceLots` (state/market.rs:229-256) on accounts as they are passed.  The second account is read before the price of the first
is looked at, so only the kind of the error may differ. -/
def rawPriceLots (F : Feeds) (m : Market) (i : OracleInfo) (a b : RawPassed) (slot : Nat) : R (Option Int) := do
  req (m.oracleA = (a.map (·.1)).getD 0) .constraint
  req (m.oracleB = (b.map (·.1)).getD 0) .constraint
  let price ← (if m.oracleA ≠ 0 ∧ m.oracleB ≠ 0 then do
      let (_, x) ← unwrapR a
      let (_, y) ← unwrapR b
      oraclePriceFromAB i (← readOracle F x) (← readOracle F y) slot
    else if m.oracleA ≠ 0 then do
      let (_, x) ← unwrapR a
      oraclePriceFromA i (← readOracle F x) slot
    else .ok none)
  match price with
  | some p => return some (← nativePriceToLot m p)
  | none => return none

/-- pubkey_option.rs: an account with key 0 counts as missing. -/
def givenRaw : RawPassed → RawPassed
  | some (k, a) => if k = 0 then none else some (k, a)
  | none => none

/-- `checkOracles` (instructions/create_market.rs:44-63) on accounts as they are passed: only the type is looked at. -/
def rawCheck (F : Feeds) (a b : RawPassed) : R Unit :=
  match givenRaw a, givenRaw b with
  | some (ka, x), some (kb, y) => do
    req (ka ≠ kb) .requireViolated
    let t ← determineType F x
    let t' ← determineType F y
    req (t = t') .invalidOracleTypes
  | some (_, x), none => do let _ ← determineType F x; return
  | none, some _ => .error .invalidSecondOracle
  | none, none => .ok ()

/-- `createPriced` on accounts as they are passed. -/
def createRaw (F : Feeds) (a : CreateArgs) (now : Int) (tokens : Tokens) (lamports : Lamports) (pa pb : RawPassed) : R State := do
  req (a.oracleA = (pa.map (·.1)).getD 0 ∧ a.oracleB = (pb.map (·.1)).getD 0) .constraint
  rawCheck F pa pb
  createMarket a now tokens lamports

/-- `stepPriced` on accounts as they are passed. -/
def stepRaw (F : Feeds) (s : State) (i : OracleInfo) (a b : RawPassed) (slot : Nat) (op : Op) : R State := do
  if op.usesOracle then
    let o ← rawPriceLots F s.g.market i a b slot
    step s (op.withOracle o)
  else step s op

/-- The data of a stub oracle account (state/oracle.rs:138-147), with the bits of its two doubles. -/
def stubBytes (owner mint priceBits : Nat) (ts : Int) (slot deviationBits : Nat) : Bytes :=
  stubDisc ++ (le 32 owner ++ (le 32 mint ++ (le 8 priceBits ++ (leI64 ts ++ (le 8 slot ++ (le 8 deviationBits ++ zeros 104))))))

/-- The data of a Raydium pool (raydium_internal.rs:16-99): what comes before the decimals, the decimals, the tick spacing, the liquidity,
the square root of the price, and the rest. -/
def poolBytes (disc : Bytes) (before : Bytes) (decimals0 decimals1 tickSpacing liquidity sqrtPrice : Nat) (rest : Bytes) : Bytes :=
  disc ++ (before ++ (le 1 decimals0 ++ (le 1 decimals1 ++ (le 2 tickSpacing ++ (le 16 liquidity ++ (le 16 sqrtPrice ++ rest))))))

end OB
