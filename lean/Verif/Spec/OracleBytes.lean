import Verif.Spec.Ieee
import Verif.Model.OracleBytes
/-! What the claims about the bytes of oracle accounts say. -/
namespace OB.Spec
open Layout

/-- The data of the account begins with the bytes by which the program recognises Pyth or the second version of Switchboard. -/
def LooksForeign (d : Bytes) : Prop := d.take 4 = [0xd4, 0xc3, 0xb2, 0xa1] ∨ d.take 8 = [217, 230, 65, 101, 201, 162, 27, 125]

/-- What an oracle that is passed to an instruction is read as; what no instruction looks at may be anything. -/
def ReadsAs (F : Feeds) (needed : Prop) : RawPassed → OraclePassed → Prop
  | none, none => True
  | some (k, a), some (k', x) => k = k' ∧ (needed → readOracle F a = .ok x)
  | _, _ => False

/-- The account is one of the oracles of the market. -/
def IsRawOracle (m : Market) (a b : RawPassed) (x : RawAccount) : Prop :=
  m.oracleA ≠ 0 ∧ (a = some (m.oracleA, x) ∨ (m.oracleB ≠ 0 ∧ b = some (m.oracleB, x)))

/-- The first 8 bytes of the SHA-256 hash of `account:StubOracle` -/
def startsAsStub (d : Bytes) : Prop := d.take 8 = [224, 251, 254, 99, 177, 174, 137, 4]

/-- What kind of oracle an account is: Pyth, stubs and the second version of Switchboard by the first bytes, the others by the owner if
there are at least 8 bytes. -/
inductive KindOf (F : Feeds) (a : RawAccount) : OracleType → Prop
  | pyth : a.data.take 4 = [0xd4, 0xc3, 0xb2, 0xa1] → KindOf F a .pyth
  | stub : startsAsStub a.data → KindOf F a .stub
  | switchboardV2 : a.data.take 8 = [217, 230, 65, 101, 201, 162, 27, 125] → KindOf F a .switchboardV2
  | switchboardV1 : ¬ LooksForeign a.data → ¬ startsAsStub a.data → 8 ≤ a.data.length →
      (a.owner = F.switchboardDevnet ∨ a.owner = F.switchboardMainnet) → KindOf F a .switchboardV1
  | raydium : ¬ LooksForeign a.data → ¬ startsAsStub a.data → 8 ≤ a.data.length → a.owner ≠ F.switchboardDevnet →
      a.owner ≠ F.switchboardMainnet → a.owner = F.raydium → KindOf F a .raydium

end OB.Spec
