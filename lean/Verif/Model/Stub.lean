import Verif.Model.Oracle
/-!
The stub oracles of the program: instructions/stub_oracle_create.rs, stub_oracle_set.rs, stub_oracle_close.rs with their accounts.
-/
namespace OB

/-- state/oracle.rs:138-147 -/
structure Stub where
  owner : Pubkey
  mint : Pubkey
  price : F64
  lastUpdateTs : Int
  lastUpdateSlot : Nat
  deviation : F64
  deriving DecidableEq, Repr

/-- accounts_ix/stub_oracle_create.rs:11-17: the address is derived from owner and mint; collision resistance is idealised as
injectivity.  A derived address is not the key 0 that stands for no oracle. -/
structure StubAddr where
  addr : Pubkey → Pubkey → Pubkey
  inj : ∀ {o m o' m'}, addr o m = addr o' m' → o = o' ∧ m = m'
  ne_zero : ∀ o m, addr o m ≠ 0

/-- The stub oracle accounts, by address. -/
abbrev Stubs := Pubkey → Option Stub

/-- The instructions.  `now` and `slot` are the clock; `signer` is the account that signs as owner. -/
inductive StubOp
  | create (signer mint : Pubkey) (price : F64) (now : Int) (slot : Nat)
  | set (signer oracle : Pubkey) (price : F64) (now : Int) (slot : Nat)
  | close (signer oracle : Pubkey)

/-- instructions/stub_oracle_create.rs:5-16; `init` fails if the account exists, a new account is all zero. -/
def Stubs.create (D : StubAddr) (s : Stubs) (signer mint : Pubkey) (price : F64) (now : Int) (slot : Nat) : R Stubs := do
  let x := D.addr signer mint
  req ((s x).isNone) .constraint
  return fun y => if y = x then some { owner := signer, mint, price, lastUpdateTs := now, lastUpdateSlot := slot, deviation := .fin 0 } else s y

/-- instructions/stub_oracle_set.rs:4-13, accounts_ix/stub_oracle_set.rs:4-12 -/
def Stubs.set (s : Stubs) (signer x : Pubkey) (price : F64) (now : Int) (slot : Nat) : R Stubs := do
  let t ← okOr .accountMissing (s x)
  req (t.owner = signer) .constraint
  return fun y => if y = x then some { t with price, lastUpdateTs := now, lastUpdateSlot := slot } else s y

/-- instructions/stub_oracle_close.rs:4-6, accounts_ix/stub_oracle_close.rs:6-19 -/
def Stubs.close (s : Stubs) (signer x : Pubkey) : R Stubs := do
  let t ← okOr .accountMissing (s x)
  req (t.owner = signer) .constraint
  return fun y => if y = x then none else s y

def Stubs.step (D : StubAddr) (s : Stubs) : StubOp → R Stubs
  | .create signer mint price now slot => s.create D signer mint price now slot
  | .set signer x price now slot => s.set signer x price now slot
  | .close signer x => s.close signer x

/-- The account as it is passed to an instruction of a market. -/
def Stubs.passed (s : Stubs) (x : Pubkey) : OraclePassed :=
  (s x).map (fun t => (x, .stub t.price t.deviation t.lastUpdateSlot))

end OB
