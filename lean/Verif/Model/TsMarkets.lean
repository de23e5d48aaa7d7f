import Verif.Model.Ts
/-!
`findAllMarkets` of ts/client/src/market.ts:54-124.  A transaction is what the function reads of the answer of the node: the keys in the
message and the inner instructions, grouped by the instruction that made them.  Accounts of an instruction are indices into the keys of the
message followed by the keys loaded from lookup tables.  Of the data of an instruction the model has what the event coder makes of it; the
only event that the program emits by an instruction is that of create_market.rs:114, so others are left out.
-/
namespace OB.TsMarkets
open Ts

/-- market.ts:47-53 -/
structure FoundMarket where
  market : Pubkey
  baseMint : Pubkey
  quoteMint : Pubkey
  name : String
  timestamp : Option Int
  deriving DecidableEq, Repr

/-- An inner instruction.  `event` is the decoded event, if the data is one. -/
structure InnerIx where
  accounts : List Nat
  programIdIndex : Nat
  event : Option FoundMarket
  deriving DecidableEq, Repr

/-- `staticKeys` are the keys in the message; `inner` is absent if the node has not recorded inner instructions. -/
structure Tx where
  staticKeys : List Pubkey
  inner : Option (List (List InnerIx))
  blockTime : Option Int
  deriving DecidableEq, Repr

/-- `staticAccountKeys[i].toString()`: throws for keys from a lookup table. -/
def keyAt (tx : Tx) (i : Nat) : Js Pubkey :=
  match tx.staticKeys[i]? with
  | none => .error .undefined
  | some k => .ok k

/-- market.ts:87-118: the body of the loop over the groups.  The condition with `||` reads the second key only if the first is the authority. -/
def readGroup (authority program : Pubkey) (tx : Tx) (group : List InnerIx) : Js (List FoundMarket) :=
  match group[11]? with
  | none => .ok []
  | some ix =>
    match ix.accounts[0]? with
    | none => .ok []
    | some a => do
      if (← keyAt tx a) ≠ authority then return []
      else if (← keyAt tx ix.programIdIndex) ≠ program then return []
      else match ix.event with
        | none => return []
        | some e => return [{ e with timestamp := tx.blockTime }]

/-- The same step over all groups or transactions. -/
def readAll {α : Type} (f : α → Js (List FoundMarket)) : List α → Js (List FoundMarket)
  | [] => .ok []
  | x :: l => do
    let m ← f x
    let r ← readAll f l
    return m ++ r

/-- market.ts:82-121: one transaction; the node answers `null` for one that it does not know. -/
def readTx (authority program : Pubkey) : Option Tx → Js (List FoundMarket)
  | none => .ok []
  | some tx =>
    match tx.inner with
    | none => .ok []
    | some groups => readAll (readGroup authority program tx) groups

/-- market.ts:73-76: `for (i = 0; i < n; i += 50) push(slice(0, 50))`, after a first empty batch.  `left` is what `i` leaves. -/
def batches (sigs : List Nat) : Nat → Nat → List (List Nat)
  | 0, _ => []
  | fuel + 1, left => if left = 0 then [] else sigs.take 50 :: batches sigs fuel (left - 50)

/-- market.ts:54-124; `sigs` is what the node answers to `getSignaturesForAddress`, `node` the transactions it knows. -/
def findAllMarkets (authority program : Pubkey) (sigs : List Nat) (node : Nat → Option Tx) : Js (List FoundMarket) :=
  readAll (fun batch => readAll (fun sig => readTx authority program (node sig)) batch) ([] :: batches sigs sigs.length sigs.length)

end OB.TsMarkets
