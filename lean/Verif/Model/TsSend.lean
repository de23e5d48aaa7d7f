/-!
`sendTransaction` of ts/client/src/utils/rpc.ts:13-146 and `sendAndConfirmTransaction` of ts/client/src/client.ts:120-135.

The connection is an environment: what the node does with a transaction and what it answers are given by functions.  Keys are natural numbers.
What web3.js does is taken from its documentation: `sign` and `partialSign` throw for a key that the message does not require, a node (or
`serialize`) refuses a transaction that lacks a required signature, and `setComputeUnitPrice` throws unless it is given a number.
Blockhashes and address lookup tables are left out: they do not change which instructions a transaction carries or who signs it.
-/
namespace OB.TsSend

/-- A value of JavaScript that may be missing. -/
inductive Js (α : Type) where
  | undefined
  | null
  | val (a : α)
  deriving DecidableEq, Repr

/-- `a ?? b` -/
def Js.orElse {α : Type} : Js α → α → α
  | .val a, _ => a
  | _, b => b

inductive Commitment
  | processed
  | confirmed
  | finalized
  deriving DecidableEq, Repr

/-- `TransactionInstruction`: the keys that must sign it, and the rest of it; or the price per compute unit (`createComputeBudgetIx`,
rpc.ts:128-135), which nobody has to sign. -/
inductive Ix
  | call (signers : List Nat) (body : Nat)
  | unitPrice (microLamports : Nat)
  deriving DecidableEq, Repr

def Ix.signers : Ix → List Nat
  | .call s _ => s
  | .unitPrice _ => []

/-- A transaction as it is handed to the node. -/
structure Tx where
  payer : Nat
  ixs : List Ix
  signed : List Nat
  deriving DecidableEq, Repr

/-- The keys whose signatures the message requires: the payer and the signers of its instructions (`MessageV0.compile`, rpc.ts:54-59). -/
def required (payer : Nat) (ixs : List Ix) : List Nat := payer :: ixs.flatMap Ix.signers

/-- The connection and the wallet.  `banks`: there is a `banksClient` (rpc.ts:22).  `walletSigns`: the wallet agrees to sign (rpc.ts:66-76,
both kinds of wallet).  `takes`: the node takes a properly signed transaction; for a `banksClient`, it executes it without error.  `ended`:
what `confirmTransaction` answers for a commitment: `none` if it throws, otherwise the `err` of the result (rpc.ts:97-116). -/
structure Env where
  banks : Bool
  walletSigns : Bool
  takes : Tx → Bool
  ended : Tx → Commitment → Option (Option Nat)

/-- The options of `sendTransaction` that matter (`opts`, rpc.ts:17). -/
structure Opts where
  additionalSigners : List Nat
  prioritizationFee : Js Nat
  commitment : Js Commitment

/-- How the call ends. -/
inductive Outcome
  /-- it throws before anything is handed to the node -/
  | threw
  /-- the node refuses the transaction -/
  | refused (tx : Tx)
  /-- the node has taken the transaction, and `confirmTransaction` throws -/
  | unconfirmed (tx : Tx)
  /-- `OpenBookError` with the signature and the error (rpc.ts:117-123) -/
  | failed (tx : Tx) (err : Nat)
  /-- the signature of `tx` is returned -/
  | signature (tx : Tx)
  /-- the empty string is returned (rpc.ts:37) -/
  | banksDone (tx : Tx)
  deriving DecidableEq, Repr

/-- rpc.ts:50-52: the price of compute units in front, unless the fee is `null` or 0.  `none`: `setComputeUnitPrice` throws. -/
def withFee (fee : Js Nat) (ixs : List Ix) : Option (List Ix) :=
  match fee with
  | .null => some ixs
  | .undefined => none
  | .val 0 => some ixs
  | .val n => some (.unitPrice n :: ixs)

/-- rpc.ts:13-126. -/
def sendTransaction (env : Env) (wallet : Nat) (ixs : List Ix) (o : Opts) : Outcome :=
  if env.banks then
    -- rpc.ts:23-37
    if o.additionalSigners.all (fun k => (required wallet ixs).contains k) then
      let tx : Tx := ⟨wallet, ixs, o.additionalSigners⟩
      if (required wallet ixs).all (fun k => tx.signed.contains k) && env.takes tx then .banksDone tx else .refused tx
    else .threw
  else
    match withFee o.prioritizationFee ixs with
    | none => .threw
    | some ixs =>
      -- rpc.ts:62-76
      if o.additionalSigners.all (fun k => (required wallet ixs).contains k) && env.walletSigns then
        let tx : Tx := ⟨wallet, ixs, o.additionalSigners ++ [wallet]⟩
        -- rpc.ts:78-80
        if (required wallet ixs).all (fun k => tx.signed.contains k) && env.takes tx then
          -- rpc.ts:95-125
          match env.ended tx (o.commitment.orElse .processed) with
          | none => .unconfirmed tx
          | some none => .signature tx
          | some (some e) => .failed tx e
        else .refused tx
      else .threw

/-- The fields of a client (client.ts:93-100): from the options of the constructor and the commitment of the provider. -/
structure Client where
  wallet : Nat
  prioritizationFee : Nat
  commitment : Commitment

/-- client.ts:86-104: the constructor. -/
def Client.new (wallet : Nat) (fee : Js Nat) (commitment provider : Js Commitment) : Client :=
  ⟨wallet, fee.orElse 0, commitment.orElse (provider.orElse .processed)⟩

/-- The options a caller gives: a key that is not there (`none`) differs from one that is there and `undefined`. -/
structure CallOpts where
  additionalSigners : List Nat := []
  prioritizationFee : Option (Js Nat) := none
  commitment : Option (Js Commitment) := none

/-- client.ts:120-135: the fields of the client, overridden by every key the caller gives (`...opts`). -/
def Client.sendAndConfirm (c : Client) (env : Env) (ixs : List Ix) (o : CallOpts) : Outcome :=
  sendTransaction env c.wallet ixs
    { additionalSigners := o.additionalSigners
      prioritizationFee := o.prioritizationFee.getD (.val c.prioritizationFee)
      commitment := o.commitment.getD (.val c.commitment) }

/-- `sendTransaction` called without options: `opts = {}` (rpc.ts:17). -/
def noOpts : Opts := ⟨[], .undefined, .undefined⟩

end OB.TsSend
