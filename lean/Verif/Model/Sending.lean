/-!
`send_and_confirm_transaction` of lib/client/src/util.rs:57-116.  The node is an environment: what it answers depends on the moment of the
question.  Moments are natural numbers, in any unit.
-/
namespace OB.Sending

/-- How a transaction ended: the slot, and the error if it failed. -/
structure Ended where
  slot : Nat
  err : Option Nat
  deriving DecidableEq, Repr

/-- An entry of `getSignatureStatuses`; `satisfies` says whether its commitment is at least that of the client
(`satisfies_commitment`, util.rs:81). -/
structure Status where
  ended : Ended
  satisfies : Bool
  deriving DecidableEq, Repr

/-- What the node would answer at each moment; `none` in the outer option is an error of the request. -/
structure Node where
  status : Nat → Option (Option Status)
  blockhashValid : Nat → Option Bool

inductive Report
  | confirmed (slot : Nat)
  | failed (err : Nat)
  | requestError
  | unableToConfirm
  deriving DecidableEq, Repr

/-- util.rs:77-106: the loop over `status_retry`.  `time n` is the moment of the n-th question.  `none`: still asking after `fuel` rounds.
There is one round of sending (`SEND_RETRIES`), so `break 'sending` ends in the error of util.rs:109-115. -/
def poll (node : Node) (time : Nat → Nat) : Nat → Nat → Option Report
  | 0, _ => none
  | fuel + 1, n =>
    match node.status (time n) with
    | none => some .requestError
    | some st =>
      match st.filter (·.satisfies) with
      | some st => some (match st.ended.err with
          | some e => .failed e
          | none => .confirmed st.ended.slot)
      | none =>
        match node.blockhashValid (time (n + 1)) with
        | none => some .requestError
        | some false => some .unableToConfirm
        | some true => poll node time fuel (n + 2)

/-- util.rs:59-116; `sent` says whether `send_transaction` got through. -/
def sendAndConfirm (node : Node) (time : Nat → Nat) (sent : Bool) (fuel : Nat) : Option Report :=
  if sent then poll node time fuel 0 else some .requestError

end OB.Sending
