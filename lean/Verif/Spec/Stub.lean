import Verif.Model.Stub
import Verif.Spec.Oracle
/-!
Vocabulary about stub oracles.  Used only in statements.
-/
namespace OB.Spec
open OB

/-- Who signs. -/
def stubSigner : StubOp → Pubkey
  | .create o .. | .set o .. | .close o .. => o

/-- The oracle that an instruction is about. -/
def stubTarget (D : StubAddr) : StubOp → Pubkey
  | .create o m .. => D.addr o m
  | .set _ x .. | .close _ x => x

/-- The price and slot that an instruction announces; none when it closes the oracle. -/
def stubSays : StubOp → Option (F64 × Nat)
  | .create _ _ p _ slot | .set _ _ p _ slot => some (p, slot)
  | .close .. => none

/-- Any history of successful instructions, the latest first. -/
inductive StubHistory (D : StubAddr) : List StubOp → Stubs → Prop
  | nil : StubHistory D [] (fun _ => none)
  | step (ops : List StubOp) (s s' : Stubs) (op : StubOp) (h : StubHistory D ops s) (hs : s.step D op = .ok s') : StubHistory D (op :: ops) s'

/-- The latest announcement about the oracle at `x`. -/
def latest (D : StubAddr) (ops : List StubOp) (x : Pubkey) : Option (F64 × Nat) :=
  (ops.find? (fun op => decide (stubTarget D op = x))).bind stubSays

end OB.Spec
