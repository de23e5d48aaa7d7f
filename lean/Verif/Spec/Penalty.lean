import Verif.Spec.Wind
/-!
Vocabulary for the fee of 500 lamports on instructions that leave more events queued than they found.  Used only in statements.
-/
namespace OB.Spec
open OB

/-- Penalties that an account has run up and not paid; none if there is no such account. -/
def owes (s : State) (k : Pubkey) : Int := match s.g.accts.get? k with
  | some a => a.position.penaltyHeapCount
  | none => 0

/-- There are more queued events in `s'` than in `s`. -/
def Grows (s s' : State) : Prop := s.g.heap.events.length < s'.g.heap.events.length

instance (s s' : State) : Decidable (Grows s s') := inferInstanceAs (Decidable (_ < _))

/-- The open orders account that an instruction places orders for. -/
def orderAccount : Op → Option Pubkey
  | .placeOrder c _ | .placeOrderPegged c _ | .editOrder c _ _ _ | .editOrderPegged c _ _ _ => some c.ooKey
  | .placeOrders c _ _ _ _ _ => some c.ooKey
  | _ => none

/-- The signer who is charged lamports by an instruction. -/
def lamportPayer : Op → Option Pubkey
  | .placeTakeOrder c _ => some c.penaltyPayer
  | .settleFunds c | .settleFundsExpired _ c _ => some c.penaltyPayer
  | _ => none

/-- A run of instructions, `n` of which left more events queued than they found. -/
inductive GrowthRun (s : State) : List Op → State → Nat → Prop
  | nil : GrowthRun s [] s 0
  | snoc {s1 s2 : State} {ops : List Op} {n : Nat} (op : Op) : GrowthRun s ops s1 n → step s1 op = .ok s2 →
      GrowthRun s (ops ++ [op]) s2 (n + if Grows s1 s2 then 1 else 0)

/-- No instruction charges the market itself, and no other program pays lamports to it. -/
def NoGifts (mk : Pubkey) (op : Op) : Prop := lamportPayer op ≠ some mk ∧ ∀ x, op ≠ .externalLamports mk x

end OB.Spec
