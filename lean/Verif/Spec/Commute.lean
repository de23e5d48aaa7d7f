import Verif.Spec.View
/-! Instructions of one trader that another trader's instructions do not disturb.  Used only in statements. -/
namespace OB.Spec
open OB

/-- Instructions that cancel orders of account `k`. -/
inductive CancelsFor (k : Pubkey) : Op → Prop
  | order (signer : Pubkey) (id : Nat) : CancelsFor k (.cancelOrder signer k id)
  | client (signer : Pubkey) (client : Nat) : CancelsFor k (.cancelByClientId signer k client)
  | all (signer : Pubkey) (side : Option Side) (limit : Nat) : CancelsFor k (.cancelAll signer k side limit)
  | prune (admin : Pubkey) (now : Int) (limit : Nat) : CancelsFor k (.pruneOrders admin k now limit)

/-- Instructions about the money, the delegate or the existence of account `k`. -/
inductive ManagesFor (k : Pubkey) : Op → Prop
  | deposit (signer ub uq : Pubkey) (now b q : Int) : ManagesFor k (.deposit signer k ub uq now b q)
  | refill (signer ub uq : Pubkey) (now b q : Int) : ManagesFor k (.refill signer k ub uq now b q)
  | settle (c : SettleCtx) (h : c.ooKey = k) : ManagesFor k (.settleFunds c)
  | settleExpired (admin : Pubkey) (c : SettleCtx) (now : Int) (h : c.ooKey = k) : ManagesFor k (.settleFundsExpired admin c now)
  | create (owner delegate : Pubkey) : ManagesFor k (.createOO k owner delegate)
  | close (owner : Pubkey) : ManagesFor k (.closeOO k owner)
  | delegate (owner delegate : Pubkey) : ManagesFor k (.setDelegate k owner delegate)

/-- Instructions and transfers that concern no account. -/
inductive ManagesNone : Op → Prop
  | sweep (admin receiver : Pubkey) : ManagesNone (.sweepFees admin receiver)
  | token (k : Pubkey) (t : TokenAcct) : ManagesNone (.externalToken k t)
  | lamports (k : Pubkey) (x : Int) : ManagesNone (.externalLamports k x)

/-- Instructions that place no orders and are not for account `k`. -/
inductive PlacesNothingFor (k : Pubkey) (y : Op) : Prop
  | cancel {j : Pubkey} (h : j ≠ k) (hy : CancelsFor j y) : PlacesNothingFor k y
  | manage (hy : ManagesNone y ∨ ∃ j, j ≠ k ∧ ManagesFor j y) : PlacesNothingFor k y

/-- First `x`, then `y`. -/
def Then (x y : Op) (s s' : State) : Prop := ∃ s1, step s x = .ok s1 ∧ step s1 y = .ok s'

end OB.Spec
