import Verif.Model.Fetcher
/-! What a history of the account cache says.  Histories list the newest event first.  Used only in statements. -/
namespace OB.Spec
open OB OB.Fetcher

/-- The last data of account `k` in a list. -/
def dataOf {D : Type} (k : Pubkey) : List (Pubkey × D) → Option D
  | [] => none
  | (k', d) :: l => (dataOf k l).or (if k' = k then some d else none)

/-- The newest data of account `k` that the underlying fetcher has given since the cache was last cleared. -/
def lastGiven {D : Type} (k : Pubkey) : List (Event D) → Option D
  | [] => none
  | .cleared :: _ => none
  | .answered _ (some l) :: h => (dataOf k l).or (lastGiven k h)
  | _ :: h => lastGiven k h

/-- The accounts of program `p`, as the underlying fetcher has listed them most recently since the cache was last cleared. -/
def lastListed {D : Type} (p : Prog) : List (Event D) → Option (List Pubkey)
  | [] => none
  | .cleared :: _ => none
  | .answered (.program p') (some l) :: h => if p' = p then some (l.map (·.1)) else lastListed p h
  | _ :: h => lastListed p h

/-- The underlying fetcher has been asked and has not answered yet. -/
def pending {D : Type} (r : Req) : List (Event D) → Bool
  | [] => false
  | .asked r' :: h => decide (r' = r) || pending r h
  | .answered r' _ :: h => !decide (r' = r) && pending r h
  | _ :: h => pending r h

/-- How often a caller has called for something, and how often such a call has returned. -/
def calls {D : Type} (c : Nat) (r : Req) (h : List (Event D)) : Nat :=
  h.countP (fun e => match e with | .called c' r' => decide (c' = c ∧ r' = r) | _ => false)
def returns {D : Type} (c : Nat) (r : Req) (h : List (Event D)) : Nat :=
  h.countP (fun e => match e with | .returned c' r' _ => decide (c' = c ∧ r' = r) | _ => false)

end OB.Spec
