import Verif.Spec.Instr
/-!
The order ids given out over the history of a market.  Used only in statements.
-/
namespace OB.Spec
open OB

/-- Side and id of the orders posted by a sequence of calls of the matching engine. -/
def postedIds (cs : List (Env × OrderResult)) : List (Side × Nat) :=
  cs.filterMap (fun x => x.2.orderId.map (fun id => (x.1.order.side, id)))

/-- A history of a market from its creation, or its last re-creation after it was closed, to the state `s`, with side and id of all
orders posted on the way, in this order. -/
inductive IdHistory : State → List (Side × Nat) → Prop
  | init (a : CreateArgs) (now : Int) (tokens : Tokens) (lamports : Lamports) (s : State)
      (h : createMarket a now tokens lamports = .ok s) : IdHistory s []
  | again (s s' : State) (a : CreateArgs) (now : Int) (hs : Reachable s) (h : recreateMarket s a now = .ok s') : IdHistory s' []
  | other (s s' : State) (op : Op) (ids : List (Side × Nat)) (hs : IdHistory s ids) (h : step s op = .ok s') (hp : placer op = none) :
      IdHistory s' ids
  | placing (s s' : State) (op : Op) (ids : List (Side × Nat)) (hs : IdHistory s ids) (h : step s op = .ok s') (p : Placer)
      (hp : placer op = some p) (s1 : State) (cs : List (Env × OrderResult)) (g1 : Ledger) (hP : Placement s s1 s' p cs g1) :
      IdHistory s' (ids ++ postedIds cs)

end OB.Spec
