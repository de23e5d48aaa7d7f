import Verif.Model.Book
/-!
What an outside observer reads from the accounts: the resting orders of a book side (a plain traversal of the tree from its
root) and the queued events (oldest first).  Used only to state properties.
-/
namespace OB

/-- Leaves below handle `h`, left to right; `n` bounds the depth. -/
def Nodes.leavesFrom (t : Nodes) : Nat → Nat → List LeafNode
  | 0, _ => []
  | n + 1, h =>
    match t.nodes h with
    | .leaf l => [l]
    | .inner i => t.leavesFrom n i.child0 ++ t.leavesFrom n i.child1
    | _ => []

/-- The resting orders of one component of a book side, in ascending order of their ids. -/
def BookSide.orders (b : BookSide) (c : Comp) : List LeafNode :=
  match (b.root c).node with
  | none => []
  | some h => b.nodes.leavesFrom 1025 h

/-- All resting orders of the book with their side and component. -/
def Book.resting (b : Book) : List (Side × Comp × LeafNode) :=
  (b.bids.orders .fixed).map (fun l => (.bid, .fixed, l)) ++ (b.bids.orders .pegged).map (fun l => (.bid, .pegged, l)) ++
  (b.asks.orders .fixed).map (fun l => (.ask, .fixed, l)) ++ (b.asks.orders .pegged).map (fun l => (.ask, .pegged, l))

/-- The queued events, oldest first. -/
def EventHeap.events (h : EventHeap) : List Event :=
  match h.iterSlots with
  | .ok slots => slots.filterMap h.atSlot
  | .error _ => []

end OB
