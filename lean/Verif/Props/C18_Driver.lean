import Verif.Spec.OrderMap
import Verif.Model.BookSide
/-! Running map operations on the model of one book side. -/
namespace OB

/-- One operation on the model of the book side; an insertion failing for lack of space answers `full`. -/
def treeStep (b : BookSide) : MapOp → R (MapOut × BookSide)
  | .insert c l =>
    match b.insertLeaf c l with
    | .ok (_, old, b') => .ok (.inserted old, b')
    | .error .someError => .ok (.full, b)
    | .error e => .error e
  | .remove c k => do
    match ← b.removeByKey c k with
    | none => return (.removed none, b)
    | some (l, b') => return (.removed (some l), b')

def treeRun (b : BookSide) : List MapOp → R (List MapOut × BookSide)
  | [] => .ok ([], b)
  | op :: ops => do
    let (out, b') ← treeStep b op
    let (outs, b'') ← treeRun b' ops
    return (out :: outs, b'')

/-- Call `next` until it returns `None`, at most `n` times. -/
def drain (t : Nodes) : Nat → TreeIter → R (List LeafNode)
  | 0, _ => .ok []
  | n + 1, it => do
    match ← it.next t with
    | (none, _) => return []
    | (some x, it') => return x.2 :: (← drain t n it')

/-- All orders of one component as the iterator of the model yields them. -/
def iterated (b : BookSide) (c : Comp) : R (List LeafNode) := do
  drain b.nodes 1025 (← TreeIter.new b.nodes (b.root c))

/-- Key of an inserted order fits in 128 bits (u128 in the code). -/
def MapOp.Ok : MapOp → Prop
  | .insert _ l => l.key < 2 ^ 128
  | .remove _ _ => True

end OB
