import Verif.Model.Types
/-!
Specification of one side of the book as a finite map: for each component (fixed price orders, oracle pegged orders) a partial
map from order ids to orders.  Nothing here mentions trees, handles or slabs.
-/
namespace OB

abbrev OrderMap := Comp → Nat → Option LeafNode

/-- The map with the binding of `k` in component `c` replaced. -/
def OrderMap.set (M : OrderMap) (c : Comp) (k : Nat) (v : Option LeafNode) : OrderMap :=
  fun c' k' => if c' = c ∧ k' = k then v else M c' k'

inductive MapOp
  | insert (c : Comp) (l : LeafNode)
  | remove (c : Comp) (key : Nat)

/-- What an operation answers. -/
inductive MapOut
  | inserted (previous : Option LeafNode)
  | full
  | removed (l : Option LeafNode)

/-- At least `n` orders are stored. -/
def OrderMap.AtLeast (M : OrderMap) (n : Nat) : Prop :=
  ∃ ks : List (Comp × Nat), ks.Nodup ∧ n ≤ ks.length ∧ ∀ x ∈ ks, M x.1 x.2 ≠ none

/-- One operation on the map.  Refusing an insertion is only allowed for a new id when 512 orders are stored. -/
inductive MapStep : OrderMap → MapOp → MapOut → OrderMap → Prop
  | insert (M : OrderMap) (c : Comp) (l : LeafNode) :
      MapStep M (.insert c l) (.inserted (M c l.key)) (M.set c l.key (some l))
  | full (M : OrderMap) (c : Comp) (l : LeafNode) (hnew : M c l.key = none) (hfull : M.AtLeast 512) :
      MapStep M (.insert c l) .full M
  | remove (M : OrderMap) (c : Comp) (k : Nat) : MapStep M (.remove c k) (.removed (M c k)) (M.set c k none)

inductive MapRun : OrderMap → List MapOp → List MapOut → OrderMap → Prop
  | nil (M : OrderMap) : MapRun M [] [] M
  | cons {M M' M'' : OrderMap} {op : MapOp} {out : MapOut} {ops : List MapOp} {outs : List MapOut} :
      MapStep M op out M' → MapRun M' ops outs M'' → MapRun M (op :: ops) (out :: outs) M''

/-- `L` lists exactly the orders bound by `m`, best id first: descending ids for bids, ascending ids for asks. -/
def Enumerates (s : Side) (m : Nat → Option LeafNode) (L : List LeafNode) : Prop :=
  L.Pairwise (fun x y => match s with | .bid => x.key > y.key | .ask => x.key < y.key) ∧
  ∀ k l, m k = some l ↔ l ∈ L ∧ l.key = k

end OB
