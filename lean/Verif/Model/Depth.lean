import Verif.Model.BookSide
/-! What a book side tells about itself: the quantity within a limit and the price at a depth (`state/orderbook/bookside.rs`). -/
namespace OB
namespace BookSide

/-- bookside.rs:167-172: the loop of `quantity_at_price` over the valid orders (bookside.rs:49-55 filters them); `n` is fuel. -/
def quantityLoop (t : Nodes) (nowTs : Nat) (oracle : Option Int) (limit : Int) : Nat → SideIter → Int → R Int
  | 0, _, _ => .error .fuel
  | n + 1, it, sum => do
    match ← it.next t nowTs oracle with
    | none => return sum
    | some (item, it') =>
      if item.state ≠ .valid then quantityLoop t nowTs oracle limit n it' sum
      else if t.side.isPriceBetter limit item.priceLots then return sum
      else do
        let sum' ← ckI64 (sum + item.leaf.quantity)
        quantityLoop t nowTs oracle limit n it' sum'

/-- bookside.rs:159-174 `quantity_at_price` -/
def quantityAtPrice (b : BookSide) (limit : Int) (nowTs : Nat) (oracle : Int) : R Int := do
  let it ← b.iter
  quantityLoop b.nodes nowTs (some oracle) limit (2 * Nodes.fuel) it 0

/-- bookside.rs:189-194: the loop of `impact_price`; `n` is fuel. -/
def impactLoop (t : Nodes) (nowTs : Nat) (oracle : Option Int) (quantity : Int) : Nat → SideIter → Int → R (Option Int)
  | 0, _, _ => .error .fuel
  | n + 1, it, sum => do
    match ← it.next t nowTs oracle with
    | none => return none
    | some (item, it') =>
      if item.state ≠ .valid then impactLoop t nowTs oracle quantity n it' sum
      else do
        let sum' ← ckI64 (sum + item.leaf.quantity)
        if sum' ≥ quantity then return some item.priceLots else impactLoop t nowTs oracle quantity n it' sum'

/-- bookside.rs:187-196 `impact_price` -/
def impactPrice (b : BookSide) (quantity : Int) (nowTs : Nat) (oracle : Int) : R (Option Int) := do
  let it ← b.iter
  impactLoop b.nodes nowTs (some oracle) quantity (2 * Nodes.fuel) it 0

end BookSide
end OB
