import Verif.Spec.Engine
/-! Vocabulary for making room on a full book side. -/
namespace OB.Spec
open OB

/-- The price at which a resting order is compared when room must be made: its price, but a pegged price outside
[1, i64::MAX] counts as 1 or i64::MAX. -/
def evictPrice (oracle : Option Int) (c : Comp) (l : LeafNode) : Option Int :=
  (priceOf oracle c l).map (fun p => max 1 (min p i64Max))

/-- The orders resting on one side. -/
def onSide (book : Book) (s : Side) : List (Side × Comp × LeafNode) := book.resting.filter (fun x => x.1 = s)

/-- The time in force ended before `now`. -/
def expiredBefore (now : Nat) (l : LeafNode) : Prop := l.timeInForce ≠ 0 ∧ l.timestamp + l.timeInForce < now

instance (now : Nat) (l : LeafNode) : Decidable (expiredBefore now l) := by unfold expiredBefore; infer_instance

/-- The cancel event of a removed resting order. -/
structure IsOutOf (o : OutEvent) (s : Side) (l : LeafNode) : Prop where
  side : o.side = s
  owner : o.owner = l.owner
  slot : o.ownerSlot = l.ownerSlot
  quantity : o.quantity = l.quantity

/-- What a call does with the order `x` it removes from the own side: it reports a cancel event for the remaining quantity, which is
queued, unless the account of the owner is at hand (the account placing the order, or one of the accounts passed to the instruction)
and released at once. -/
def Evicted (env : Env) (r : OrderResult) (g' : Ledger) (x : Side × Comp × LeafNode) : Prop :=
  ∃ o ∈ r.outs, IsOutOf o x.1 x.2.2 ∧ (Event.out o ∈ g'.heap.events ∨ env.owner = x.2.2.owner ∨ x.2.2.owner ∈ env.rem)

/-- Posting an order `new` at price `p`: orders `E` (expired) and `W` (evicted) make room for it. -/
structure MadeRoom (env : Env) (book : Book) (r : OrderResult) (book' : Book) (g' : Ledger) (E W kept : List (Side × Comp × LeafNode))
    (c : Comp) (new : LeafNode) (p : Int) : Prop where
  id : r.orderId = some new.key
  price : priceOf env.oracle c new = some p
  before : (onSide book env.order.side).Perm (E ++ W ++ kept)
  after : (onSide book' env.order.side).Perm ((env.order.side, c, new) :: kept)
  /-- at most one expired order is removed; if none, no order was expired -/
  expired : E.length ≤ 1 ∧ (∀ x ∈ E, expiredBefore env.nowTs x.2.2) ∧
    (E = [] → ∀ x ∈ onSide book env.order.side, ¬ expiredBefore env.nowTs x.2.2)
  /-- nothing is evicted while there is room -/
  room : W = [] → kept.length ≤ 512 ∧ (E = [] → (book.side env.order.side).isFull = false)
  /-- at most one order is evicted, from a full side; no remaining order is worse; the new order has a strictly better price -/
  evict : W ≠ [] → ∃ w q, W = [w] ∧ 512 ≤ (W ++ kept).length ∧ evictPrice env.oracle w.2.1 w.2.2 = some q ∧
    (∀ x ∈ kept, ∀ q', evictPrice env.oracle x.2.1 x.2.2 = some q' → ¬ betterPrice env.order.side q q') ∧
    betterPrice env.order.side p q ∧ (E = [] → (book.side env.order.side).isFull = true)
  events : ∀ x ∈ E ++ W, Evicted env r g' x

end OB.Spec
