import Verif.Model.Program
import Verif.Spec.Observe
/-! What can be seen of a market without looking at where its orders are stored. -/
namespace OB.Spec

/-- The same market, accounts, queue, tokens and lamports, the same resting orders, and for both sides of the book the same number of
nodes of the slab which were ever in use.  (The last number only says when a side counts as full: state/orderbook/ordertree.rs:399-401.)  Which
node holds which order, the inner nodes of the trees and the list of free nodes may differ. -/
structure SameView (s t : State) : Prop where
  ledger : t.g = s.g
  tokens : t.tokens = s.tokens
  lamports : t.lamports = s.lamports
  key : t.marketKey = s.marketKey
  closed : t.closed = s.closed
  orders : ∀ x, x ∈ t.book.resting ↔ x ∈ s.book.resting
  peak : ∀ sd, (t.book.side sd).nodes.bumpIndex = (s.book.side sd).nodes.bumpIndex

/-- Both computations succeed with related results, or both fail with the same error. -/
def Agree {α : Type} (P : α → α → Prop) (x y : R α) : Prop :=
  (∃ a b, x = .ok a ∧ y = .ok b ∧ P a b) ∨ ∃ e, x = .error e ∧ y = .error e

end OB.Spec
