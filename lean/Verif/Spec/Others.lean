import Verif.Spec.Fate
import Verif.Spec.Settle
/-!
Vocabulary for what third parties can do to an account.  Used only in statements.
-/
namespace OB.Spec
open OB

/-- Neither the owner nor the delegate of account `a` signs. -/
def Outsiders (a : OOA) (op : Op) : Prop := ∀ x ∈ signers op, x ≠ a.owner ∧ (a.delegate = 0 ∨ x ≠ a.delegate)

/-- What can become of an order without its account's doing: nothing; pruned from an expired market by the close market admin; or it
meets orders that others place (`others`), which fill it, find it expired or beyond its peg limit, or evict it from a full side. -/
inductive ByOthers (s s' : State) (op : Op) (side : Side) (c : Comp) (l : LeafNode) : Prop
  | same (h : (side, c, l) ∈ s'.book.resting)
  | pruned (now : Int) (limit : Nat) (hop : op = .pruneOrders s.g.market.closeMarketAdmin l.owner now limit)
      (adm : s.g.market.closeMarketAdmin ≠ 0) (exp : s.g.market.isExpired now = true) (gone : Gone s'.book side c l)
  | met (p : Placer) (hp : placer op = some p) (s1 : State) (cs : List (Env × OrderResult)) (g1 : Ledger)
      (hP : Placement s s1 s' p cs g1) (others : ∀ x ∈ cs, x.1.owner ≠ l.owner) (o : Option LeafNode)
      (through : Through side c s1.book s1.g cs l o) (after : Remains s'.book side c l o)

/-- The close market admin settles account `k` after the market expired. -/
def AdminSettles (s : State) (k : Pubkey) (op : Op) : Prop :=
  ∃ c now, op = .settleFundsExpired s.g.market.closeMarketAdmin c now ∧ c.ooKey = k ∧ s.g.market.closeMarketAdmin ≠ 0 ∧
    s.g.market.isExpired now = true

/-- The instructions `ops` lead from `s` to `s'`. -/
inductive Runs (s : State) : List Op → State → Prop
  | nil : Runs s [] s
  | snoc {s1 s2 : State} {ops : List Op} (op : Op) : Runs s ops s1 → step s1 op = .ok s2 → Runs s (ops ++ [op]) s2

end OB.Spec
