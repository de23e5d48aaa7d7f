import Verif.Spec.Cancel
import Verif.Model.TsTrade
/-! Vocabulary for stating what a cancellation does that was decided on earlier.  Used only in statements. -/
namespace OB.Spec
open OB

/-- `s'` came from `s` by instructions of anybody. -/
inductive Since (s : State) : State → Prop
  | now : Since s s
  | step (s1 s2 : State) (op : Op) (hs : Since s s1) (h : step s1 op = .ok s2) : Since s s2

/-- `l'` is order `l` after fills: only the size may have become less. -/
def LeftOf (l l' : LeafNode) : Prop := l' = { l with quantity := l'.quantity } ∧ 1 ≤ l'.quantity ∧ l'.quantity ≤ l.quantity

end OB.Spec
