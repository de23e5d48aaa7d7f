import Verif.Spec.Instr
/-!
The later states of a market address: further operations, and further markets created there after the market was closed.
-/
namespace OB.Spec
open OB

/-- `s'` is a later state of the address of the market in state `s`. -/
inductive Succession (s : State) : State → Prop
  | refl : Succession s s
  | step (s1 s2 : State) (op : Op) (hs : Succession s s1) (h : step s1 op = .ok s2) : Succession s s2
  | again (s1 s2 : State) (a : CreateArgs) (now : Int) (hs : Succession s s1) (h : recreateMarket s1 a now = .ok s2) : Succession s s2

end OB.Spec
