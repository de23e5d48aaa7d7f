import Verif.Spec.Others
import Verif.Spec.Deliver
/-!
Vocabulary for cranking: runs of instructions that only consume events.  Used only in statements.
-/
namespace OB.Spec
open OB

/-- The instruction consumes events: from the front of the queue or from slots of the caller's choice, with any limit and any accounts. -/
def IsCrank : Op → Prop
  | .consumeEvents _ _ _ => True
  | .consumeGivenEvents _ _ _ => True
  | _ => False

/-- The two states agree in everything, except for how the event queue is laid out in its account. -/
structure SameBeside (s s' : State) : Prop where
  accts : s'.g.accts = s.g.accts
  market : s'.g.market = s.g.market
  book : s'.book = s.book
  tokens : s'.tokens = s.tokens
  lamports : s'.lamports = s.lamports
  closed : s'.closed = s.closed

end OB.Spec
