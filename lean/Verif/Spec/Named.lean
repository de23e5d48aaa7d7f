import Verif.Spec.Logs
import Verif.Spec.Engine
import Verif.Model.Client
/-! Vocabulary for stating which events of an order are delivered at once and which are queued. -/
namespace OB.Spec
open OB

/-- The fills, respectively the removed orders, among events. -/
def fillsIn (es : List Event) : List FillEvent := es.filterMap (fun e => match e with | .fill f => some f | _ => none)
def outsIn (es : List Event) : List OutEvent := es.filterMap (fun e => match e with | .out o => some o | _ => none)

/-- The fills left over when, in order, up to `n` fills whose makers are among `named` are delivered. -/
def left (named : List Pubkey) : Nat → List FillEvent → List FillEvent
  | 0, fs => fs
  | _ + 1, [] => []
  | n + 1, f :: fs => if f.maker ∈ named then left named n fs else f :: left named (n + 1) fs

/-- The account of the order removed is neither named nor the account that trades. -/
def absent (env : Env) (o : OutEvent) : Prop := o.owner ∉ env.rem ∧ ¬ (env.hasOO = true ∧ env.owner = o.owner)

instance (env : Env) (o : OutEvent) : Decidable (absent env o) := by unfold absent; infer_instance

/-- The fills have at most `n` different makers. -/
def AtMostMakers (n : Nat) (fs : List FillEvent) : Prop := ∃ ks : List Pubkey, ks.length ≤ n ∧ ∀ f ∈ fs, f.maker ∈ ks

end OB.Spec
