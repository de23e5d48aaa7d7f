import Verif.Model.Snapshot
/-! Vocabulary for what a snapshot should hold.  Used only in statements. -/
namespace OB.Spec
open OB Cache Snap

variable {α : Type}

/-- The node answers from the chain: `chain s k` are the contents of account `k` at slot `s`, `ours s k` says whether it belongs to the program. -/
structure Truthful (chain : Nat → Nat → Option α) (ours : Nat → Nat → Prop) (gpa : Gpa α) (answers : List (List Nat × Option (Gma α))) : Prop where
  program : ∀ k d, (k, some d) ∈ gpa.value ↔ ours gpa.slot k ∧ chain gpa.slot k = some d
  multiple : ∀ keys r, (keys, some r) ∈ answers → r.value = keys.map (fun k => (chain r.slot k).map some)

/-- The requests are for these oracles, however they are divided and in whatever order they are answered. -/
def RequestsFor (oracles : List Nat) (answers : List (List Nat × Option (Gma α))) : Prop := ∀ k, k ∈ oracles ↔ ∃ x ∈ answers, k ∈ x.1

end OB.Spec
