/-! Specification: a bounded FIFO queue whose entries sit in named slots and can also be deleted by slot. -/
namespace OB.Spec

inductive QOp (α : Type)
  | push (e : α)
  | pop
  | delete (slot : Nat)

inductive QOut (α : Type)
  | pushed
  | event (e : α)
  | rejected
  deriving DecidableEq

/-- One operation on a queue of capacity `cap` (entries oldest first).  The slot of a pushed entry is any free one. -/
inductive QStep {α : Type} (cap : Nat) : List (Nat × α) → QOp α → QOut α → List (Nat × α) → Prop
  | push (q : List (Nat × α)) (e : α) (s : Nat) : q.length < cap → s < cap → s ∉ q.map (·.1) →
      QStep cap q (.push e) .pushed (q ++ [(s, e)])
  | pushFull (q : List (Nat × α)) (e : α) : q.length = cap → QStep cap q (.push e) .rejected q
  | pop (s : Nat) (e : α) (q : List (Nat × α)) : QStep cap ((s, e) :: q) .pop (.event e) q
  | popEmpty : QStep cap [] .pop .rejected []
  | delete (A B : List (Nat × α)) (s : Nat) (e : α) : QStep cap (A ++ (s, e) :: B) (.delete s) (.event e) (A ++ B)
  | deleteMissing (q : List (Nat × α)) (s : Nat) : s ∉ q.map (·.1) → QStep cap q (.delete s) .rejected q

inductive QRun {α : Type} (cap : Nat) : List (Nat × α) → List (QOp α) → List (QOut α) → List (Nat × α) → Prop
  | nil (q : List (Nat × α)) : QRun cap q [] [] q
  | cons {q q' q'' : List (Nat × α)} {op : QOp α} {o : QOut α} {ops : List (QOp α)} {os : List (QOut α)} :
      QStep cap q op o q' → QRun cap q' ops os q'' → QRun cap q (op :: ops) (o :: os) q''

end OB.Spec
