import Verif.Model.Chain

/-
What a reader of the client's cache of accounts relies on, said about the messages received and
without the cache: no pruning, no marks, no order of the writes. A history lists the messages, the
most recent first.
-/

namespace OB
namespace Cache

variable {α : Type}

/-- The highest slot whose parent was told. The answer to a query about a slot above that counts
as telling that this slot follows it. -/
def bestIn : List (Msg α) → Nat
  | [] => 0
  | .createdBank s _ :: h => max s (bestIn h)
  | .rpc _ w :: h => max w.slot (bestIn h)
  | _ :: h => bestIn h

/-- The parent that was told first for slot `t`. -/
def parentIn : List (Msg α) → Nat → Option Nat
  | [], _ => none
  | .createdBank s p :: h, t => (parentIn h t).or (if t = s then some p else none)
  | .rpc _ w :: h, t =>
    (parentIn h t).or (if t = w.slot ∧ bestIn h < w.slot then some (bestIn h) else none)
  | _ :: h, t => parentIn h t

/-- The newest slot reported as rooted. -/
def rootIn : List (Msg α) → Nat
  | [] => 0
  | .root s :: h => max s (rootIn h)
  | _ :: h => rootIn h

/-- Slot `t` was announced, confirmed, rooted, or answered a query about something newer than the
best chain. -/
def knownIn : List (Msg α) → Nat → Prop
  | [], _ => False
  | .createdBank s _ :: h, t => t = s ∨ knownIn h t
  | .confirmed s :: h, t => t = s ∨ knownIn h t
  | .root s :: h, t => t = s ∨ knownIn h t
  | .rpc _ w :: h, t => (t = w.slot ∧ bestIn h < w.slot) ∨ knownIn h t
  | .write _ _ :: h, t => knownIn h t

/-- The best chain: the highest slot with a known parent, and the parents from there on. -/
inductive OnChain (h : List (Msg α)) : Nat → Prop
  | tip : OnChain h (bestIn h)
  | up {s p : Nat} : OnChain h s → parentIn h s = some p → OnChain h p

/-- What was received for an account, the most recent first. -/
def writesIn : List (Msg α) → Nat → List (Write α)
  | [], _ => []
  | .write k w :: h, key => if key = k then w :: writesIn h key else writesIn h key
  | .rpc k w :: h, key => if key = k then w :: writesIn h key else writesIn h key
  | _ :: h, key => writesIn h key

/-- The slots whose writes count: those of the best chain and those above it. A slot that nothing
was told about counts when it is not above the newest rooted one. -/
def Counts (h : List (Msg α)) (s : Nat) : Prop :=
  (knownIn h s ∧ (OnChain h s ∨ bestIn h < s)) ∨ (¬ knownIn h s ∧ s ≤ rootIn h)

/-- The current state of an account: `w` was received for it, its slot counts, no other write that
counts is for a higher slot, and nothing was received for the same slot later. -/
def Current (h : List (Msg α)) (key : Nat) (w : Write α) : Prop :=
  Counts h w.slot ∧
  ∃ later earlier, writesIn h key = later ++ w :: earlier ∧
    (∀ v ∈ later, Counts h v.slot → v.slot < w.slot) ∧
    (∀ v ∈ earlier, Counts h v.slot → v.slot ≤ w.slot)

/-- A feed without late or surprising messages:
* a slot is announced with a parent below it, before anything that builds on it, and not below the
  newest rooted slot,
* confirmations are for slots above the newest rooted one, and for announced slots,
* a rooted slot is on the best chain, and stays there,
* no write arrives for a slot off the best chain once a later slot is rooted. -/
inductive Fair : List (Msg α) → Prop
  | start : Fair []
  | createdBank {h : List (Msg α)} {s p : Nat} : Fair h → p < s → rootIn h < s →
      (knownIn h s ∨ ∀ t, parentIn h t ≠ some s) →
      (rootIn h = 0 ∨ OnChain (.createdBank s p :: h) (rootIn h)) →
      Fair (.createdBank s p :: h)
  | confirmed {h : List (Msg α)} {s : Nat} : Fair h → rootIn h < s →
      (knownIn h s ∨ ∀ t, parentIn h t ≠ some s) →
      Fair (.confirmed s :: h)
  | root {h : List (Msg α)} {s : Nat} : Fair h → rootIn h < s → OnChain h s → Fair (.root s :: h)
  | write {h : List (Msg α)} {key : Nat} {w : Write α} : Fair h →
      (w.slot < rootIn h → knownIn h w.slot → OnChain h w.slot) → Fair (.write key w :: h)
  | rpc {h : List (Msg α)} {key : Nat} {w : Write α} : Fair h →
      (w.slot < rootIn h → knownIn h w.slot → OnChain h w.slot) → Fair (.rpc key w :: h)

/-- Every message names a parent below its slot. -/
def Below (h : List (Msg α)) : Prop := ∀ s p, Msg.createdBank s p ∈ h → p < s

end Cache
end OB
