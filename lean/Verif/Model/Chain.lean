/-
The client's cache of accounts: lib/client/src/chain_data.rs, with the messages of
lib/client/src/account_update_stream.rs that feed it and the query of
lib/client/src/chain_data_fetcher.rs that refreshes it.

Modelled: the slots with parent, status and chain mark, the writes per account, the three heads,
`update_slot`, `update_account`, `update_from_rpc`, `is_account_write_live` and the reads.

Simplified: slots are natural numbers, not `u64`.  The two hash maps are functions from keys to
optional entries.  The contents of an account are values of an arbitrary type `α`.  Clocks, locks
and the network are left out.
-/

namespace OB
namespace Cache

/-- chain_data.rs:7-12 -/
inductive Status where
  | rooted
  | confirmed
  | processed
  deriving DecidableEq, Repr

/-- chain_data.rs:14-20, `SlotData`; the slot itself is the key of the map. -/
structure SlotData where
  parent : Option Nat
  status : Status
  chain : Nat
  deriving DecidableEq, Repr

/-- chain_data.rs:22-26, `AccountAndSlot`. -/
structure Write (α : Type) where
  slot : Nat
  account : α
  deriving DecidableEq, Repr

/-- The map `slots` of chain_data.rs:34. -/
abbrev Slots := Nat → Option SlotData

/-- chain_data.rs:32-40, `ChainData`; account addresses are natural numbers. -/
structure ChainData (α : Type) where
  slots : Slots
  accounts : Nat → Option (List (Write α))
  newestRooted : Nat
  newestProcessed : Nat
  bestChain : Nat

/-- chain_data.rs:49-57 -/
def ChainData.new {α : Type} : ChainData α where
  slots := fun _ => none
  accounts := fun _ => none
  newestRooted := 0
  newestProcessed := 0
  bestChain := 0

/-- Insertion into a map of slots. -/
def Slots.put (m : Slots) (s : Nat) (d : SlotData) : Slots := fun t => if t = s then some d else m t

/-- chain_data.rs:81-93: the entry for the slot of a message, and whether its parent is news for an
entry that exists. All callers pass `chain: 0` (account_update_stream.rs:69-89,
chain_data.rs:179-184). -/
def enter (m : Slots) (s : Nat) (p : Option Nat) (st : Status) : Slots × Bool :=
  match m s with
  | none => (m.put s { parent := p, status := st, chain := 0 }, false)
  | some v =>
    (m.put s { v with parent := v.parent.or p,
                      status := if v.status = .processed ∨ st = .rooted then st else v.status },
     decide (v.parent ≠ p ∧ p.isSome))

/-- chain_data.rs:97-110: the loop that marks the slots from the head of the best chain down to the
first rooted slot or to where the parents are not known. The loop of the code has no bound. Here
`fuel` bounds the rounds and `none` says that they did not suffice: it stands for a loop that goes
on, which needs a parent that is not below its slot. -/
def mark (best : Nat) : Nat → Nat → Slots → Option Slots
  | 0, _, _ => none
  | fuel + 1, s, m =>
    match m s with
    | none => some m
    | some d =>
      let m' := m.put s { d with chain := best }
      if d.status = .rooted then some m'
      else
        match d.parent with
        | none => some m'
        | some p => mark best fuel p m'

/-- chain_data.rs:120-138: the slot of the newest write that counts as rooted. -/
def rootedWrite {α : Type} (m : Slots) (rooted best : Nat) (ws : List (Write α)) : Nat :=
  match ws.reverse.find? (fun w => decide (w.slot ≤ rooted) &&
      (match m w.slot with
       | some d => decide (d.status = .rooted ∨ d.chain = best)
       | none => true)) with
  | some w => w.slot
  | none => rooted + 1

/-- chain_data.rs:116-141, for the writes of one account. -/
def prune {α : Type} (m : Slots) (rooted best : Nat) (ws : List (Write α)) : List (Write α) :=
  ws.filter (fun w => decide (w.slot = rootedWrite m rooted best ws ∨ w.slot > rooted))

/-- chain_data.rs:59-147, `update_slot`; `none` when the loop of lines 98-110 does not end. -/
def updateSlot {α : Type} (c : ChainData α) (s : Nat) (p : Option Nat) (st : Status) :
    Option (ChainData α) :=
  let processed := if s > c.newestProcessed then s else c.newestProcessed
  let newRooted : Bool := decide (s > c.newestRooted ∧ st = .rooted)
  let rooted := if newRooted then s else c.newestRooted
  let newBest : Bool := decide (p.isSome ∧ s > c.bestChain)
  let best := if newBest then s else c.bestChain
  let entered := enter c.slots s p st
  let marked := if newBest || entered.2 then mark best (best + 1) best entered.1 else some entered.1
  marked.map fun m =>
    if newRooted then
      { slots := fun t => if t ≥ rooted then m t else none,
        accounts := fun k => (c.accounts k).map (prune m rooted best),
        newestRooted := rooted, newestProcessed := processed, bestChain := best }
    else
      { slots := m, accounts := c.accounts,
        newestRooted := rooted, newestProcessed := processed, bestChain := best }

/-- chain_data.rs:159-164: the position after the last entry whose slot is not above `s`. -/
def position {α : Type} (v : List (Write α)) (s : Nat) : Nat :=
  v.length - (v.reverse.findIdx? (fun d => decide (d.slot ≤ s))).getD v.length

/-- chain_data.rs:157-169: the new list of writes of an account that has one. -/
def insertWrite {α : Type} (v : List (Write α)) (w : Write α) : List (Write α) :=
  let pos := position v w.slot
  match v[pos]? with
  | some d => if d.slot = w.slot then v.set pos w else v.insertIdx pos w
  | none => v.insertIdx pos w

/-- chain_data.rs:149-172, `update_account`. -/
def updateAccount {α : Type} (c : ChainData α) (key : Nat) (w : Write α) : ChainData α :=
  { c with accounts := fun k =>
      if k = key then
        some (match c.accounts key with
              | none => [w]
              | some v => insertWrite v w)
      else c.accounts k }

/-- chain_data.rs:174-188, `update_from_rpc`. -/
def updateFromRpc {α : Type} (c : ChainData α) (key : Nat) (w : Write α) : Option (ChainData α) :=
  (if w.slot > c.bestChain then updateSlot c w.slot (some c.bestChain) .processed else some c).map
    fun c => updateAccount c key w

/-- chain_data.rs:190-201, `is_account_write_live`. -/
def isLive {α : Type} (c : ChainData α) (w : Write α) : Bool :=
  match c.slots w.slot with
  | some d => decide (d.status = .rooted ∨ d.chain = c.bestChain ∨ w.slot > c.bestChain)
  | none => decide (w.slot ≤ c.newestRooted)

/-- chain_data.rs:222-231, `account_and_slot`; both errors are `none`. -/
def accountAndSlot {α : Type} (c : ChainData α) (key : Nat) : Option (Write α) :=
  match c.accounts key with
  | none => none
  | some ws => ws.reverse.find? (isLive c)

/-- chain_data.rs:218-220, `account`. -/
def account {α : Type} (c : ChainData α) (key : Nat) : Option α :=
  (accountAndSlot c key).map (·.account)

/-- chain_data.rs:204-215, `accounts_snapshot`, and 233-241, `iter_accounts`: the entry they produce
for a key, if any. -/
def snapshotEntry {α : Type} (c : ChainData α) (key : Nat) : Option (Nat × Write α) :=
  match c.accounts key with
  | none => none
  | some ws => (ws.reverse.find? (isLive c)).map (fun w => (key, w))

/-- The messages of account_update_stream.rs:32-37: what an account holds, and the three kinds of
slot updates that are used (lines 64-91). A snapshot is a list of account messages (lines 53-63). -/
inductive Msg (α : Type) where
  | write (key : Nat) (w : Write α)
  | createdBank (slot parent : Nat)
  | confirmed (slot : Nat)
  | root (slot : Nat)
  /-- the answer to a query, chain_data_fetcher.rs:80-105 -/
  | rpc (key : Nat) (w : Write α)

/-- account_update_stream.rs:40-97, `update_chain_data`, and chain_data_fetcher.rs:96-102. -/
def apply {α : Type} (c : ChainData α) : Msg α → Option (ChainData α)
  | .write key w => some (updateAccount c key w)
  | .createdBank s p => updateSlot c s (some p) .processed
  | .confirmed s => updateSlot c s none .confirmed
  | .root s => updateSlot c s none .rooted
  | .rpc key w => updateFromRpc c key w

/-- The cache after messages, the most recent first. -/
def run {α : Type} : List (Msg α) → Option (ChainData α)
  | [] => some ChainData.new
  | m :: h => (run h).bind (fun c => apply c m)

end Cache
end OB
