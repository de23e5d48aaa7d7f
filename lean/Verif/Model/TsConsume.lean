import Verif.Model.Heap
/-!
ts/client/src/client.ts: the helpers for the instructions that consume events.

In JavaScript `===` and `!==` compare objects by identity.  A `PublicKey` is an object here: its identity, which is new for each
one that is created, and the key it holds.
-/
namespace OB.Ts

/-- An object of the class `PublicKey` of @solana/web3.js. -/
structure KeyObj where
  id : Nat
  key : Pubkey
  deriving DecidableEq

/-- client.ts:1097-1101 and 1106-1110, the same in 1129-1134 and 1136-1140: decoding an event creates its key object.  (The event itself
is that of the node, used or free: C84_key shows that this is what decoding its bytes gives.) -/
def eventKey (next : Nat) : Event → KeyObj
  | .fill f => ⟨next, f.maker⟩
  | .out o => ⟨next, o.owner⟩

/-- client.ts:1095-1116 over the nodes that are left; `next` is the identity of the next object. -/
def accountsLoop (h : EventHeap) : List Nat → Nat → List KeyObj → List KeyObj
  | [], _, accounts => accounts
  | i :: is, next, accounts =>
    let k := eventKey next (h.nodes i).event
    let accounts := accounts.filter (fun a => a.id ≠ k.id) ++ [k]
    if accounts.length > 20 then accounts else accountsLoop h is (next + 1) accounts

/-- client.ts:1090-1119 -/
def getAccountsToConsume (h : EventHeap) (next : Nat) : List KeyObj := accountsLoop h (List.range maxNumEvents) next []

/-- client.ts:1127-1143 over the nodes that are left -/
def slotsLoop (h : EventHeap) (key : KeyObj) : List Nat → Nat → List Nat
  | [], _ => []
  | i :: is, next =>
    if key.id = (eventKey next (h.nodes i).event).id then i :: slotsLoop h key is (next + 1) else slotsLoop h key is (next + 1)

/-- client.ts:1121-1146 -/
def getSlotsToConsume (h : EventHeap) (key : KeyObj) (next : Nat) : List Nat := slotsLoop h key (List.range maxNumEvents) next

/-- client.ts:1008-1037: the slots and the accounts that `consumeEventsForAccountIx` puts into a `consume_given_events`.  A `Set` of objects
keeps them by identity.  (The second helper loads the heap anew; the objects of the first are 600.) -/
def consumeEventsForAccount (h : EventHeap) (key : KeyObj) (next : Nat) : List Nat × List Pubkey :=
  let all := key :: getAccountsToConsume h (next + maxNumEvents)
  (getSlotsToConsume h key next, (all.eraseDups.take 10).map (·.key))

end OB.Ts
