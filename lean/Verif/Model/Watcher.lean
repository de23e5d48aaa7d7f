import Verif.Model.TsDecode
/-!
ts/client/src/utils/watcher.ts: objects of the TypeScript library that are kept up to date by a node, which calls back with the data of
an account whenever it changes.  Where a callback throws, the object stays as it is (the connection of web3.js goes on).
-/
namespace OB.Watcher
open Layout

/-- The kinds of objects that can be watched. -/
inductive Kind | market | bookSide | eventHeap | openOrders
  deriving DecidableEq, Repr

/-- The field `account` of an object. -/
inductive Held
  | acct (d : Ts.Decoded)
  | side (s : Ts.SideAcct)

/-- An object: its address and kind, which do not change. -/
structure Obj where
  pubkey : Pubkey
  kind : Kind
  deriving DecidableEq, Repr

/-- What the callbacks compute from the data: watcher.ts:15-18 (market), 40 (book side, without a look at the discriminator), 50-53 (event
heap), 64-67 (open orders; the name of the account is the one given there). -/
def decodeFor (disc : String → Bytes) : Kind → Bytes → Ts.Js Held
  | .market, data => do return .acct (← Ts.decodeAccount disc "market" data)
  | .bookSide, data => do return .side (← Ts.decodeAccountFromBuffer data)
  | .eventHeap, data => do return .acct (← Ts.decodeAccount disc "eventHeap" data)
  | .openOrders, data => do return .acct (← Ts.decodeAccount disc "OpenOrders" data)

/-- A subscription of the connection: its number, and the object that the callback assigns to.  Objects are numbered. -/
structure Sub where
  id : Nat
  obj : Nat
  deriving DecidableEq, Repr

/-- The objects of a program that uses the library, the subscriptions of its connection, and the watcher with `accountSubs` (watcher.ts:5:
the number of a subscription for an address, the last one if there are several). -/
structure Session where
  objs : Nat → Obj
  held : Nat → Held
  subs : List Sub
  nextId : Nat
  accountSubs : Pubkey → Option Nat

/-- watcher.ts:12-20, 36-42, 47-55, 61-69: `onAccountChange` and an entry in `accountSubs` -/
def Session.add (s : Session) (i : Nat) : Session :=
  { s with subs := s.subs ++ [{ id := s.nextId, obj := i }], nextId := s.nextId + 1,
           accountSubs := fun k => if k = (s.objs i).pubkey then some s.nextId else s.accountSubs k }

/-- A callback. -/
def Session.call (disc : String → Bytes) (data : Bytes) (s : Session) (i : Nat) : Session :=
  match decodeFor disc (s.objs i).kind data with
  | .ok y => { s with held := fun j => if j = i then y else s.held j }
  | .error _ => s

/-- The account at `k` has changed: all callbacks for this address, in the order of the subscriptions. -/
def Session.notify (disc : String → Bytes) (s : Session) (k : Pubkey) (data : Bytes) : Session :=
  ((s.subs.filter (fun x => (s.objs x.obj).pubkey == k)).map Sub.obj).foldl (Session.call disc data) s

/-- watcher.ts:74-79: the subscriptions in `accountSubs` are removed; the entries stay. -/
def Session.clear (s : Session) : Session :=
  { s with subs := s.subs.filter (fun x => s.accountSubs (s.objs x.obj).pubkey != some x.id) }

/-- watcher.ts:9-32: the market, then the sides and the event heap, if they are loaded and not to be left out. -/
def Session.addMarket (s : Session) (market : Nat) (asks bids eventHeap : Option Nat) (includeBook includeEvents : Bool) : Session :=
  let s := s.add market
  let s := match asks with
    | some i => if includeBook then s.add i else s
    | none => s
  let s := match bids with
    | some i => if includeBook then s.add i else s
    | none => s
  match eventHeap with
  | some i => if includeEvents then s.add i else s
  | none => s

/-- What happens to the watcher. -/
inductive Action
  | add (i : Nat)
  | notify (k : Pubkey) (data : Bytes)
  | clear

def Session.act (disc : String → Bytes) (s : Session) : Action → Session
  | .add i => s.add i
  | .notify k data => s.notify disc k data
  | .clear => s.clear

def Session.run (disc : String → Bytes) (s : Session) (l : List Action) : Session := l.foldl (Session.act disc) s

/-- Before anything is watched. -/
def Session.start (objs : Nat → Obj) (held : Nat → Held) : Session :=
  { objs, held, subs := [], nextId := 0, accountSubs := fun _ => none }

end OB.Watcher
