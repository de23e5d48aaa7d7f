import Mathlib.Data.List.Forall2
import Verif.Model.Logs
import Verif.Spec.Fees
import Verif.Spec.Instr
import Verif.Spec.Engine
/-!
Vocabulary for what the instructions write to the transaction log.  Used only in statements.
-/
namespace OB.Spec
open OB

/-- The fills reported by the records. -/
def fillLogs (L : List Log) : List FillLog := L.filterMap (fun x => match x with | .fill l => some l | _ => none)

/-- The sequence numbers of the taker signatures among the records. -/
def signatures (L : List Log) : List Nat := L.filterMap (fun x => match x with | .takerSignature n => some n | _ => none)

/-- The totals of taken orders among the records. -/
def totalLogs (L : List Log) : List TotalLog := L.filterMap (fun x => match x with | .total l => some l | _ => none)

/-- The records of positions. -/
def positionLogs (L : List Log) : List PositionLog := L.filterMap (fun x => match x with | .position l => some l | _ => none)

/-- The last record of the position of account `k`. -/
def lastPosition (L : List Log) (k : Pubkey) : Option PositionLog := ((positionLogs L).filter (fun l => l.account = k)).getLast?

/-- A record shows a position. -/
structure Shows (l : PositionLog) (p : Position) : Prop where
  bidsBase : l.bidsBaseLots = p.bidsBaseLots
  bidsQuote : l.bidsQuoteLots = p.bidsQuoteLots
  asksBase : l.asksBaseLots = p.asksBaseLots
  base : l.baseFreeNative = p.baseFreeNative
  quote : l.quoteFreeNative = p.quoteFreeNative
  locked : l.lockedMakerFees = p.lockedMakerFees
  rebates : l.referrerRebatesAvailable = p.referrerRebatesAvailable
  maker : l.makerVolume = p.makerVolume
  taker : l.takerVolume = p.takerVolume

/-- The volumes of an account that had `a` before the records `L`, as somebody knows them who reads the records. -/
def volumesRead (L : List Log) (k : Pubkey) (a : OOA) : Int × Int := match lastPosition L k with
  | some l => (l.makerVolume, l.takerVolume)
  | none => (a.position.makerVolume, a.position.takerVolume)

/-- The fills in the queue. -/
def queuedFills (g : Ledger) : List FillEvent := g.heap.events.filterMap (fun e => match e with | .fill f => some f | _ => none)

/-- The record `l` reports the fill `f` on a market with this configuration: the fill itself field by field; the maker fee, rounded down
and 0 if the maker gets a rebate; the taker fee that this fill alone would cost, rounded up; no fees if the account traded with itself. -/
structure Reports (m : Market) (l : FillLog) (f : FillEvent) : Prop where
  takerSide : l.takerSide = f.takerSide
  makerSlot : l.makerSlot = f.makerSlot
  makerOut : l.makerOut = f.makerOut
  timestamp : l.timestamp = f.timestamp
  seqNum : l.seqNum = f.marketSeqNum
  maker : l.maker = f.maker
  makerClientOrderId : l.makerClientOrderId = f.makerClientOrderId
  makerTimestamp : l.makerTimestamp = f.makerTimestamp
  taker : l.taker = f.taker
  takerClientOrderId : l.takerClientOrderId = f.takerClientOrderId
  price : l.price = f.price
  quantity : l.quantity = f.quantity
  self : f.maker = f.taker → l.makerFee = 0 ∧ l.takerFeeCeil = 0
  makerFee : f.maker ≠ f.taker → IsFloorFee (f.quantity * f.price * m.quoteLotSize) (max m.makerFee 0) l.makerFee
  takerFee : f.maker ≠ f.taker → IsCeilFee (f.quantity * f.price * m.quoteLotSize) m.takerFee l.takerFeeCeil

/-- Each record reports the fill at its position. -/
def ReportAll (m : Market) (ls : List FillLog) (fs : List FillEvent) : Prop := List.Forall₂ (Reports m) ls fs

/-- The value of a reported fill. -/
def reportedValue (m : Market) (l : FillLog) : Int := l.quantity * l.price * m.quoteLotSize

/-- The value that was traded according to a total: what a buyer paid without the fee, what a seller received and the fee. -/
def totalValue (l : TotalLog) : Int := match l.side with
  | .bid => l.paid - l.fees
  | .ask => l.received + l.fees

/-- The records `L` of a change from `s` to `s'` tell which fills were made on the way, `made`, and report those that were delivered to
their makers, `told`; the others are in the queue. -/
structure Tells (s s' : State) (made told : List FillEvent) (L : List Log) : Prop where
  signed : signatures L = made.map (·.marketSeqNum)
  reported : ReportAll s.g.market (fillLogs L) told
  queue : (queuedFills s.g ++ made).Perm (told ++ queuedFills s'.g)

/-- The traded volumes that the market and the accounts keep change by what the records say. -/
structure VolumesTold (s s' : State) (L : List Log) : Prop where
  market : s'.g.market.makerVolume = s.g.market.makerVolume + ((fillLogs L).map (reportedValue s.g.market)).sum
  walkIn : s'.g.market.takerVolumeWoOo = s.g.market.takerVolumeWoOo +
    (((totalLogs L).filter (fun t => (s.g.accts.get? t.taker).isNone)).map totalValue).sum
  makers : ∀ k a a', s.g.accts.get? k = some a → s'.g.accts.get? k = some a' → a'.position.makerVolume =
    a.position.makerVolume + (((fillLogs L).filter (fun l => l.maker = k)).map (reportedValue s.g.market)).sum
  takers : ∀ k a a', s.g.accts.get? k = some a → s'.g.accts.get? k = some a' → a'.position.takerVolume =
    a.position.takerVolume + (((totalLogs L).filter (fun t => t.taker = k)).map totalValue).sum
  positions : ∀ k a a', s.g.accts.get? k = some a → s'.g.accts.get? k = some a' →
    (a'.position.makerVolume, a'.position.takerVolume) = volumesRead L k a

/-- The total of a call of the matching engine that traded: what the taker gives and gets for all the fills together. -/
def totalFor (m : Market) (env : Env) (r : OrderResult) : TotalLog :=
  let base := sumQty r.fills * m.baseLotSize
  let quote := sumQuote r.fills * m.quoteLotSize
  { side := env.order.side, taker := env.owner, fees := r.takerFees
    paid := if env.order.side = .bid then quote + r.takerFees else base
    received := if env.order.side = .bid then base else quote - r.takerFees }

/-- The totals of calls of the matching engine, one for each that traded. -/
def totalsFor (m : Market) (cs : List (Env × OrderResult)) : List TotalLog :=
  (cs.filter (fun x => x.2.fills ≠ [])).map (fun x => totalFor m x.1 x.2)

/-- Base and quote that the taker of a total has more (or less) afterwards, according to the record. -/
def totalBase (l : TotalLog) : Int := match l.side with
  | .bid => l.received
  | .ask => -l.paid
def totalQuote (l : TotalLog) : Int := match l.side with
  | .bid => -l.paid
  | .ask => l.received

/-- The records that calls of the matching engine write, one after the other. -/
inductive CallsLogged : Book → Ledger → List (Env × OrderResult) → List (List Log) → Prop
  | nil (book : Book) (g : Ledger) : CallsLogged book g [] []
  | cons (env : Env) (r : OrderResult) (cs : List (Env × OrderResult)) (book book1 : Book) (g g1 : Ledger) (l : List Log) (ls : List (List Log))
      (h : newOrder env book g = .ok (r, book1, g1)) (hl : newOrderLogs env book g = .ok l) (hs : CallsLogged book1 g1 cs ls) :
      CallsLogged book g ((env, r) :: cs) (l :: ls)

/-- A run of instructions with all records written on the way. -/
inductive LogRun (s : State) : List Op → State → List Log → Prop
  | nil : LogRun s [] s []
  | snoc {s1 s2 : State} {ops : List Op} {L L' : List Log} (op : Op) : LogRun s ops s1 L → step s1 op = .ok s2 → logs s1 op = .ok L' →
      LogRun s (ops ++ [op]) s2 (L ++ L')

end OB.Spec
