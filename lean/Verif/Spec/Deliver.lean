import Verif.Spec.Ledger
/-!
Vocabulary for the delivery of events to maker accounts, for cancellation and settlement.  Used only in statements.
-/
namespace OB.Spec

/-- The maker fee of a fill: the floor of value * maker fee / 10^6 if the maker fee is positive; none on a trade with oneself. -/
def fillMakerFee (m : Market) (f : FillEvent) : Int :=
  if f.maker = f.taker then 0 else fillQuote m f * max m.makerFee 0 / 1000000

/-- Quote the maker of a filled bid had locked for the filled quantity: at the fill price, or at the peg limit of a pegged bid. -/
def fillLocked (m : Market) (f : FillEvent) : Int :=
  if f.pegLimit = -1 then fillQuote m f else f.quantity * f.pegLimit * m.quoteLotSize

/-- Maker fee that the fill of a bid releases. -/
def fillLockedFee (m : Market) (f : FillEvent) : Int :=
  if f.pegLimit = -1 then fillMakerFee m f else fillLocked m f * max m.makerFee 0 / 1000000

/-- Quote locked by a bid for `q` base lots at price `p`: the value, and the maker fee rounded up. -/
def bidValue (m : Market) (q p : Int) : Int := q * p * m.quoteLotSize
def bidFee (m : Market) (q p : Int) : Int := (bidValue m q p * max m.makerFee 0 + 999999) / 1000000

/-- Base that an event adds to the free balance of its account: what a bid bought, what a removed ask had locked. -/
def creditBase (m : Market) : Event → Int
  | .fill f => if f.takerSide = .ask then f.quantity * m.baseLotSize else 0
  | .out e => if e.side = .ask then e.quantity * m.baseLotSize else 0

/-- Quote that an event adds to the free balance of its account `a`: the proceeds of an ask plus rebate minus fee; for a bid the
rebate and whatever it had locked beyond price and fee; for a removed bid what it had locked. -/
def creditQuote (m : Market) (a : OOA) : Event → Int
  | .fill f => match f.takerSide with
    | .bid => fillQuote m f + fillRebate m f - fillMakerFee m f
    | .ask => fillRebate m f + (fillLocked m f - fillQuote m f) + (fillLockedFee m f - fillMakerFee m f)
  | .out e => if e.side = .bid then bidValue m e.quantity (eventLockedAt a (.out e)) + bidFee m e.quantity (eventLockedAt a (.out e)) else 0

/-- Locked maker fees that an event releases. -/
def releasedFee (m : Market) (a : OOA) : Event → Int
  | .fill f => if f.takerSide = .ask then fillLockedFee m f else 0
  | .out e => if e.side = .bid then bidFee m e.quantity (eventLockedAt a (.out e)) else 0

/-- Referrer rebate (the whole maker fee) that an event earns. -/
def eventRebate (m : Market) : Event → Int
  | .fill f => fillMakerFee m f
  | .out _ => 0

/-- Traded value of an event. -/
def eventVolume (m : Market) : Event → Int
  | .fill f => fillQuote m f
  | .out _ => 0

def total (es : List Event) (f : Event → Int) : Int := (es.map f).sum

/-- Account `k` is `a` before and `a'` after the events `es` (all of account `k`) have been delivered, each once. -/
structure Credited (m : Market) (k : Pubkey) (es : List Event) (a a' : OOA) : Prop where
  owner : a'.owner = a.owner
  delegate : a'.delegate = a.delegate
  base : a'.position.baseFreeNative = a.position.baseFreeNative + total es (creditBase m)
  quote : a'.position.quoteFreeNative = a.position.quoteFreeNative + total es (creditQuote m a)
  bids : a'.position.bidsBaseLots = a.position.bidsBaseLots - total es (fun e => if eventSide e = .bid then eventQuantity e else 0)
  asks : a'.position.asksBaseLots = a.position.asksBaseLots - total es (fun e => if eventSide e = .ask then eventQuantity e else 0)
  bidsQuote : a'.position.bidsQuoteLots = a.position.bidsQuoteLots -
    total es (fun e => if eventSide e = .bid then eventQuantity e * eventLockedAt a e else 0)
  fees : a'.position.lockedMakerFees = a.position.lockedMakerFees - total es (releasedFee m a)
  rebates : a'.position.referrerRebatesAvailable = a.position.referrerRebatesAvailable + total es (eventRebate m)
  penalty : a'.position.penaltyHeapCount = a.position.penaltyHeapCount
  makerVolume : a'.position.makerVolume = a.position.makerVolume + total es (eventVolume m)
  takerVolume : a'.position.takerVolume = a.position.takerVolume
  slots : ∀ (i : Nat), a'.openOrders[i]? = a.openOrders[i]?.map (fun oo => if es.any (frees k i) then OpenOrder.default else oo)

/-- From `s` to `s'` exactly the events `es` have been delivered: each to its account, once; nothing else happens to the accounts
and the market. -/
structure Delivered (s s' : State) (es : List Event) : Prop where
  keys : s'.g.accts.map (·.1) = s.g.accts.map (·.1)
  accts : ∀ k a, s.g.accts.get? k = some a →
    ∃ a', s'.g.accts.get? k = some a' ∧ Credited s.g.market k (es.filter (fun e => eventAccount e = k)) a a'
  known : ∀ e ∈ es, (s.g.accts.get? (eventAccount e)).isSome
  market : s'.g.market = { s.g.market with
    feesAccrued := s.g.market.feesAccrued + total es (eventRebate s.g.market)
    referrerRebatesAccrued := s.g.market.referrerRebatesAccrued + total es (eventRebate s.g.market)
    makerVolume := s.g.market.makerVolume + total es (eventVolume s.g.market) }
  book : s'.book = s.book
  tokens : s'.tokens = s.tokens
  lamports : s'.lamports = s.lamports
  closed : s'.closed = s.closed

end OB.Spec
