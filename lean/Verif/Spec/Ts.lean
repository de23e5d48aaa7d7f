import Verif.Model.Ts
import Verif.Spec.Engine
import Verif.Spec.Match
import Verif.Spec.Group
/-! What properties of the TypeScript library are about. -/
namespace OB.Spec
open OB

/-- The numbers of a node fit the types of their fields.  In the program they always do. -/
def nodeFits : AnyNode → Prop
  | .uninit => True
  | .inner i => i.prefixLen < 2 ^ 32 ∧ i.key < 2 ^ 128 ∧ i.child0 < 2 ^ 32 ∧ i.child1 < 2 ^ 32 ∧ i.exp0 < 2 ^ 64 ∧ i.exp1 < 2 ^ 64
  | .leaf l => l.ownerSlot < 2 ^ 8 ∧ l.timeInForce < 2 ^ 16 ∧ l.key < 2 ^ 128 ∧ l.owner < 2 ^ 256 ∧
      (i64Min ≤ l.quantity ∧ l.quantity ≤ i64Max) ∧ l.timestamp < 2 ^ 64 ∧ (i64Min ≤ l.pegLimit ∧ l.pegLimit ≤ i64Max) ∧
      l.clientOrderId < 2 ^ 64
  | .free n => n < 2 ^ 32
  | .lastFree n => n < 2 ^ 32

instance (n : AnyNode) : Decidable (nodeFits n) := by cases n <;> unfold nodeFits <;> infer_instance

/-- The numbers of a book side fit the types of their fields. -/
structure SideFits (b : BookSide) : Prop where
  fixed : b.rootFixed.maybeNode < 2 ^ 32 ∧ b.rootFixed.leafCount < 2 ^ 32
  pegged : b.rootPegged.maybeNode < 2 ^ 32 ∧ b.rootPegged.leafCount < 2 ^ 32
  bump : b.nodes.bumpIndex < 2 ^ 32
  freeLen : b.nodes.freeListLen < 2 ^ 32
  freeHead : b.nodes.freeListHead < 2 ^ 32
  nodes : ∀ i < maxOrderTreeNodes, nodeFits (b.nodes.nodes i)

/-- What the library holds after loading the account of side `sd` of the book (`loadBids`, `loadAsks`: accounts/market.ts:102-126). -/
def Loads (b : Book) (sd : Side) (x : Ts.BookSide) : Prop :=
  ∃ (disc : List UInt8) (acct : Ts.SideAcct), disc.length = 8 ∧
    Ts.decodeAccountFromBuffer (Layout.bookSideBytes disc (b.side sd)) = .ok acct ∧ x = Ts.BookSide.new acct sd

/-- Total size of the orders at fixed price `p` on side `sd`. -/
def sizeAt (b : Book) (sd : Side) (p : Int) : Int :=
  (b.resting.map (fun x => if x.1 = sd ∧ x.2.1 = .fixed ∧ priceOf none .fixed x.2.2 = some p then x.2.2.quantity else 0)).sum

/-- The price levels of the fixed orders of a side, best first, with their sizes. -/
structure Levels (b : Book) (sd : Side) (L : List (Int × Int)) : Prop where
  mem : ∀ p, p ∈ L.map (·.1) ↔ ∃ l, (sd, Comp.fixed, l) ∈ b.resting ∧ priceOf none .fixed l = some p
  sorted : L.Pairwise (fun x y => betterPrice sd x.1 y.1)
  size : ∀ x ∈ L, x.2 = sizeAt b sd x.1

/-- A fill whose maker is `k`. -/
def madeBy (k : Pubkey) : Event → Bool
  | .fill f => f.maker = k
  | .out _ => false

/-- Base that a queued event still adds to what its account shows as free and as locked: the sold lots of an ask are still shown as
locked, the bought ones of a bid not yet as free. -/
def queuedBase (m : Market) : Event → Int
  | .fill f => makerBase m f
  | .out _ => 0

end OB.Spec
