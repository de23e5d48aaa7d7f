import Verif.Model.Book
/-!
The bytes of a book side account.  The program maps its structs onto the data of the account (`#[account(zero_copy)]`, `#[zero_copy]`,
`repr(C)`), numbers are little endian, and there is no padding beside the padding fields (the `const_assert_eq!`s on sizes).  Whatever is
not a field with a meaning is zero: all structs are written as a whole, with zero padding.  Addresses are numbers in the model; their 32
bytes are the digits.
-/
namespace OB.Layout

abbrev Bytes := List UInt8

/-- The `k` lowest bytes of `n`, the lowest first. -/
def le : Nat → Nat → Bytes
  | 0, _ => []
  | k + 1, n => UInt8.ofNat (n % 256) :: le k (n / 256)

def zeros (k : Nat) : Bytes := List.replicate k 0

/-- i64, two's complement -/
def leI64 (x : Int) : Bytes := le 8 (asU64 x).toNat

/-- state/orderbook/nodes.rs:80-102 -/
def innerBytes (i : InnerNode) : Bytes :=
  le 1 1 ++ (zeros 3 ++ (le 4 i.prefixLen ++ (le 16 i.key ++ (le 4 i.child0 ++ (le 4 i.child1 ++ (le 8 i.exp0 ++ (le 8 i.exp1 ++ zeros 40)))))))

/-- state/orderbook/nodes.rs:134-179 -/
def leafBytes (l : LeafNode) : Bytes :=
  le 1 2 ++ (le 1 l.ownerSlot ++ (le 2 l.timeInForce ++ (zeros 4 ++ (le 16 l.key ++ (le 32 l.owner ++ (leI64 l.quantity ++
    (le 8 l.timestamp ++ (leI64 l.pegLimit ++ le 8 l.clientOrderId))))))))

/-- state/orderbook/nodes.rs:234-243; the tag says whether it is the last one. -/
def freeBytes (tag next : Nat) : Bytes := le 1 tag ++ (zeros 3 ++ (le 4 next ++ zeros 80))

/-- state/orderbook/nodes.rs:14-21 and 248-254 -/
def nodeBytes : AnyNode → Bytes
  | .uninit => zeros 88
  | .inner i => innerBytes i
  | .leaf l => leafBytes l
  | .free n => freeBytes 3 n
  | .lastFree n => freeBytes 4 n

/-- state/orderbook/ordertree.rs:38-42 -/
def rootBytes (r : Root) : Bytes := le 4 r.maybeNode ++ le 4 r.leafCount

/-- state/orderbook/ordertree.rs:23-26 -/
def sideTag : Side → Nat
  | .bid => 0
  | .ask => 1

/-- The data of the account: the 8 bytes by which anchor tells accounts apart, then state/orderbook/bookside.rs:31-37 with
state/orderbook/ordertree.rs:59-68 in it. -/
def bookSideBytes (disc : Bytes) (b : BookSide) : Bytes :=
  disc ++ (rootBytes b.rootFixed ++ (rootBytes b.rootPegged ++ (zeros 32 ++ (zeros 256 ++ (le 1 (sideTag b.nodes.side) ++ (zeros 3 ++
    (le 4 b.nodes.bumpIndex ++ (le 4 b.nodes.freeListLen ++ (le 4 b.nodes.freeListHead ++ (zeros 512 ++
      (List.range maxOrderTreeNodes).flatMap (fun i => nodeBytes (b.nodes.nodes i))))))))))))

end OB.Layout
