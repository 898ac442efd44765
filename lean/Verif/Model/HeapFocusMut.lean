import Verif.Model.HeapVec
import Verif.Model.Sort

/-!
# Model of the mutable focus, of `IterMut` and of the sorts, over reference-counted nodes

The same code as in `Verif/Model/FocusMut.lean` and `Verif/Model/Sort.lean`. Here a `BorrowedBuffer` keeps, as in
the code, a raw pointer into the array of a node: the address of that node, which is read and written without
asking for the count of its owners. The children are made the only owner's (`load_mut`) when the focus goes down
to them, behind the pointer, in the array of the borrowed parent. A reference to an item is a pointer to a slot of
a leaf.

Simplification: `SizeTable`s are values (see `Verif/Model/Heap.lean`).
-/
namespace Librrb

/-- A pointer into the array of a node: `*mut A`. -/
structure Ptr where
  node : Addr
  slot : Nat
  deriving DecidableEq

/-- `src/circular.rs:13-18` `BorrowedBuffer { range, data, front, len }`; `node` is the node with the array that
`data` points to. -/
structure HBuf where
  start : Nat
  stop : Nat
  node : Addr
  front : Nat
  len : Nat

/-- `src/circular.rs:472-480` `mutable_view`, for the ring of the node at `a`. -/
def CB.view (b : CB κ) (a : Addr) : M HBuf := do
  massert (b.len != 0)
  .ok { start := 0, stop := b.len, node := a, front := b.front, len := b.len }

namespace HBuf

/-- `src/circular.rs:49-51` `len`. -/
def length (v : HBuf) : Nat := v.stop - v.start

/-- `src/circular.rs:61-74` `get_ptr`, with `index_for`: the pointer. -/
def getPtr (v : HBuf) (idx : Nat) : M (Option Ptr) := do
  let idx ← uadd idx v.start
  if inRange v.start v.stop idx then .ok (some ⟨v.node, (v.front + idx) % RRB_WIDTH⟩)
  else .ok none

/-- `src/circular.rs:84-100` `split_at`. -/
def splitAt (v : HBuf) (index : Nat) : M (HBuf × HBuf) := do
  let firstEnd ← uadd v.start index
  massert (decide (firstEnd ≤ v.stop))
  .ok ({ v with stop := firstEnd }, { v with start := firstEnd })

end HBuf

/-- `BorrowedInternal { sizes, children }`, `src/node_impls/basic.rs:214-217`. -/
structure HInternal where
  sizes : SizeTable
  children : HBuf

/-- `BorrowedNode`, `src/node_traits.rs:589-596`. -/
inductive HNode where
  | internal (b : HInternal)
  | leaf (b : HBuf)

/-- `Leaf::borrow_node`, `src/node_impls/basic.rs:193-197`, `Internal::borrow_node`, `:757-762`, for the node at
`a`. -/
def Body.view (n : Body α κ) (a : Addr) : M HNode :=
  match n with
  | .leaf b => do
    let v ← b.view a
    .ok (.leaf v)
  | .internal s _ c => do
    let v ← c.view a
    .ok (.internal ⟨s, v⟩)

/-- `NodeRc::borrow_node`, `src/node_traits.rs:527-532`: what the entry becomes, and the borrowed node. -/
def Entry.borrowNode (a : Addr) : HM α (Addr × HNode) := do
  let a ← loadMut a
  let n ← load a
  let v ← n.view a
  pure (a, v)

/-- An internal node with an assignment to a slot. -/
def Body.withKid (i : Nat) (k : κ) : Body α κ → Body α κ
  | .leaf b => .leaf b
  | .internal s t c => .internal s t { c with data := c.data.set i (some k) }

/-- A leaf with an assignment to a slot. -/
def Body.withItem (i : Nat) (x : α) : Body α κ → Body α κ
  | .leaf b => .leaf { b with data := b.data.set i (some x) }
  | .internal s t c => .internal s t c

/-- The assignment that ends `make_mut` for the entry in a slot of a node. -/
def putSlot (p : Ptr) (k : Addr) : HM α Unit := do
  let n ← poke p.node (Body.withKid p.slot k)
  match n with
  | .leaf _ => throw .ub
  | .internal _ _ c => do
    let _ ← assignSlot c.data p.slot k
    pure ()

/-- `load_mut` on the entry behind a pointer to a slot of an internal node: `src/focus.rs:972`, `:977`,
`:1010`, `:1016`, and `NodeMut::borrow_node`, `src/node_traits.rs:893-900`. Returns what the entry becomes. The body is
that of `loadMut`, with the assignment to the slot. (`make_mut` drops what is in the slot and then writes to it; here
the new entry is written first. Nobody else can see the slot.) -/
def loadMutSlot (p : Ptr) : HM α Addr := do
  let n ← load p.node
  match n with
  | .leaf _ => throw .ub
  | .internal _ _ c => do
    let k ← readSlot c.data p.slot
    let one ← isOne k
    if one then pure k
    else do
      let n ← load k
      cloneEntries n.kids
      let b ← alloc n
      putSlot p b
      dropEntry k
      pure b

/-- `load_mut().borrow_node()` behind a pointer to a slot; see `loadMutSlot`. -/
def borrowSlot (p : Ptr) : HM α HNode := do
  let a ← loadMutSlot p
  let n ← load a
  n.view a

/-- Reading an item through a reference. -/
def readPtr (p : Ptr) : HM α α := do
  let n ← load p.node
  match n with
  | .leaf b => readSlot b.data p.slot
  | .internal _ _ _ => throw .ub

/-- Assigning to an item through a reference. -/
def writePtr (x : α) (p : Ptr) : HM α Unit := do
  let n ← poke p.node (Body.withItem p.slot x)
  match n with
  | .internal _ _ _ => throw .ub
  | .leaf b => do
    let _ ← assignSlot b.data p.slot x
    pure ()

/-- `mem::swap` of the items behind two references. -/
def swapPtrs (a b : Ptr) : HM α Unit := do
  let x ← readPtr a
  let y ← readPtr b
  writePtr y a
  writePtr x b

namespace HInternal

/-- `left_size`, `src/node_impls/basic.rs:239-249`. -/
def leftSize (b : HInternal) : M Nat :=
  if b.children.start == 0 then .ok 0
  else do
    let i ← usub b.children.start 1
    unwrap (← b.sizes.getCumulativeChildSize i)

/-- `position_info_for`, `src/node_impls/basic.rs:251-262`. -/
def positionInfoFor (b : HInternal) (idx : Nat) : M (Option (Nat × Nat)) := do
  let left ← b.leftSize
  let i ← uadd left idx
  let p ← b.sizes.positionInfoFor i
  match p with
  | some (childNumber, subidx) =>
    if childNumber ≥ b.children.stop then .ok none
    else do
      let n ← usub childNumber b.children.start
      .ok (some (n, subidx))
  | none => .ok none

/-- `len`, `src/node_impls/basic.rs:275-282`. -/
def len (b : HInternal) : M Nat :=
  if b.children.start == b.children.stop then .ok 0
  else do
    let e ← usub b.children.stop 1
    let total ← unwrap (← b.sizes.getCumulativeChildSize e)
    let left ← b.leftSize
    usub total left

/-- `is_empty`, `src/node_traits.rs:144-146`. -/
def isEmpty (b : HInternal) : M Bool := do
  let n ← b.len
  .ok (n == 0)

/-- `level`, `src/node_impls/basic.rs:292-294`. -/
def level (b : HInternal) : Nat := b.sizes.level

/-- `slots`, `src/node_impls/basic.rs:284-286`. -/
def slots (b : HInternal) : Nat := b.children.length

/-- `get_child_mut_at_slot`, `src/node_impls/basic.rs:296-311`: a pointer to the entry of the child, and its
range. -/
def childAtSlot (b : HInternal) (idx : Nat) : M (Option (Ptr × Nat × Nat)) := do
  let i ← uadd idx b.children.start
  let r ← b.sizes.getChildRange i
  match r with
  | some (lo, hi) => do
    let left ← b.leftSize
    let lo ← usub lo left
    let hi ← usub hi left
    let k ← b.children.getPtr idx
    match k with
    | some k => .ok (some (k, lo, hi))
    | none => .ok none
  | none => .ok none

/-- `get_child_mut_for_position`, `src/node_impls/basic.rs:313-319`. -/
def childForPosition (b : HInternal) (position : Nat) : M (Option (Ptr × Nat × Nat)) := do
  let p ← b.positionInfoFor position
  match p with
  | some (index, _) => b.childAtSlot index
  | none => .ok none

/-- `get_child_mut_at_side`, `src/node_traits.rs:162-170`. -/
def childAtSide (b : HInternal) : Side → M (Option (Ptr × Nat × Nat))
  | .front => b.childAtSlot 0
  | .back => b.childAtSlot (b.slots - 1)

/-- `pop_child`, `src/node_impls/basic.rs:321-329`: the borrowed child and what is left. -/
def popChild (b : HInternal) (side : Side) : HM α (Option (HNode × HInternal)) := do
  let r ← b.childAtSide side
  match r with
  | some (k, _) => do
    let child ← borrowSlot k
    match side with
    | .front => pure (some (child, { b with children := { b.children with start := b.children.start + 1 } }))
    | .back => do
      let e ← usub b.children.stop 1
      pure (some (child, { b with children := { b.children with stop := e } }))
  | none => pure none

/-- `split_at_child`, `src/node_impls/basic.rs:339-351`. -/
def splitAtChild (b : HInternal) (index : Nat) : M (HInternal × HInternal) := do
  let p ← b.children.splitAt index
  .ok ({ b with children := p.1 }, { b with children := p.2 })

/-- `split_at_position`, `src/node_impls/basic.rs:353-357`. -/
def splitAtPosition (b : HInternal) (position : Nat) : M (Nat × HInternal × HInternal) := do
  let index ← unwrap (← b.positionInfoFor position)
  let r ← b.splitAtChild index.1
  .ok (index.2, r.1, r.2)

end HInternal

namespace HNode

/-- `BorrowedNode::len`, `src/node_traits.rs:602-607`. -/
def len : HNode → M Nat
  | .leaf b => .ok b.length
  | .internal b => b.len

/-- `BorrowedNode::level`, `src/node_traits.rs:609-614`. -/
def level : HNode → Nat
  | .leaf _ => 0
  | .internal b => b.level

end HNode

/-- `InnerFocusMut`, `src/focus.rs:620-639`; see `FMut`. -/
structure HFMut where
  nodes : List HNode
  len : Nat
  root : Option (Nat × Nat × Nat)
  path : List (HInternal × Nat × Nat)
  leaf : Option HBuf
  llo : Nat
  lhi : Nat

namespace HFMut

/-- `empty`, `src/focus.rs:661-672`. -/
def empty : HFMut := ⟨[], 0, none, [], none, 0, 0⟩

/-- The loop of `from_vector`, `src/focus.rs:676-678`. -/
def sumLens : List HNode → Nat → M Nat
  | [], len => .ok len
  | nd :: rest, len => do
    let n ← nd.len
    let len ← uadd len n
    sumLens rest len

/-- `from_vector`, `src/focus.rs:674-688`. -/
def fromNodes (nodes : List HNode) : M HFMut := do
  let len ← sumLens nodes 0
  .ok ⟨nodes, len, none, [], none, 0, 0⟩

/-- `drop_path_nodes`, `src/focus.rs:704-714`; see `FMut.dropPathNodes`. -/
def dropPathNodes (f : HFMut) : HFMut :=
  match f.leaf with
  | some _ => { f with root := none, path := [], leaf := none, llo := 0, lhi := 0 }
  | none => { f with root := none, path := [] }

/-- The loop of `find_node_info_for_index`, `src/focus.rs:1090-1095`; see `FMut.findLoop`. -/
def findLoop (index : Nat) : List HNode → Nat → Nat → M (Nat × Nat)
  | [], _, _ => .error .panic
  | nd :: rest, idx, forwardEnd => do
    let n ← nd.len
    let stop ← uadd forwardEnd n
    if index < stop then do
      let d ← usub index forwardEnd
      .ok (idx, d)
    else findLoop index rest (idx + 1) stop

/-- `find_node_info_for_index`, `src/focus.rs:1084-1098`. -/
def findNodeInfoForIndex (f : HFMut) (index : Nat) : M (Option (Nat × Nat)) :=
  if index ≥ f.len then .ok none
  else do
    let r ← findLoop index f.nodes 0 0
    .ok (some r)

/-- `assert_invariants`, `src/focus.rs:1100-1106`. -/
def assertInvariants (f : HFMut) : M Unit := do
  let n ← sumLens f.nodes 0
  massert (n == f.len)

/-- The loop of `split_at`, `src/focus.rs:763-791`; see `FMut.splitLoop`. -/
def splitLoop : Nat → Nat → List HNode → List HNode → HM α (List HNode × List HNode)
  | 0, _, _, _ => throw .diverge
  | fuel + 1, subindex, left, right =>
    if subindex == 0 then pure (left, right)
    else
      match right with
      | [] => throw .panic
      | .internal b :: right => do
        let r ← b.splitAtPosition subindex
        let q ← r.2.2.popChild .front
        let p ← unwrap q
        let le ← r.2.1.isEmpty
        let re ← p.2.isEmpty
        splitLoop fuel r.1 (if !le then .internal r.2.1 :: left else left)
          (p.1 :: (if !re then .internal p.2 :: right else right))
      | .leaf b :: right => do
        let r ← b.splitAt subindex
        pure (if r.1.length != 0 then .leaf r.1 :: left else left,
          if r.2.length != 0 then .leaf r.2 :: right else right)

/-- Number of steps that suffice for `splitLoop`. -/
def splitFuel (right : List HNode) : Nat :=
  match right with
  | [] => 1
  | nd :: _ => nd.level + 2

/-- `split_at`, `src/focus.rs:734-806`. -/
def splitAt (f : HFMut) (index : Nat) : HM α (HFMut × HFMut) :=
  if index == 0 then do
    empty.assertInvariants
    f.assertInvariants
    pure (empty, f)
  else if index == f.len then do
    f.assertInvariants
    empty.assertInvariants
    pure (f, empty)
  else do
    let p ← unwrap (← f.findNodeInfoForIndex index)
    let r ← splitLoop (splitFuel (f.nodes.drop p.1)) p.2 (f.nodes.take p.1).reverse (f.nodes.drop p.1)
    let first ← fromNodes r.1.reverse
    let second ← fromNodes r.2
    let total ← uadd first.len second.len
    massert (total == f.len)
    first.assertInvariants
    second.assertInvariants
    pure (first, second)

/-- Last loop of `move_focus`, `src/focus.rs:998-1021`; see `FMut.descend`. -/
def descend : Nat → HFMut → Nat → HM α HFMut
  | 0, _, _ => throw .diverge
  | fuel + 1, f, idx =>
    match f.path with
    | [] => throw .panic
    | (parent, plo, _) :: _ => do
      let r ← unwrap (← parent.childForPosition idx)
      let idx ← usub idx r.2.1
      let lo ← uadd plo r.2.1
      let hi ← uadd plo r.2.2
      let child ← borrowSlot r.1
      match child with
      | .internal b => descend fuel { f with path := (b, lo, hi) :: f.path } idx
      | .leaf b => pure { f with leaf := some b, llo := lo, lhi := hi }

/-- `src/focus.rs:992-997`; see `FMut.enter`. -/
def enter (f : HFMut) (idx rootStart : Nat) : HM α HFMut :=
  match f.path with
  | [] => do
    let i ← usub idx rootStart
    descend 1 f i
  | (b, lo, _) :: _ => do
    let i ← usub idx lo
    descend (b.level + 1) f i

/-- Second half of `move_focus`, `src/focus.rs:948-997`; see `FMut.moveFrom`. -/
def moveFrom (f : HFMut) (idx : Nat) (root : Nat × Nat × Nat) : HM α HFMut := do
  let f := { f with path := f.path.dropWhile fun p => !inRange p.2.1 p.2.2 idx }
  if f.path.isEmpty then do
    let nd ← unwrap f.nodes[root.1]?
    match nd with
    | .internal b => do
      let i ← usub idx root.2.1
      let r ← unwrap (← b.childForPosition i)
      let lo ← uadd r.2.1 root.2.1
      let hi ← uadd r.2.2 root.2.1
      let child ← borrowSlot r.1
      match child with
      | .internal b => enter { f with path := [(b, lo, hi)] } idx root.2.1
      | .leaf b => pure { f with leaf := some b, llo := lo, lhi := hi }
    | .leaf _ => pure { f with llo := root.2.1, lhi := root.2.2 }
  else enter f idx root.2.1

/-- `move_focus`, `src/focus.rs:918-947`; see `FMut.moveFocus`. -/
def moveFocus (f : HFMut) (idx : Nat) : HM α HFMut :=
  if inRange f.llo f.lhi idx then pure f
  else do
    let f := (if f.leaf.isSome then { f with leaf := none, llo := 0, lhi := 0 } else f)
    let f :=
      (match f.root with
      | some (_, lo, hi) => if !inRange lo hi idx then f.dropPathNodes else f
      | none => f)
    match f.root with
    | some root => f.moveFrom idx root
    | none =>
      if idx < f.len then do
        let p ← unwrap (← f.findNodeInfoForIndex idx)
        let start ← usub idx p.2
        let nd ← unwrap f.nodes[p.1]?
        let n ← nd.len
        let stop ← uadd start n
        { f with root := some (p.1, start, stop) }.moveFrom idx (p.1, start, stop)
      else pure f

/-- `BorrowedNode::leaf_mut`, `src/node_traits.rs:642-648`. -/
def leafMut : HNode → M HBuf
  | .leaf b => .ok b
  | .internal _ => .error .panic

/-- `InnerFocusMut::get`, `src/focus.rs:1039-1063`, reached through `FocusMut::get`, `:588-593`: the reference, and
the focus afterwards. -/
def get (f : HFMut) (idx : Nat) : HM α (Option Ptr × HFMut) := do
  let f ← f.moveFocus idx
  if inRange f.llo f.lhi idx then do
    let position ← usub idx f.llo
    match f.leaf with
    | some leaf => do
      let x ← leaf.getPtr position
      pure (x, f)
    | none => do
      let root ← unwrap f.root
      let nd ← unwrap f.nodes[root.1]?
      let leaf ← leafMut nd
      let x ← leaf.getPtr position
      pure (x, f)
  else pure (none, f)

/-- `FocusMut::index`, `src/focus.rs:609-611`. -/
def index (f : HFMut) (idx : Nat) : HM α (Ptr × HFMut) := do
  let r ← f.get idx
  let x ← unwrap r.1
  pure (x, r.2)

end HFMut

namespace HVec

/-- The loop of `focus_mut` over one group of nodes, `src/vector.rs:2101-2113`: what the entries become, and the
borrowed nodes. -/
def borrowNodes : List Addr → HM α (List Addr × List HNode)
  | [] => pure ([], [])
  | a :: rest => do
    let e ← Entry.isEmpty a
    if !e then do
      let b ← Entry.borrowNode a
      let r ← borrowNodes rest
      pure (b.1 :: r.1, b.2 :: r.2)
    else do
      let r ← borrowNodes rest
      pure (a :: r.1, r.2)

/-- `focus_mut`, `src/vector.rs:2099-2115`: what the vector becomes, and the focus. -/
def focusMut (v : HVec) : HM α (HVec × HFMut) := do
  let l ← borrowNodes v.left
  let e ← Entry.isEmpty v.root
  let m ← (if !e then do
      let b ← Entry.borrowNode v.root
      pure (b.1, [b.2])
    else pure (v.root, []))
  let r ← borrowNodes v.right.reverse
  let f ← HFMut.fromNodes (l.2 ++ m.2 ++ r.2)
  pure ({ left := l.1, right := r.1.reverse, root := m.1, len := v.len }, f)

/-- The focus over the range `lo..hi`; see `RVec.window`. -/
def window (v : HVec) (lo hi : Nat) : HM α (HVec × HFMut) := do
  let r ← v.focusMut
  let a ← r.2.splitAt hi
  let b ← a.1.splitAt lo
  pure (r.1, b.2)

/-- The loop of `reverse_range`, `src/vector.rs:1388-1392`: `n` steps to go, the next one is `i`. -/
def reverseLoop (rightLen : Nat) : Nat → Nat → HFMut → HFMut → HM α Unit
  | 0, _, _, _ => pure ()
  | n + 1, i, left, right => do
    let l ← left.index i
    let k ← usub rightLen 1
    let k ← usub k i
    let r ← right.index k
    swapPtrs l.1 r.1
    reverseLoop rightLen n (i + 1) l.2 r.2

/-- `reverse_range`, `src/vector.rs:1378-1393`. -/
def reverseRange (v : HVec) (startBound endBound : Bound) : HM α HVec := do
  let start ← RVec.rangeStart startBound
  let stop ← RVec.rangeEnd v.len endBound
  let w ← v.window start stop
  let p ← w.2.splitAt (w.2.len / 2)
  reverseLoop p.2.len (w.2.len / 2) 0 p.1 p.2
  pure w.1

end HVec

/-- `IterMut`, `src/vector.rs:2560-2568`. -/
structure HVIterMut where
  front : Nat
  back : Nat
  focus : HFMut

namespace HVIterMut

/-- `InternalVector::iter_mut`, `src/vector.rs:2153-2159`. -/
def new (v : HVec) : HM α (HVec × HVIterMut) := do
  let r ← v.focusMut
  pure (r.1, ⟨0, v.len, r.2⟩)

/-- `IterMut::next`, `src/vector.rs:2577-2587`. -/
def next (it : HVIterMut) : HM α (Option Ptr × HVIterMut) :=
  if it.front != it.back then do
    let r ← it.focus.get it.front
    let x ← unwrap r.1
    pure (some x, { it with front := it.front + 1, focus := r.2 })
  else pure (none, it)

/-- `IterMut::next_back`, `src/vector.rs:2613-2621`. -/
def nextBack (it : HVIterMut) : HM α (Option Ptr × HVIterMut) :=
  if it.front != it.back then do
    let bk ← usub it.back 1
    let r ← it.focus.get bk
    pure (r.1, { it with back := bk, focus := r.2 })
  else pure (none, it)

/-- One call of `next` or `next_back`. -/
def step : Side → HVIterMut → HM α (Option Ptr × HVIterMut)
  | .front, it => it.next
  | .back, it => it.nextBack

end HVIterMut
end Librrb
