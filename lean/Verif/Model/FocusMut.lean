import Verif.Model.Focus

/-!
# Model of the mutable focus (`src/focus.rs:374-1107`) and of `IterMut`

A mutable focus hands out pointers to items of the vector. Here the items of a node are the
*places* (of a type `κ`) at which the items of the vector live, so a reference that the code
returns is a value of type `κ`; which place belongs to which slot of which node is said by
`RVec.cells` below. The pointer `data` of a `BorrowedBuffer` is modelled by the array it points to:
while a mutable focus exists, the structure of the tree does not change, only the items at the
places do. Reference counting is left out: `load_mut` is the identity.
-/
namespace Librrb

/-! ### Borrowed nodes -/

/-- `src/circular.rs:13-18` `BorrowedBuffer { range, data, front, len }`. -/
structure BBuf (κ : Type) where
  start : Nat
  stop : Nat
  data : List (Option κ)
  front : Nat
  len : Nat

/-- `src/circular.rs:472-480` `mutable_view`. -/
def CB.mutableView (b : CB κ) : M (BBuf κ) := do
  massert (b.len != 0)
  .ok { start := 0, stop := b.len, data := b.data, front := b.front, len := b.len }

namespace BBuf

/-- `src/circular.rs:49-51` `len`: `Range::len`, which is zero for an inverted range. -/
def length (v : BBuf κ) : Nat := v.stop - v.start

/-- Reading through a raw pointer to a slot: undefined behaviour unless the slot exists and holds something. -/
def derefSlot (data : List (Option κ)) (i : Nat) : M κ :=
  match data[i]? with
  | some (some x) => .ok x
  | _ => .error .ub

/-- `src/circular.rs:61-74` `get_ptr`, with `index_for`, and the dereference done by all its
callers (`get_mut`, and `InnerFocusMut::get`): what is in the slot. -/
def get (v : BBuf κ) (idx : Nat) : M (Option κ) := do
  let idx ← uadd idx v.start
  if inRange v.start v.stop idx then do
    let x ← derefSlot v.data ((v.front + idx) % RRB_WIDTH)
    .ok (some x)
  else .ok none

/-- `src/circular.rs:84-100` `split_at`. -/
def splitAt (v : BBuf κ) (index : Nat) : M (BBuf κ × BBuf κ) := do
  let firstEnd ← uadd v.start index
  massert (decide (firstEnd ≤ v.stop))
  .ok ({ v with stop := firstEnd }, { v with start := firstEnd })

end BBuf

/-- `BorrowedInternal { sizes, children }`, `src/node_impls/basic.rs:214-217`. The two arms of
`BorrowedChildList` run the same code; which arm it is shows in the children. -/
structure BInternal (κ : Type) where
  sizes : SizeTable
  children : BBuf (Node κ)

/-- `BorrowedNode`, `src/node_traits.rs:589-596`. -/
inductive BNode (κ : Type) where
  | internal (b : BInternal κ)
  | leaf (b : BBuf κ)

/-- `NodeRc::borrow_node`, `src/node_traits.rs:527-532`, and `NodeMut::borrow_node`, `:893-900`;
`Leaf::borrow_node`, `src/node_impls/basic.rs:193-197`, `Internal::borrow_node`, `:757-762`. -/
def Node.borrow : Node κ → M (BNode κ)
  | .leaf b => do
    let v ← b.mutableView
    .ok (.leaf v)
  | .internal s _ c => do
    let v ← c.mutableView
    .ok (.internal ⟨s, v⟩)

namespace BInternal

/-- `left_size`, `src/node_impls/basic.rs:239-249`. -/
def leftSize (b : BInternal κ) : M Nat :=
  if b.children.start == 0 then .ok 0
  else do
    let i ← usub b.children.start 1
    unwrap (← b.sizes.getCumulativeChildSize i)

/-- `position_info_for`, `src/node_impls/basic.rs:251-262`. -/
def positionInfoFor (b : BInternal κ) (idx : Nat) : M (Option (Nat × Nat)) := do
  let left ← b.leftSize
  let i ← uadd left idx
  let p ← b.sizes.positionInfoFor i
  match p with
  | some (childNumber, subidx) =>
    if childNumber ≥ b.children.stop then .ok none
    else do
      let n ← usub childNumber b.children.start
      .ok (some (n, subidx))
  | none => .ok none

/-- `len`, `src/node_impls/basic.rs:275-282`. -/
def len (b : BInternal κ) : M Nat :=
  if b.children.start == b.children.stop then .ok 0
  else do
    let e ← usub b.children.stop 1
    let total ← unwrap (← b.sizes.getCumulativeChildSize e)
    let left ← b.leftSize
    usub total left

/-- `is_empty`, `src/node_traits.rs:144-146`. -/
def isEmpty (b : BInternal κ) : M Bool := do
  let n ← b.len
  .ok (n == 0)

/-- `level`, `src/node_impls/basic.rs:292-294`. -/
def level (b : BInternal κ) : Nat := b.sizes.level

/-- `slots`, `src/node_impls/basic.rs:284-286`. -/
def slots (b : BInternal κ) : Nat := b.children.length

/-- `get_child_mut_at_slot`, `src/node_impls/basic.rs:296-311`: the child and its range. -/
def childAtSlot (b : BInternal κ) (idx : Nat) : M (Option (Node κ × Nat × Nat)) := do
  let i ← uadd idx b.children.start
  let r ← b.sizes.getChildRange i
  match r with
  | some (lo, hi) => do
    let left ← b.leftSize
    let lo ← usub lo left
    let hi ← usub hi left
    let k ← b.children.get idx
    match k with
    | some k => .ok (some (k, lo, hi))
    | none => .ok none
  | none => .ok none

/-- `get_child_mut_for_position`, `src/node_impls/basic.rs:313-319`. -/
def childForPosition (b : BInternal κ) (position : Nat) : M (Option (Node κ × Nat × Nat)) := do
  let p ← b.positionInfoFor position
  match p with
  | some (index, _) => b.childAtSlot index
  | none => .ok none

/-- `get_child_mut_at_side`, `src/node_traits.rs:162-170`. -/
def childAtSide (b : BInternal κ) : Side → M (Option (Node κ × Nat × Nat))
  | .front => b.childAtSlot 0
  | .back => b.childAtSlot (b.slots - 1)

/-- `pop_child`, `src/node_impls/basic.rs:321-329`: the borrowed child and what is left. -/
def popChild (b : BInternal κ) (side : Side) : M (Option (BNode κ × BInternal κ)) := do
  let r ← b.childAtSide side
  match r with
  | some (k, _) => do
    let child ← k.borrow
    match side with
    | .front => .ok (some (child, { b with children := { b.children with start := b.children.start + 1 } }))
    | .back => do
      let e ← usub b.children.stop 1
      .ok (some (child, { b with children := { b.children with stop := e } }))
  | none => .ok none

/-- `split_at_child`, `src/node_impls/basic.rs:339-351`. -/
def splitAtChild (b : BInternal κ) (index : Nat) : M (BInternal κ × BInternal κ) := do
  let p ← b.children.splitAt index
  .ok ({ b with children := p.1 }, { b with children := p.2 })

/-- `split_at_position`, `src/node_impls/basic.rs:353-357`. -/
def splitAtPosition (b : BInternal κ) (position : Nat) : M (Nat × BInternal κ × BInternal κ) := do
  let index ← unwrap (← b.positionInfoFor position)
  let r ← b.splitAtChild index.1
  .ok (index.2, r.1, r.2)

end BInternal

namespace BNode

/-- `BorrowedNode::len`, `src/node_traits.rs:602-607`. -/
def len : BNode κ → M Nat
  | .leaf b => .ok b.length
  | .internal b => b.len

/-- `BorrowedNode::level`, `src/node_traits.rs:609-614`. -/
def level : BNode κ → Nat
  | .leaf _ => 0
  | .internal b => b.level

end BNode

/-! ### The focus -/

/-- `InnerFocusMut`, `src/focus.rs:620-639`, which is what a `FocusMut` (`:375-400`) does its work
with; the other fields of `FocusMut` keep the vector and the roots borrowed. The `Vec` `path` is kept
with its last element first, `leaf_range` is `llo..lhi`. The field `borrowed_nodes` is left out:
nothing is ever pushed to it. -/
structure FMut (κ : Type) where
  nodes : List (BNode κ)
  len : Nat
  root : Option (Nat × Nat × Nat)
  path : List (BInternal κ × Nat × Nat)
  leaf : Option (BBuf κ)
  llo : Nat
  lhi : Nat

namespace FMut

/-- `empty`, `src/focus.rs:661-672`. -/
def empty : FMut κ := ⟨[], 0, none, [], none, 0, 0⟩

/-- The loop of `from_vector`, `src/focus.rs:676-678`. -/
def sumLens : List (BNode κ) → Nat → M Nat
  | [], len => .ok len
  | nd :: rest, len => do
    let n ← nd.len
    let len ← uadd len n
    sumLens rest len

/-- `from_vector`, `src/focus.rs:674-688`. -/
def fromNodes (nodes : List (BNode κ)) : M (FMut κ) := do
  let len ← sumLens nodes 0
  .ok ⟨nodes, len, none, [], none, 0, 0⟩

/-- `drop_path_nodes`, `src/focus.rs:704-714`. As in the code, `leaf_range` is reset only when there
is a leaf. -/
def dropPathNodes (f : FMut κ) : FMut κ :=
  match f.leaf with
  | some _ => { f with root := none, path := [], leaf := none, llo := 0, lhi := 0 }
  | none => { f with root := none, path := [] }

/-- The loop of `find_node_info_for_index`, `src/focus.rs:1090-1095`; falling out of it is
`unreachable!()`. -/
def findLoop (index : Nat) : List (BNode κ) → Nat → Nat → M (Nat × Nat)
  | [], _, _ => .error .panic
  | nd :: rest, idx, forwardEnd => do
    let n ← nd.len
    let stop ← uadd forwardEnd n
    if index < stop then do
      let d ← usub index forwardEnd
      .ok (idx, d)
    else findLoop index rest (idx + 1) stop

/-- `find_node_info_for_index`, `src/focus.rs:1084-1098`. -/
def findNodeInfoForIndex (f : FMut κ) (index : Nat) : M (Option (Nat × Nat)) :=
  if index ≥ f.len then .ok none
  else do
    let r ← findLoop index f.nodes 0 0
    .ok (some r)

/-- `assert_invariants`, `src/focus.rs:1100-1106`. -/
def assertInvariants (f : FMut κ) : M Unit := do
  let n ← sumLens f.nodes 0
  massert (n == f.len)

/-- The loop of `split_at`, `src/focus.rs:763-791`. `left` has the last node first, `right` the first
node first. The first argument bounds the number of steps. -/
def splitLoop : Nat → Nat → List (BNode κ) → List (BNode κ) → M (List (BNode κ) × List (BNode κ))
  | 0, _, _, _ => .error .diverge
  | fuel + 1, subindex, left, right =>
    if subindex == 0 then .ok (left, right)
    else
      match right with
      | [] => .error .panic
      | .internal b :: right => do
        let r ← b.splitAtPosition subindex
        let p ← unwrap (← r.2.2.popChild .front)
        let le ← r.2.1.isEmpty
        let re ← p.2.isEmpty
        splitLoop fuel r.1 (if !le then .internal r.2.1 :: left else left)
          (p.1 :: (if !re then .internal p.2 :: right else right))
      | .leaf b :: right => do
        let r ← b.splitAt subindex
        .ok (if r.1.length != 0 then .leaf r.1 :: left else left,
          if r.2.length != 0 then .leaf r.2 :: right else right)

/-- Number of steps that suffice for `splitLoop`. -/
def splitFuel (right : List (BNode κ)) : Nat :=
  match right with
  | [] => 1
  | nd :: _ => nd.level + 2

/-- `split_at`, `src/focus.rs:734-806`. The focus itself is not changed. -/
def splitAt (f : FMut κ) (index : Nat) : M (FMut κ × FMut κ) :=
  if index == 0 then do
    empty.assertInvariants (κ := κ)
    f.assertInvariants
    .ok (empty, f)
  else if index == f.len then do
    f.assertInvariants
    empty.assertInvariants (κ := κ)
    .ok (f, empty)
  else do
    let p ← unwrap (← f.findNodeInfoForIndex index)
    let r ← splitLoop (splitFuel (f.nodes.drop p.1)) p.2 (f.nodes.take p.1).reverse (f.nodes.drop p.1)
    let first ← fromNodes r.1.reverse
    let second ← fromNodes r.2
    let total ← uadd first.len second.len
    massert (total == f.len)
    first.assertInvariants
    second.assertInvariants
    .ok (first, second)

/-- Last loop of `move_focus`, `src/focus.rs:998-1021`. The first argument bounds the number of
steps. -/
def descend : Nat → FMut κ → Nat → M (FMut κ)
  | 0, _, _ => .error .diverge
  | fuel + 1, f, idx =>
    match f.path with
    | [] => .error .panic
    | (parent, plo, _) :: _ => do
      let r ← unwrap (← parent.childForPosition idx)
      let idx ← usub idx r.2.1
      let lo ← uadd plo r.2.1
      let hi ← uadd plo r.2.2
      let child ← r.1.borrow
      match child with
      | .internal b => descend fuel { f with path := (b, lo, hi) :: f.path } idx
      | .leaf b => .ok { f with leaf := some b, llo := lo, lhi := hi }

/-- `src/focus.rs:992-997`: the index is made relative to the last node of the path (or to the
root, but then the loop panics) and the loop is entered. -/
def enter (f : FMut κ) (idx rootStart : Nat) : M (FMut κ) :=
  match f.path with
  | [] => do
    let i ← usub idx rootStart
    descend 1 f i
  | (b, lo, _) :: _ => do
    let i ← usub idx lo
    descend (b.level + 1) f i

/-- Second half of `move_focus`, `src/focus.rs:948-997`, with the root known: the path is popped
down to a node that covers the index, or restarted from the root. -/
def moveFrom (f : FMut κ) (idx : Nat) (root : Nat × Nat × Nat) : M (FMut κ) := do
  let f := { f with path := f.path.dropWhile fun p => !inRange p.2.1 p.2.2 idx }
  if f.path.isEmpty then do
    let nd ← unwrap f.nodes[root.1]?
    match nd with
    | .internal b => do
      let i ← usub idx root.2.1
      let r ← unwrap (← b.childForPosition i)
      let lo ← uadd r.2.1 root.2.1
      let hi ← uadd r.2.2 root.2.1
      let child ← r.1.borrow
      match child with
      | .internal b => enter { f with path := [(b, lo, hi)] } idx root.2.1
      | .leaf b => .ok { f with leaf := some b, llo := lo, lhi := hi }
    | .leaf _ => .ok { f with llo := root.2.1, lhi := root.2.2 }
  else enter f idx root.2.1

/-- `move_focus`, `src/focus.rs:918-947`: the leaf and, if needed, the root are given up, then a root
is looked for. -/
def moveFocus (f : FMut κ) (idx : Nat) : M (FMut κ) :=
  if inRange f.llo f.lhi idx then .ok f
  else do
    let f := (if f.leaf.isSome then { f with leaf := none, llo := 0, lhi := 0 } else f)
    let f :=
      (match f.root with
      | some (_, lo, hi) => if !inRange lo hi idx then f.dropPathNodes else f
      | none => f)
    match f.root with
    | some root => f.moveFrom idx root
    | none =>
      if idx < f.len then do
        let p ← unwrap (← f.findNodeInfoForIndex idx)
        let start ← usub idx p.2
        let nd ← unwrap f.nodes[p.1]?
        let n ← nd.len
        let stop ← uadd start n
        { f with root := some (p.1, start, stop) }.moveFrom idx (p.1, start, stop)
      else .ok f

/-- `BorrowedNode::leaf_mut`, `src/node_traits.rs:642-648`. -/
def leafMut : BNode κ → M (BBuf κ)
  | .leaf b => .ok b
  | .internal _ => .error .panic

/-- `InnerFocusMut::get`, `src/focus.rs:1039-1063`, reached through `FocusMut::get`, `:588-593`: the
place that the returned reference points to, and the focus afterwards. -/
def get (f : FMut κ) (idx : Nat) : M (Option κ × FMut κ) := do
  let f ← f.moveFocus idx
  if inRange f.llo f.lhi idx then do
    let position ← usub idx f.llo
    match f.leaf with
    | some leaf => do
      let x ← leaf.get position
      .ok (x, f)
    | none => do
      let root ← unwrap f.root
      let nd ← unwrap f.nodes[root.1]?
      let leaf ← leafMut nd
      let x ← leaf.get position
      .ok (x, f)
  else .ok (none, f)

/-- `FocusMut::index`, `src/focus.rs:609-611`. -/
def index (f : FMut κ) (idx : Nat) : M (κ × FMut κ) := do
  let r ← f.get idx
  let x ← unwrap r.1
  .ok (x, r.2)

end FMut

namespace RVec

/-- The loop of `focus_mut` over one group of nodes, `src/vector.rs:2101-2113`. -/
def borrowNodes : List (Node κ) → M (List (BNode κ))
  | [] => .ok []
  | nd :: rest => do
    let e ← nd.isEmpty
    if !e then do
      let b ← nd.borrow
      let bs ← borrowNodes rest
      .ok (b :: bs)
    else borrowNodes rest

/-- `focus_mut`, `src/vector.rs:2099-2115`. -/
def focusMut (v : RVec κ) : M (FMut κ) := do
  let nodes ← borrowNodes (v.left ++ [v.root] ++ v.right.reverse)
  FMut.fromNodes nodes

end RVec

/-- `IterMut`, `src/vector.rs:2560-2568`. -/
structure VIterMut (κ : Type) where
  front : Nat
  back : Nat
  focus : FMut κ

namespace VIterMut

/-- `InternalVector::iter_mut`, `src/vector.rs:2153-2159`. -/
def new (v : RVec κ) : M (VIterMut κ) := do
  let f ← v.focusMut
  .ok ⟨0, v.len, f⟩

/-- `IterMut::next`, `src/vector.rs:2577-2587`. -/
def next (it : VIterMut κ) : M (Option κ × VIterMut κ) :=
  if it.front != it.back then do
    let r ← it.focus.get it.front
    let x ← unwrap r.1
    .ok (some x, { it with front := it.front + 1, focus := r.2 })
  else .ok (none, it)

/-- `IterMut::next_back`, `src/vector.rs:2613-2621`. -/
def nextBack (it : VIterMut κ) : M (Option κ × VIterMut κ) :=
  if it.front != it.back then do
    let bk ← usub it.back 1
    let r ← it.focus.get bk
    .ok (r.1, { it with back := bk, focus := r.2 })
  else .ok (none, it)

/-- `IterMut::size_hint`, `src/vector.rs:2589-2592`. -/
def sizeHint (it : VIterMut κ) : M Nat := usub it.back it.front

/-- One call of `next` or `next_back`. -/
def step : Side → VIterMut κ → M (Option κ × VIterMut κ)
  | .front, it => it.next
  | .back, it => it.nextBack

end VIterMut

/-! ### Places

Not part of the code: where the items of a vector live. -/

/-- A place: the spine node (as in `spine_iter`; `none` is the root) and the slots followed down from
it. Slots are positions in the arrays of the node buffers, not logical positions. -/
abbrev Cell := Option (Side × Nat) × List Nat

mutual
/-- The node with every item `x` replaced by `f path x`, where `path` are the slots that lead to it. -/
def Node.mapAddr (f : List Nat → α → β) : Node α → Node β
  | .leaf ⟨front, len, data⟩ => .leaf ⟨front, len, data.mapIdx fun p o => o.map (f [p])⟩
  | .internal s t ⟨front, len, data⟩ => .internal s t ⟨front, len, mapAddrList f 0 data⟩

/-- The same for the array of children; the number is the slot of the first one. -/
def mapAddrList (f : List Nat → α → β) : Nat → List (Option (Node α)) → List (Option (Node β))
  | _, [] => []
  | p, none :: rest => none :: mapAddrList f (p + 1) rest
  | p, some nd :: rest => some (nd.mapAddr fun q => f (p :: q)) :: mapAddrList f (p + 1) rest
end

/-- The item in the slot that the path leads to. -/
def Node.readAt : List Nat → Node α → M α
  | [p], .leaf b => readSlot b.data p
  | p :: q :: path, .internal _ _ c => do
    let k ← readSlot c.data p
    Node.readAt (q :: path) k
  | _, _ => .error .ub

/-- Assignment to the slot that the path leads to. -/
def Node.writeAt (x : α) : List Nat → Node α → M (Node α)
  | [p], .leaf b => do
    let data ← assignSlot b.data p x
    .ok (.leaf { b with data := data })
  | p :: q :: path, .internal s t c => do
    let k ← readSlot c.data p
    let k ← Node.writeAt x (q :: path) k
    let data ← assignSlot c.data p k
    .ok (.internal s t { c with data := data })
  | _, _ => .error .ub

namespace RVec

/-- The vector with every item replaced by the image under `f` of its place and itself. -/
def mapAddr (f : Cell → α → β) (v : RVec α) : RVec β where
  left := v.left.mapIdx fun k nd => nd.mapAddr fun p => f (some (.front, k), p)
  root := v.root.mapAddr fun p => f (none, p)
  right := v.right.mapIdx fun k nd => nd.mapAddr fun p => f (some (.back, k), p)
  len := v.len

/-- The vector of the places of the items. -/
def cells (v : RVec α) : RVec Cell := v.mapAddr fun c _ => c

/-- Reading through a reference to a place. -/
def readCell (v : RVec α) (c : Cell) : M α := do
  let nd ← v.nodeAt c.1
  nd.readAt c.2

/-- Assigning through a reference to a place. -/
def writeCell (v : RVec α) (x : α) (c : Cell) : M (RVec α) := do
  let nd ← v.nodeAt c.1
  let nd ← nd.writeAt x c.2
  .ok (v.withNodeAt c.1 nd)

end RVec
end Librrb
