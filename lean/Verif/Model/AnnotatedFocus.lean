import Verif.Model.AnnotatedJoin
import Verif.Model.FocusMut

/-!
# Mutable foci of annotated vectors

`src/focus.rs` on the borrowed nodes of `src/node_impls/annotated_basic.rs`. A focus does the same as one of a plain
vector (`FMut`, over the places of the items): it never looks at a cached sum. What is new is that a borrowed node
carries a pointer `sum` to the cached sum of the node that it views, and that dropping a borrowed node assigns to it
the sum of what is in the view (`src/node_impls/annotated_basic.rs:131-144`, `:334-363`). Hence the functions here say which
borrowed nodes a call drops, in which order, and what that does to the vector.

The pointer `sum` is set together with the pointer `data` to the slots of the same node (`borrow_node`, `:280-285`,
`:1028-1034`) and both are copied together (`split_at`, `:152-164`, `split_at_child`, `:492-506`, `clone`, `:365-377`).
So which node it points into is told here by the places that are found in `data`.
-/
namespace Librrb

/-- A node of a vector: the spine node (see `Cell`) and the slots followed down from it. -/
abbrev Home := Option (Side × Nat) × List Nat

mutual
/-- The first place that is found below a node. -/
def Node.someCell : Node Cell → Option Cell
  | .leaf ⟨_, _, data⟩ => data.findSome? id
  | .internal _ _ ⟨_, _, data⟩ => someCellIn data

/-- The first place that is found below an array of nodes. -/
def someCellIn : List (Option (Node Cell)) → Option Cell
  | [] => none
  | none :: rest => someCellIn rest
  | some nd :: rest => nd.someCell <|> someCellIn rest
end

/-- The node whose cached sum the pointer `sum` of a borrowed node points to. -/
def BNode.home : BNode Cell → M Home
  | .leaf b =>
    match b.data.findSome? id with
    | some c => .ok (c.1, c.2.take (c.2.length - 1))
    | none => .error .ub
  | .internal b =>
    match someCellIn b.children.data with
    | some c => .ok (c.1, c.2.take (c.2.length - (b.level + 1)))
    | none => .error .ub

namespace ANode

/-- The node in the slot that the path leads to is changed by `f`. -/
def modifyAt (f : ANode → M ANode) : List Nat → ANode → M ANode
  | [], nd => f nd
  | p :: path, .internal s t c sum => do
    let k ← readSlot c.data p
    let k ← modifyAt f path k
    let data ← assignSlot c.data p k
    .ok (.internal s t { c with data := data } sum)
  | _ :: _, .leaf _ _ => .error .ub

/-- Assignment to a slot of a leaf; the cached sum stays as it is. -/
def putItem (x p : Nat) : ANode → M ANode
  | .leaf b sum => do
    let data ← assignSlot b.data p x
    .ok (.leaf { b with data := data } sum)
  | .internal _ _ _ _ => .error .ub

end ANode

/-- The loops over `self.buffer.iter()` and `buffer.iter()`, `src/node_impls/annotated_basic.rs:137-139`, `:349-351`,
`:354-356`, with `BorrowedIter::next`, `src/circular.rs:135-143`: `n` items to go, `consumed` are done, `weight` of
each is added. The result of `get` is an `Option`, and the loop ends at `None`. -/
def BBuf.total (weight : κ → Nat) (v : BBuf κ) : Nat → Nat → Nat → M Nat
  | 0, _, acc => .ok acc
  | n + 1, consumed, acc => do
    let r ← v.get (consumed % RRB_WIDTH)
    match r with
    | some x => do
      let acc ← uadd (weight x) acc
      BBuf.total weight v n (consumed + 1) acc
    | none => .ok acc

namespace ANode

/-- Dropping a borrowed leaf, `src/node_impls/annotated_basic.rs:134-143`, or a borrowed internal node, `:339-362`,
that views this node: the cached sum becomes the sum of the items, or of the cached sums of the children, in the view. -/
def refresh : BNode Cell → ANode → M ANode
  | .leaf v, .leaf b _ => do
    let sum ← BBuf.total id { start := v.start, stop := v.stop, data := b.data, front := v.front, len := v.len } v.length 0 0
    .ok (.leaf b sum)
  | .internal v, .internal s t c _ => do
    let sum ← BBuf.total ANode.cached
      { start := v.children.start, stop := v.children.stop, data := c.data, front := v.children.front,
        len := v.children.len } v.children.length 0 0
    .ok (.internal s t c sum)
  | _, _ => .error .ub

end ANode

namespace AVec

/-- The node at an address is changed by `f`. -/
def modifyAt (v : AVec) (f : ANode → M ANode) (a : Home) : M AVec := do
  let nd ← v.nodeAt a.1
  let nd ← nd.modifyAt f a.2
  .ok (v.withNodeAt a.1 nd)

/-- Assigning through a reference to a place; no cached sum changes. -/
def writeCell (v : AVec) (x : Nat) (c : Cell) : M AVec :=
  match c.2.getLast? with
  | some p => v.modifyAt (ANode.putItem x p) (c.1, c.2.dropLast)
  | none => .error .ub

/-- Dropping borrowed nodes, in the order of the list. -/
def dropBorrowed : List (BNode Cell) → AVec → M AVec
  | [], v => .ok v
  | b :: rest, v => do
    let a ← b.home
    let v ← v.modifyAt (ANode.refresh b) a
    dropBorrowed rest v

end AVec

namespace FMut

/-- What `drop_path_nodes`, `src/focus.rs:704-714`, drops: the leaf, then the path from its last node up. -/
def pathNodes (f : FMut κ) : List (BNode κ) :=
  f.leaf.toList.map BNode.leaf ++ f.path.map fun p => BNode.internal p.1

/-- What `move_focus`, `src/focus.rs:918-955`, drops: the leaf (`:926`), then all of the path if the root is left
(`:930-934`), otherwise the last nodes of the path that do not cover the index (`:949-955`). -/
def moveDrops (f : FMut κ) (idx : Nat) : List (BNode κ) :=
  if inRange f.llo f.lhi idx then []
  else
    f.leaf.toList.map BNode.leaf ++
      (match f.root with
      | some (_, lo, hi) =>
        if !inRange lo hi idx then f.path.map fun p => BNode.internal p.1
        else (f.path.takeWhile fun p => !inRange p.2.1 p.2.2 idx).map fun p => BNode.internal p.1
      | none =>
        if idx < f.len then (f.path.takeWhile fun p => !inRange p.2.1 p.2.2 idx).map fun p => BNode.internal p.1
        else [])

/-- What the loop of `split_at`, `src/focus.rs:763-791`, drops; the arguments are as in `splitLoop`, without the nodes
on the left. At the end of each arm the variables `right` and `left`, unless they were moved away, and then the
node itself are dropped. -/
def splitLoopDrops : Nat → Nat → List (BNode κ) → M (List (BNode κ))
  | 0, _, _ => .error .diverge
  | fuel + 1, subindex, right =>
    if subindex == 0 then .ok []
    else
      match right with
      | [] => .error .panic
      | .internal b :: right => do
        let r ← b.splitAtPosition subindex
        let p ← unwrap (← r.2.2.popChild .front)
        let le ← r.2.1.isEmpty
        let re ← p.2.isEmpty
        let rest ← splitLoopDrops fuel r.1 (p.1 :: (if !re then .internal p.2 :: right else right))
        .ok ((if re then [.internal p.2] else []) ++ (if le then [.internal r.2.1] else []) ++ .internal b :: rest)
      | .leaf b :: _ => do
        let r ← b.splitAt subindex
        .ok ((if r.2.length != 0 then [] else [.leaf r.2]) ++ (if r.1.length != 0 then [] else [.leaf r.1]) ++ [.leaf b])

/-- What `split_at`, `src/focus.rs:734-806`, drops. The nodes of the two parts are copies of those of the focus. -/
def splitDrops (f : FMut κ) (index : Nat) : M (List (BNode κ)) :=
  if index == 0 then .ok []
  else if index == f.len then .ok []
  else do
    let p ← unwrap (← f.findNodeInfoForIndex index)
    splitLoopDrops (splitFuel (f.nodes.drop p.1)) p.2 (f.nodes.drop p.1)

/-- What dropping the `FocusMut` of a vector drops, `src/focus.rs:416-430`: `borrowed_roots`, which are the nodes that the focus
was made with, from the last, and after that, with the field `focus` (`:641-656`), its leaf and its path. The `nodes` of an
`InnerFocusMut` are forgotten, not dropped. A part of a split focus (`Nonrooted`) drops just its leaf and its path. -/
def rootedNodes (f : FMut κ) : List (BNode κ) := f.nodes.reverse ++ f.pathNodes

end FMut

namespace AVec

/-- `FocusMut::get` of a vector: the place, the vector and the focus afterwards. -/
def focusGet (v : AVec) (f : FMut Cell) (idx : Nat) : M (Option Cell × AVec × FMut Cell) := do
  let v ← v.dropBorrowed (f.moveDrops idx)
  let r ← f.get idx
  .ok (r.1, v, r.2)

/-- `FocusMut::split_at`: the vector afterwards and the two parts. -/
def focusSplit (v : AVec) (f : FMut Cell) (idx : Nat) : M (AVec × FMut Cell × FMut Cell) := do
  let ds ← f.splitDrops idx
  let v ← v.dropBorrowed ds
  let r ← f.splitAt idx
  .ok (v, r.1, r.2)

/-- The end of several foci: the parts of a split focus, and what was split before what it was split into, in
the order of the list; the last one is the focus of the whole vector. -/
def dropFoci : List (FMut Cell) → AVec → M AVec
  | [], v => .ok v
  | [f], v => v.dropBorrowed f.rootedNodes
  | f :: rest, v => do
    let v ← v.dropBorrowed f.pathNodes
    dropFoci rest v

end AVec
end Librrb
