import Verif.Model.Vector

/-!
# Model of the nodes that cache the sum of their items: `src/node_impls/annotated_basic.rs`

The items are `usize`, the only type with a `SumVector` (`src/node_impls/annotated_basic.rs:1196-1237`);
their sums are checked `usize` arithmetic (debug profile). As in `Verif/Model/Node.lean`, reference
counting is left out and the two arms of `ChildList` are merged. The code of the vector is generic
in the nodes; the part used here is repeated below for these nodes, word for word the definitions of
`Verif/Model/Vector.lean`.
-/
namespace Librrb

/-- `NodeRc` of annotated nodes: `Leaf { buffer, sum }` (`src/node_impls/annotated_basic.rs:179-185`)
and `Internal { sizes, children, sum }` (`:727-735`). -/
inductive ANode where
  | leaf (buffer : CB Nat) (sum : Nat)
  | internal (sizes : SizeTable) (tag : Tag) (children : CB ANode) (sum : Nat)

namespace ANode

/-- The cached sum. -/
def cached : ANode → Nat
  | .leaf _ s => s
  | .internal _ _ _ s => s

/-- `Leaf::empty`, `src/node_impls/annotated_basic.rs:194-199`. -/
def emptyLeaf : ANode := .leaf CB.new 0

/-- `Internal::empty_internal`, `src/node_impls/annotated_basic.rs:827-842`. -/
def emptyInternal (level : Nat) : M ANode := do
  massert (level != 0)
  if level == 1 then .ok (.internal (SizeTable.new 1) .leaves CB.new 0)
  else .ok (.internal (SizeTable.new level) .internals CB.new 0)

/-- `Internal::new_empty`, `src/node_impls/annotated_basic.rs:844-850`, and `NodeRc::new_empty`. -/
def newEmpty : ANode → ANode
  | .leaf _ _ => emptyLeaf
  | .internal s t _ _ => .internal (SizeTable.new s.level) t CB.new 0

/-- `Leaf::len`, `src/node_impls/annotated_basic.rs:208-210`; `Internal::len`, `:1040-1042`. -/
def len : ANode → M Nat
  | .leaf b _ => .ok b.len
  | .internal s _ _ _ => s.cumulativeSize

/-- `Internal::slots`, `src/node_impls/annotated_basic.rs:1044-1046`, and `NodeRc::slots`. -/
def slots : ANode → Nat
  | .leaf b _ => b.len
  | .internal _ _ c _ => c.len

/-- `NodeRc::is_empty`, `src/node_traits.rs:399-404`. -/
def isEmpty (nd : ANode) : M Bool := do
  let n ← nd.len
  .ok (n == 0)

/-- `Leaf::free_space`, `src/node_impls/annotated_basic.rs:212-214`; `Internal::free_slots`,
`:1048-1050`. -/
def freeSlots : ANode → M Nat
  | .leaf b _ => b.freeSpace
  | .internal _ _ c _ => usub RRB_WIDTH c.len

/-- `Internal::level`, `src/node_impls/annotated_basic.rs:1036-1038`. -/
def level : ANode → Nat
  | .leaf _ _ => 0
  | .internal s _ _ _ => s.level

/-- `NodeRc::is_leaf`, `src/node_traits.rs:423-425`. -/
def isLeaf (nd : ANode) : Bool := nd.level == 0

/-- `for i in 0..shared { … }` of `Leaf::share_children_with`,
`src/node_impls/annotated_basic.rs:269-273`: the items of `self`, after the moving, from the back.
The arguments are the number of rounds left and `i`. -/
def decantedItems (b : CB Nat) : Nat → Nat → Nat → M Nat
  | 0, _, acc => .ok acc
  | n + 1, i, acc => do
    let d ← usub b.len i
    let idx ← usub d 1
    let x ← unwrap (← b.get idx)
    let acc ← uadd acc x
    decantedItems b n (i + 1) acc

/-- The same loop in `Internal::share_children_with`, `src/node_impls/annotated_basic.rs:878-885`. -/
def decantedNodes (c : CB ANode) : Nat → Nat → Nat → M Nat
  | 0, _, acc => .ok acc
  | n + 1, i, acc => do
    let d ← usub c.len i
    let idx ← usub d 1
    let x ← unwrap (← c.get idx)
    let acc ← uadd acc x.cached
    decantedNodes c n (i + 1) acc

/-- `Leaf::share_children_with`, `src/node_impls/annotated_basic.rs:258-278`;
`Internal::share_children_with`, `:852-892`. Returns the number moved, `self` and `destination`. -/
def shareChildrenWith (src dst : ANode) (shareSide : Side) (len : Nat) : M (Nat × ANode × ANode) :=
  match src, dst with
  | .leaf b sum, .leaf d dsum => do
    let r ← b.decantInto d shareSide len
    if r.1 != 0 then do
      let moved ← decantedItems r.2.1 r.1 0 0
      let sum ← usub sum moved
      let dsum ← uadd dsum moved
      .ok (r.1, .leaf r.2.1 sum, .leaf r.2.2 dsum)
    else .ok (r.1, .leaf r.2.1 sum, .leaf r.2.2 dsum)
  | .internal s t c sum, .internal s' t' c' dsum => do
    massert (s.level == s'.level)
    massert (c.len == s.len)
    massert (t == t')
    let r ← c.decantInto c' shareSide len
    if r.1 != 0 then do
      let q ← Node.shareSizes shareSide r.1 s s'
      let moved ← decantedNodes r.2.1 r.1 0 0
      let sum ← usub sum moved
      let dsum ← uadd dsum moved
      .ok (r.1, .internal q.1 t r.2.1 sum, .internal q.2 t' r.2.2 dsum)
    else .ok (r.1, .internal s t r.2.1 sum, .internal s' t' r.2.2 dsum)
  | .leaf _ _, .internal _ _ _ _ => .error .panic
  | .internal _ _ _ _, .leaf _ _ => .error .panic

/-- `Internal::pop_child`, `src/node_impls/annotated_basic.rs:999-1013`. -/
def popChild (nd : ANode) (side : Side) : M (ANode × ANode) :=
  match nd with
  | .leaf _ _ => .error .panic
  | .internal s t c sum => do
    let r ← s.popChild side
    let q ← c.pop side
    let sum ← usub sum q.1.cached
    .ok (q.1, .internal r.2 t q.2 sum)

/-- `node.leaf()` and `node.internal()`, as in `Node.checkTag`. -/
def checkTag (t : Tag) : ANode → M Unit
  | .leaf _ _ => massert (t == .leaves)
  | .internal _ _ _ _ => massert (t == .internals)

/-- `Internal::push_child`, `src/node_impls/annotated_basic.rs:1015-1026`. -/
def pushChild (nd : ANode) (side : Side) (child : ANode) : M ANode :=
  match nd with
  | .leaf _ _ => .error .panic
  | .internal s t c sum => do
    let n ← child.len
    let s ← s.pushChild side n
    let sum ← uadd sum child.cached
    checkTag t child
    let c ← c.push side child
    .ok (.internal s t c sum)

/-- `Leaf::push`, `src/node_impls/annotated_basic.rs:234-237`. -/
def leafPush (nd : ANode) (side : Side) (x : Nat) : M ANode :=
  match nd with
  | .leaf b sum => do
    let sum ← uadd sum x
    let b ← b.push side x
    .ok (.leaf b sum)
  | .internal _ _ _ _ => .error .panic

/-- `Leaf::pop`, `src/node_impls/annotated_basic.rs:239-243`. -/
def leafPop (nd : ANode) (side : Side) : M (Nat × ANode) :=
  match nd with
  | .leaf b sum => do
    let r ← b.pop side
    let sum ← usub sum r.1
    .ok (r.1, .leaf r.2 sum)
  | .internal _ _ _ _ => .error .panic

/-- `for idx in start..end` of `Leaf::sum`, `src/node_impls/annotated_basic.rs:318-320`; the first
argument is the number of rounds left. -/
def leafSumLoop (b : CB Nat) : Nat → Nat → Nat → M Nat
  | 0, _, acc => .ok acc
  | n + 1, idx, acc => do
    let x ← unwrap (← b.get idx)
    let acc ← uadd acc x
    leafSumLoop b n (idx + 1) acc

/-- `for idx in 0..children.len()` of `Internal::sum`, `src/node_impls/annotated_basic.rs:774-786`
(internal children: `start - start_pos`) and `:787-799` (leaves: `start.saturating_sub(start_pos)`).
The first argument is the number of rounds left, `sumChild` the call of `sum` on a child. -/
def sumLoop (sumChild : ANode → Nat → Nat → M Nat) (tag : Tag) (c : CB ANode) (start stop : Nat) :
    Nat → Nat → Nat → Nat → M Nat
  | 0, _, _, acc => .ok acc
  | n + 1, idx, startPos, acc => do
    let child ← unwrap (← c.get idx)
    let childLen ← child.len
    let endPos := startPos + childLen
    let acc ← (if startPos < stop ∧ endPos > start then do
        let a ← (match tag with
          | .internals => usub start startPos
          | .leaves => .ok (start - startPos))
        let b ← usub stop startPos
        let x ← sumChild child a b
        uadd acc x
      else .ok acc)
    sumLoop sumChild tag c start stop n (idx + 1) endPos acc

/-- `Leaf::sum`, `src/node_impls/annotated_basic.rs:305-322`, and `Internal::sum`, `:756-803`, for the
range `start..stop`, the only kind they are called with. The first argument bounds the depth. -/
def sumAux : Nat → ANode → Nat → Nat → M Nat
  | 0, _, _, _ => .error .diverge
  | _ + 1, .leaf b _, start, stop =>
    leafSumLoop b (min stop b.len - start) start 0
  | fuel + 1, .internal s t c sum, start, stop => do
    let n ← s.cumulativeSize
    let stop := min stop n
    if start == 0 && stop == n then .ok sum
    else sumLoop (sumAux fuel) t c start stop c.len 0 0 0

/-- `sum` of a node; see `sumAux`. -/
def sum (nd : ANode) (start stop : Nat) : M Nat := sumAux (nd.level + 1) nd start stop

/-- `Leaf::get`, `Internal::get`, `src/node_impls/annotated_basic.rs:216-218`, `:976-982`. -/
def getAux : Nat → ANode → Nat → M (Option Nat)
  | 0, _, _ => .error .diverge
  | _ + 1, .leaf b _, idx => b.get idx
  | fuel + 1, .internal s _ c _, idx => do
    let p ← s.positionInfoFor idx
    match p with
    | some (arrayIdx, newIdx) => do
      let child ← unwrap (← c.get arrayIdx)
      getAux fuel child newIdx
    | none => .ok none

/-- `get` of a node; see `getAux`. -/
def get (nd : ANode) (idx : Nat) : M (Option Nat) := getAux (nd.level + 1) nd idx

/-- Writing `x` through the pointer of `get_mut` (`guarded = false`):
`src/node_impls/annotated_basic.rs:230-232`, `:991-997`; no cached sum changes. Writing `x` through the
guard of `get_mut_guarded` and dropping it (`guarded = true`): `:221-228`, `:984-989`, `:109-121`;
every sum on the way becomes `sum - previous + item`. -/
def setAux (guarded : Bool) : Nat → ANode → Nat → Nat → M (Option (ANode × Nat))
  | 0, _, _, _ => .error .diverge
  | _ + 1, .leaf b sum, idx, x => do
    let old ← b.get idx
    let r ← b.set idx x
    match old, r with
    | some old, some b => do
      let sum ← (if guarded then do
          let d ← usub sum old
          uadd d x
        else .ok sum)
      .ok (some (.leaf b sum, old))
    | _, _ => .ok none
  | fuel + 1, .internal s t c sum, idx, x => do
    let p ← s.positionInfoFor idx
    match p with
    | some (arrayIdx, newIdx) => do
      let child ← unwrap (← c.get arrayIdx)
      let r ← setAux guarded fuel child newIdx x
      match r with
      | some (child, old) => do
        let c ← unwrap (← c.set arrayIdx child)
        let sum ← (if guarded then do
            let d ← usub sum old
            uadd d x
          else .ok sum)
        .ok (some (.internal s t c sum, old))
      | none => .ok none
    | none => .ok none

/-- Writing through `get_mut` or `get_mut_guarded`; see `setAux`. -/
def set (guarded : Bool) (nd : ANode) (idx x : Nat) : M (Option ANode) := do
  let r ← setAux guarded (nd.level + 1) nd idx x
  .ok (r.map Prod.fst)

end ANode

/-- `InternalVector` with annotated nodes, `src/vector.rs:388-396`. -/
structure AVec where
  left : List ANode
  right : List ANode
  root : ANode
  len : Nat

namespace AVec

/-- `new`, `src/vector.rs:426-433`. -/
def new : AVec := { left := [], right := [], root := ANode.emptyLeaf, len := 0 }

/-- `spine_ref`, `src/vector.rs:2062-2067`. -/
def spine (v : AVec) : Side → List ANode
  | .front => v.left
  | .back => v.right

/-- `.load().free_space()` behind `leaf_ref`. -/
def leafFreeSpace : ANode → M Nat
  | .leaf b _ => b.freeSpace
  | .internal _ _ _ _ => .error .panic

/-- The pair `(spine, other_spine)` written back, `src/vector.rs:520-523`. -/
def withSpine (v : AVec) (side : Side) (sp : List ANode) : AVec :=
  match side with
  | .front => { v with left := sp }
  | .back => { v with right := sp }

/-- `leaf_ref`, `src/vector.rs:2070-2075`: the first node of the spine, or the root. -/
def leafNode (v : AVec) (side : Side) : ANode := (v.spine side).head?.getD v.root

/-- Writing back the node obtained as in `leaf_ref` (`first_mut().unwrap_or(&mut self.root)`,
`src/vector.rs:567-577`). -/
def withLeafNode (v : AVec) (side : Side) (nd : ANode) : AVec :=
  match v.spine side with
  | [] => { v with root := nd }
  | _ :: rest => v.withSpine side (nd :: rest)

/-- One round of the loop of `fixup_spine_tops`, `src/vector.rs:678-719`. The flag tells whether
the loop goes on (`false` for `break`). -/
def fixupStep (v : AVec) : M (AVec × Bool) := do
  let leftTop ← unwrap v.left.getLast?
  let rightTop ← unwrap v.right.getLast?
  let leftChildren := leftTop.slots
  let rightChildren := rightTop.slots
  let total := leftChildren + rightChildren
  let difference := if leftChildren > rightChildren then leftChildren - rightChildren
    else rightChildren - leftChildren
  let minChildren := if v.root.level == 1 then RRB_WIDTH else RRB_WIDTH - 2
  if total < minChildren then do
    let r ← leftTop.shareChildrenWith rightTop .back RRB_WIDTH
    .ok ({ v with left := v.left.dropLast, right := v.right.dropLast, root := r.2.2 }, true)
  else if difference ≥ 2 then
    if leftChildren > rightChildren then do
      let r ← leftTop.shareChildrenWith rightTop .back (difference / 2)
      .ok ({ v with left := v.left.dropLast ++ [r.2.1], right := v.right.dropLast ++ [r.2.2] }, false)
    else do
      let r ← rightTop.shareChildrenWith leftTop .front (difference / 2)
      .ok ({ v with left := v.left.dropLast ++ [r.2.2], right := v.right.dropLast ++ [r.2.1] }, false)
  else .ok (v, false)

/-- The loop of `fixup_spine_tops`, `src/vector.rs:677-720`. The first argument bounds the number
of iterations. -/
def fixupLoop : Nat → AVec → M AVec
  | 0, v => if v.root.slots == 0 && !v.root.isLeaf then .error .diverge else .ok v
  | fuel + 1, v =>
    if v.root.slots == 0 && !v.root.isLeaf then do
      let r ← v.fixupStep
      if r.2 then fixupLoop fuel r.1 else .ok r.1
    else .ok v

/-- `fixup_spine_tops`, `src/vector.rs:668-721`. -/
def fixupSpineTops (v : AVec) : M AVec := fixupLoop (v.left.length + 1) v

/-- The loop of `complete_leaf`, `src/vector.rs:525-540`. The index loop over the spine is written
as a recursion on the spine; the parent is the next node, or the root. The first argument is the
number of nodes of the spine left to visit. -/
def completeLoop (side : Side) : Nat → List ANode → ANode → M (List ANode × ANode)
  | 0, sp, root => .ok (sp, root)
  | _ + 1, [], root => .ok ([], root)
  | n + 1, node :: rest, root => do
    let free ← node.freeSlots
    if free != 0 then .ok (node :: rest, root)
    else
      match rest with
      | [] => do
        let root ← root.pushChild side node
        .ok ([node.newEmpty], root)
      | p :: rest => do
        let p ← p.pushChild side node
        let r ← completeLoop side n (p :: rest) root
        .ok (node.newEmpty :: r.1, r.2)

/-- `complete_leaf`, `src/vector.rs:517-559`. -/
def completeLeaf (v : AVec) (side : Side) : M AVec := do
  massert (v.left.length == v.right.length)
  let free ← leafFreeSpace (v.leafNode side)
  massert (free == 0)
  let r ← completeLoop side (v.spine side).length (v.spine side) v.root
  let spine := r.1
  let otherSpine := v.spine side.negate
  if r.2.slots ≥ RRB_WIDTH - 1 then do
    let newRoot ← ANode.emptyInternal (r.2.level + 1)
    let q ← r.2.shareChildrenWith r.2.newEmpty side.negate (RRB_WIDTH / 2)
    .ok ((({ v with root := newRoot }).withSpine side (spine ++ [q.2.1])).withSpine side.negate
      (otherSpine ++ [q.2.2]))
  else if r.2.slots == 0 then fixupSpineTops (({ v with root := r.2 }).withSpine side spine)
  else .ok (({ v with root := r.2 }).withSpine side spine)

/-- `push_side`, `src/vector.rs:563-586`. -/
def pushSide (v : AVec) (side : Side) (item : Nat) : M AVec := do
  let free ← leafFreeSpace (v.leafNode side)
  let v ← (if free == 0 then v.completeLeaf side else .ok v)
  let nd ← (v.leafNode side).leafPush side item
  let len ← uadd v.len 1
  let v := { v.withLeafNode side nd with len := len }
  if (v.spine side).length == 1 then v.fixupSpineTops else .ok v

/-- `push_back`, `src/vector.rs:602-604`. -/
def pushBack (v : AVec) (item : Nat) : M AVec := v.pushSide .back item

/-- `push_front`, `src/vector.rs:620-622`. -/
def pushFront (v : AVec) (item : Nat) : M AVec := v.pushSide .front item

/-- `Extend`/`FromIterator`: pushing every item of an iterator in turn, `src/vector.rs:2441-2447`; the
iterator is the list of the items it yields. -/
def pushAll (v : AVec) : List Nat → M AVec
  | [] => .ok v
  | x :: xs => do
    let v ← v.pushBack x
    v.pushAll xs

/-- `FromIterator::from_iter`, `src/vector.rs:2441-2447`. -/
def fromIter (items : List Nat) : M AVec := AVec.new.pushAll items

/-- The search of `empty_leaf`, `src/vector.rs:642-648`, over the nodes of the spine from entry
`i` on; `dflt` is the initial value of `last_empty`. -/
def lastEmpty : List ANode → Nat → Nat → Nat
  | [], _, dflt => dflt
  | v :: vs, i, dflt => if v.slots != 0 then i - 1 else lastEmpty vs (i + 1) dflt

/-- The loop of `empty_leaf`, `src/vector.rs:654-661`, for `level = n-1, …, 0`. -/
def emptyLeafLoop (side : Side) : Nat → List ANode → ANode → M (List ANode × ANode)
  | 0, sp, root => .ok (sp, root)
  | level + 1, sp, root => do
    massert (decide (level < sp.length))
    match sp[level + 1]? with
    | some p => do
      let r ← p.popChild side
      emptyLeafLoop side level ((sp.set (level + 1) r.2).set level r.1) root
    | none => do
      let r ← root.popChild side
      emptyLeafLoop side level (sp.set level r.1) r.2

/-- `empty_leaf`, `src/vector.rs:625-664`. -/
def emptyLeaf (v : AVec) (side : Side) : M AVec := do
  massert (v.left.length == v.right.length)
  let sp := v.spine side
  let first ← unwrap sp.head?
  massert (first.slots == 0)
  let last ← unwrap sp.getLast?
  massert (v.root.slots != 0 || last.slots != 0)
  let dflt ← usub sp.length 1
  let r ← emptyLeafLoop side (lastEmpty sp.tail 1 dflt + 1) sp v.root
  fixupSpineTops (({ v with root := r.2 }).withSpine side r.1)

/-- `pop_side`, `src/vector.rs:725-759`. Returns the item and the vector. -/
def popSide (v : AVec) (side : Side) : M (Option Nat × AVec) := do
  massert (v.left.length == v.right.length)
  if (v.spine side).isEmpty then do
    let e ← v.root.isEmpty
    if !e then do
      let len ← usub v.len 1
      let r ← v.root.leafPop side
      .ok (some r.1, { v with root := r.2, len := len })
    else .ok (none, v)
  else do
    let r ← (v.leafNode side).leafPop side
    let v := v.withLeafNode side r.2
    let e ← r.2.isEmpty
    let v ← (if e then v.emptyLeaf side
      else if (v.spine side).length == 1 then v.fixupSpineTops
      else .ok v)
    let len ← usub v.len 1
    .ok (some r.1, { v with len := len })

/-- `pop_front`, `src/vector.rs:779-781`. -/
def popFront (v : AVec) : M (Option Nat × AVec) := v.popSide .front

/-- `pop_back`, `src/vector.rs:801-803`. -/
def popBack (v : AVec) : M (Option Nat × AVec) := v.popSide .back

/-- The loop of `find_node_info_for_index`, `src/vector.rs:1194-1208`. -/
def findLoop (index : Nat) : List ANode → List ANode → Nat → Nat → Nat →
    M (Option (Side × Nat) × Nat)
  | l :: ls, r :: rs, idx, forwardEnd, backwardStart => do
    let llen ← l.len
    if index < forwardEnd + llen then do
      let d ← usub index forwardEnd
      .ok (some (.front, idx), d)
    else do
      let rlen ← r.len
      let backwardStart ← usub backwardStart rlen
      if index ≥ backwardStart then do
        let d ← usub index backwardStart
        .ok (some (.back, idx), d)
      else findLoop index ls rs (idx + 1) (forwardEnd + llen) backwardStart
  | _, _, _, forwardEnd, backwardStart => do
    massert (decide (index ≥ forwardEnd) && decide (index < backwardStart))
    let d ← usub index forwardEnd
    .ok (none, d)

/-- `find_node_info_for_index`, `src/vector.rs:1187-1212`. -/
def findNodeInfoForIndex (v : AVec) (index : Nat) : M (Option (Option (Side × Nat) × Nat)) :=
  if index ≥ v.len then .ok none
  else do
    let r ← findLoop index v.left v.right 0 0 v.len
    .ok (some r)

/-- The node named by the result of `find_node_info_for_index`, `src/vector.rs:876-880`. -/
def nodeAt (v : AVec) : Option (Side × Nat) → M ANode
  | some (.front, i) => unwrap v.left[i]?
  | some (.back, i) => unwrap v.right[i]?
  | none => .ok v.root

/-- Writing back a node named by the result of `find_node_info_for_index`,
`src/vector.rs:890-894`. -/
def withNodeAt (v : AVec) (pos : Option (Side × Nat)) (nd : ANode) : AVec :=
  match pos with
  | some (.front, i) => { v with left := v.left.set i nd }
  | some (.back, i) => { v with right := v.right.set i nd }
  | none => { v with root := nd }

/-- `get`, `src/vector.rs:874-885`. -/
def get (v : AVec) (idx : Nat) : M (Option Nat) := do
  let p ← v.findNodeInfoForIndex idx
  match p with
  | some (pos, sub) => do
    let nd ← v.nodeAt pos
    let x ← unwrap (← nd.get sub)
    .ok (some x)
  | none => .ok none

/-- `get_mut` (`src/vector.rs:888-899`) or `get_mut_guarded` (`:902-916`) and a write of `x`. -/
def set (guarded : Bool) (v : AVec) (idx x : Nat) : M (Option AVec) := do
  let p ← v.findNodeInfoForIndex idx
  match p with
  | some (pos, sub) => do
    let nd ← v.nodeAt pos
    let nd ← unwrap (← nd.set guarded sub x)
    .ok (some (v.withNodeAt pos nd))
  | none => .ok none

/-- The loop of `SumVector::sum` over `spine_iter`, `src/node_impls/annotated_basic.rs:1212-1235`. -/
def sumLoop (start stop : Nat) : List ANode → Nat → Nat → M Nat
  | [], _, result => .ok result
  | nd :: nds, startPos, result => do
    let n ← nd.len
    let endPos := startPos + n
    let result ← (if startPos < stop ∧ endPos > start then do
        let b ← usub stop startPos
        let x ← nd.sum (start - startPos) b
        uadd result x
      else .ok result)
    sumLoop start stop nds endPos result

/-- `SumVector::sum`, `src/node_impls/annotated_basic.rs:1199-1237`; `spine_iter`,
`src/vector.rs:496-513`. -/
def sum (v : AVec) (startBound endBound : Bound) : M Nat := do
  let start ← RVec.rangeStart startBound
  let stop ← RVec.rangeEnd v.len endBound
  sumLoop start stop (v.left ++ v.root :: v.right.reverse) 0 0

end AVec

/-! ### Without the sums

The readers `Iter` and `Focus` are generic in the nodes and never look at a sum; in the model they work on
the vector without its sums. -/

namespace ANode

mutual
/-- The node without its sums. -/
def erase : ANode → Node Nat
  | .leaf b _ => .leaf b
  | .internal s t c _ => .internal s t (eraseCB c)
/-- See `erase`. -/
def eraseCB : CB ANode → CB (Node Nat)
  | ⟨f, l, d⟩ => ⟨f, l, eraseList d⟩
/-- See `erase`. -/
def eraseList : List (Option ANode) → List (Option (Node Nat))
  | [] => []
  | x :: xs => eraseOpt x :: eraseList xs
/-- See `erase`. -/
def eraseOpt : Option ANode → Option (Node Nat)
  | none => none
  | some x => some (erase x)
end

end ANode

/-- The vector without the sums of its nodes. -/
def AVec.erase (v : AVec) : RVec Nat :=
  { left := v.left.map ANode.erase, right := v.right.map ANode.erase, root := v.root.erase, len := v.len }

end Librrb
