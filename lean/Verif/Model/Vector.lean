import Verif.Model.Abs

/-!
# Model of `InternalVector`, `src/vector.rs`

A spine is a list of nodes whose entry `0` is the leaf, as in the code. Sums of lengths below the
vector (size tables) are plain numbers; the `len` field of the vector is computed with checked
`usize` arithmetic. Reference counting is left out here: `clone` is the identity.
-/
namespace Librrb

/-- `InternalVector`, `src/vector.rs:388-396`. -/
structure RVec (α : Type) where
  left : List (Node α)
  right : List (Node α)
  root : Node α
  len : Nat

/-- `std::ops::Bound<usize>`, as returned by `RangeBounds::start_bound` and `end_bound`. -/
inductive Bound where
  | unbounded
  | included (x : Nat)
  | excluded (x : Nat)
  deriving DecidableEq, Repr

namespace RVec

/-- The sequence a vector stands for: left spine from the leaf up, root, right spine down to the
leaf. Not part of the code. -/
def toList (v : RVec α) : List α :=
  v.left.flatMap Node.toList ++ v.root.toList ++ v.right.reverse.flatMap Node.toList

/-- `new`, `src/vector.rs:426-433`. -/
def new : RVec α := { left := [], right := [], root := Node.emptyLeaf, len := 0 }

/-- `is_empty`, `src/vector.rs:490-492`. -/
def isEmpty (v : RVec α) : Bool := v.len == 0

/-- `height`, `src/vector.rs:2056-2059`; the `debug_assert_eq!` is kept. -/
def height (v : RVec α) : M Nat := do
  massert (v.left.length == v.right.length)
  .ok v.left.length

/-- `spine_ref`, `src/vector.rs:2062-2067`. -/
def spine (v : RVec α) : Side → List (Node α)
  | .front => v.left
  | .back => v.right

/-- The pair `(spine, other_spine)` written back, `src/vector.rs:520-523`. -/
def withSpine (v : RVec α) (side : Side) (sp : List (Node α)) : RVec α :=
  match side with
  | .front => { v with left := sp }
  | .back => { v with right := sp }

/-- `leaf_ref`, `src/vector.rs:2070-2075`: the first node of the spine, or the root. -/
def leafNode (v : RVec α) (side : Side) : Node α := (v.spine side).head?.getD v.root

/-- Writing back the node obtained as in `leaf_ref` (`first_mut().unwrap_or(&mut self.root)`,
`src/vector.rs:567-577`). -/
def withLeafNode (v : RVec α) (side : Side) (nd : Node α) : RVec α :=
  match v.spine side with
  | [] => { v with root := nd }
  | _ :: rest => v.withSpine side (nd :: rest)

/-- `.load().free_space()` behind `leaf_ref`: `leaf_ref` panics when the node is not a leaf
(`src/node_traits.rs:493-499`). -/
def leafFreeSpace : Node α → M Nat
  | .leaf b => b.freeSpace
  | .internal _ _ _ => .error .panic

/-- One round of the loop of `fixup_spine_tops`, `src/vector.rs:678-719`. The flag tells whether
the loop goes on (`false` for `break`). -/
def fixupStep (v : RVec α) : M (RVec α × Bool) := do
  let leftTop ← unwrap v.left.getLast?
  let rightTop ← unwrap v.right.getLast?
  let leftChildren := leftTop.slots
  let rightChildren := rightTop.slots
  let total := leftChildren + rightChildren
  let difference := if leftChildren > rightChildren then leftChildren - rightChildren
    else rightChildren - leftChildren
  let minChildren := if v.root.level == 1 then RRB_WIDTH else RRB_WIDTH - 2
  if total < minChildren then do
    let r ← leftTop.shareChildrenWith rightTop .back RRB_WIDTH
    .ok ({ v with left := v.left.dropLast, right := v.right.dropLast, root := r.2.2 }, true)
  else if difference ≥ 2 then
    if leftChildren > rightChildren then do
      let r ← leftTop.shareChildrenWith rightTop .back (difference / 2)
      .ok ({ v with left := v.left.dropLast ++ [r.2.1], right := v.right.dropLast ++ [r.2.2] }, false)
    else do
      let r ← rightTop.shareChildrenWith leftTop .front (difference / 2)
      .ok ({ v with left := v.left.dropLast ++ [r.2.2], right := v.right.dropLast ++ [r.2.1] }, false)
  else .ok (v, false)

/-- The loop of `fixup_spine_tops`, `src/vector.rs:677-720`. The first argument bounds the number
of iterations. -/
def fixupLoop : Nat → RVec α → M (RVec α)
  | 0, v => if v.root.slots == 0 && !v.root.isLeaf then .error .diverge else .ok v
  | fuel + 1, v =>
    if v.root.slots == 0 && !v.root.isLeaf then do
      let r ← v.fixupStep
      if r.2 then fixupLoop fuel r.1 else .ok r.1
    else .ok v

/-- `fixup_spine_tops`, `src/vector.rs:668-721`. -/
def fixupSpineTops (v : RVec α) : M (RVec α) := fixupLoop (v.left.length + 1) v

/-- The loop of `complete_leaf`, `src/vector.rs:525-540`. The index loop over the spine is written
as a recursion on the spine; the parent is the next node, or the root. The first argument is the
number of nodes of the spine left to visit. -/
def completeLoop (side : Side) : Nat → List (Node α) → Node α → M (List (Node α) × Node α)
  | 0, sp, root => .ok (sp, root)
  | _ + 1, [], root => .ok ([], root)
  | n + 1, node :: rest, root => do
    let free ← node.freeSlots
    if free != 0 then .ok (node :: rest, root)
    else
      match rest with
      | [] => do
        let root ← root.pushChild side node
        .ok ([node.newEmpty], root)
      | p :: rest => do
        let p ← p.pushChild side node
        let r ← completeLoop side n (p :: rest) root
        .ok (node.newEmpty :: r.1, r.2)

/-- `complete_leaf`, `src/vector.rs:517-559`. -/
def completeLeaf (v : RVec α) (side : Side) : M (RVec α) := do
  massert (v.left.length == v.right.length)
  let free ← leafFreeSpace (v.leafNode side)
  massert (free == 0)
  let r ← completeLoop side (v.spine side).length (v.spine side) v.root
  let spine := r.1
  let otherSpine := v.spine side.negate
  if r.2.slots ≥ RRB_WIDTH - 1 then do
    let newRoot ← Node.emptyInternal (r.2.level + 1)
    let q ← r.2.shareChildrenWith r.2.newEmpty side.negate (RRB_WIDTH / 2)
    .ok ((({ v with root := newRoot }).withSpine side (spine ++ [q.2.1])).withSpine side.negate
      (otherSpine ++ [q.2.2]))
  else if r.2.slots == 0 then fixupSpineTops (({ v with root := r.2 }).withSpine side spine)
  else .ok (({ v with root := r.2 }).withSpine side spine)

/-- `push_side`, `src/vector.rs:563-586`. -/
def pushSide (v : RVec α) (side : Side) (item : α) : M (RVec α) := do
  let free ← leafFreeSpace (v.leafNode side)
  let v ← (if free == 0 then v.completeLeaf side else .ok v)
  let nd ← (v.leafNode side).leafPush side item
  let len ← uadd v.len 1
  let v := { v.withLeafNode side nd with len := len }
  if (v.spine side).length == 1 then v.fixupSpineTops else .ok v

/-- `push_back`, `src/vector.rs:602-604`. -/
def pushBack (v : RVec α) (item : α) : M (RVec α) := v.pushSide .back item

/-- `push_front`, `src/vector.rs:620-622`. -/
def pushFront (v : RVec α) (item : α) : M (RVec α) := v.pushSide .front item

/-- `singleton`, `src/vector.rs:445-449`. -/
def singleton (item : α) : M (RVec α) := RVec.new.pushBack item

/-- `Extend`/`FromIterator`: pushing every item of an iterator in turn, `src/vector.rs:2441-2447`; the
iterator is the list of the items it yields. -/
def pushAll (v : RVec α) : List α → M (RVec α)
  | [] => .ok v
  | x :: xs => do
    let v ← v.pushBack x
    v.pushAll xs

/-- `FromIterator::from_iter`, `src/vector.rs:2441-2447`. -/
def fromIter (items : List α) : M (RVec α) := RVec.new.pushAll items

/-- The search of `empty_leaf`, `src/vector.rs:642-648`, over the nodes of the spine from entry
`i` on; `dflt` is the initial value of `last_empty`. -/
def lastEmpty : List (Node α) → Nat → Nat → Nat
  | [], _, dflt => dflt
  | v :: vs, i, dflt => if v.slots != 0 then i - 1 else lastEmpty vs (i + 1) dflt

/-- The loop of `empty_leaf`, `src/vector.rs:654-661`, for `level = n-1, …, 0`. -/
def emptyLeafLoop (side : Side) : Nat → List (Node α) → Node α → M (List (Node α) × Node α)
  | 0, sp, root => .ok (sp, root)
  | level + 1, sp, root => do
    massert (decide (level < sp.length))
    match sp[level + 1]? with
    | some p => do
      let r ← p.popChild side
      emptyLeafLoop side level ((sp.set (level + 1) r.2).set level r.1) root
    | none => do
      let r ← root.popChild side
      emptyLeafLoop side level (sp.set level r.1) r.2

/-- `empty_leaf`, `src/vector.rs:625-664`. -/
def emptyLeaf (v : RVec α) (side : Side) : M (RVec α) := do
  massert (v.left.length == v.right.length)
  let sp := v.spine side
  let first ← unwrap sp.head?
  massert (first.slots == 0)
  let last ← unwrap sp.getLast?
  massert (v.root.slots != 0 || last.slots != 0)
  let dflt ← usub sp.length 1
  let r ← emptyLeafLoop side (lastEmpty sp.tail 1 dflt + 1) sp v.root
  fixupSpineTops (({ v with root := r.2 }).withSpine side r.1)

/-- `pop_side`, `src/vector.rs:725-759`. Returns the item and the vector. -/
def popSide (v : RVec α) (side : Side) : M (Option α × RVec α) := do
  massert (v.left.length == v.right.length)
  if (v.spine side).isEmpty then do
    let e ← v.root.isEmpty
    if !e then do
      let len ← usub v.len 1
      let r ← v.root.leafPop side
      .ok (some r.1, { v with root := r.2, len := len })
    else .ok (none, v)
  else do
    let r ← (v.leafNode side).leafPop side
    let v := v.withLeafNode side r.2
    let e ← r.2.isEmpty
    let v ← (if e then v.emptyLeaf side
      else if (v.spine side).length == 1 then v.fixupSpineTops
      else .ok v)
    let len ← usub v.len 1
    .ok (some r.1, { v with len := len })

/-- `pop_front`, `src/vector.rs:779-781`. -/
def popFront (v : RVec α) : M (Option α × RVec α) := v.popSide .front

/-- `pop_back`, `src/vector.rs:801-803`. -/
def popBack (v : RVec α) : M (Option α × RVec α) := v.popSide .back

/-- The loop of `find_node_info_for_index`, `src/vector.rs:1194-1208`. -/
def findLoop (index : Nat) : List (Node α) → List (Node α) → Nat → Nat → Nat →
    M (Option (Side × Nat) × Nat)
  | l :: ls, r :: rs, idx, forwardEnd, backwardStart => do
    let llen ← l.len
    if index < forwardEnd + llen then do
      let d ← usub index forwardEnd
      .ok (some (.front, idx), d)
    else do
      let rlen ← r.len
      let backwardStart ← usub backwardStart rlen
      if index ≥ backwardStart then do
        let d ← usub index backwardStart
        .ok (some (.back, idx), d)
      else findLoop index ls rs (idx + 1) (forwardEnd + llen) backwardStart
  | _, _, _, forwardEnd, backwardStart => do
    massert (decide (index ≥ forwardEnd) && decide (index < backwardStart))
    let d ← usub index forwardEnd
    .ok (none, d)

/-- `find_node_info_for_index`, `src/vector.rs:1187-1212`. -/
def findNodeInfoForIndex (v : RVec α) (index : Nat) : M (Option (Option (Side × Nat) × Nat)) :=
  if index ≥ v.len then .ok none
  else do
    let r ← findLoop index v.left v.right 0 0 v.len
    .ok (some r)

/-- The node named by the result of `find_node_info_for_index`, `src/vector.rs:876-880`. -/
def nodeAt (v : RVec α) : Option (Side × Nat) → M (Node α)
  | some (.front, i) => unwrap v.left[i]?
  | some (.back, i) => unwrap v.right[i]?
  | none => .ok v.root

/-- Writing back a node named by the result of `find_node_info_for_index`,
`src/vector.rs:890-894`. -/
def withNodeAt (v : RVec α) (pos : Option (Side × Nat)) (nd : Node α) : RVec α :=
  match pos with
  | some (.front, i) => { v with left := v.left.set i nd }
  | some (.back, i) => { v with right := v.right.set i nd }
  | none => { v with root := nd }

/-- `get`, `src/vector.rs:874-885`. -/
def get (v : RVec α) (idx : Nat) : M (Option α) := do
  let p ← v.findNodeInfoForIndex idx
  match p with
  | some (pos, sub) => do
    let nd ← v.nodeAt pos
    let x ← unwrap (← nd.get sub)
    .ok (some x)
  | none => .ok none

/-- `Index::index`, `src/vector.rs:2331-2333`: `self.get(index).expect("Index out of range")`. -/
def index (v : RVec α) (idx : Nat) : M α := do
  unwrap (← v.get idx)

/-- `get_mut`, `src/vector.rs:888-899`, followed by an assignment of `x` through the returned
reference; `none` when the code returns `None`. -/
def set (v : RVec α) (idx : Nat) (x : α) : M (Option (RVec α)) := do
  let p ← v.findNodeInfoForIndex idx
  match p with
  | some (pos, sub) => do
    let nd ← v.nodeAt pos
    let nd ← unwrap (← nd.set sub x)
    .ok (some (v.withNodeAt pos nd))
  | none => .ok none

/-- `LeafTrait::front` and `back`, `src/node_traits.rs:72-79`: entry `0`, entry
`len().saturating_sub(1)`; behind `leaf_ref`, which panics when the node is not a leaf. -/
def leafEnd (side : Side) : Node α → M (Option α)
  | .leaf b =>
    match side with
    | .front => b.get 0
    | .back => b.get (b.len - 1)
  | .internal _ _ _ => .error .panic

/-- `front` and `back`, `src/vector.rs:817-820`, `:851-854`. -/
def frontBack (v : RVec α) (side : Side) : M (Option α) := leafEnd side (v.leafNode side)

/-- `LeafTrait::front_mut` and `back_mut`, `src/node_traits.rs:88-95`, and an assignment. -/
def setLeafEnd (side : Side) (x : α) : Node α → M (Option (Node α))
  | .leaf b => do
    let r ← (match side with
      | .front => b.set 0 x
      | .back => b.set (b.len - 1) x)
    .ok (r.map .leaf)
  | .internal _ _ _ => .error .panic

/-- `front_mut` and `back_mut`, `src/vector.rs:834-837`, `:868-871`, followed by an assignment of
`x` through the returned reference; `none` when the code returns `None`. -/
def setFrontBack (v : RVec α) (side : Side) (x : α) : M (Option (RVec α)) := do
  let r ← setLeafEnd side x (v.leafNode side)
  match r with
  | some nd => .ok (some (v.withLeafNode side nd))
  | none => .ok none

/-- `while self.right_spine.len() < other.left_spine.len()`, `src/vector.rs:978-989`; `target` is
`other.left_spine.len()`. The first argument bounds the number of iterations. -/
def raiseSelf : Nat → Nat → RVec α → M (RVec α)
  | 0, target, v => if v.right.length < target then .error .diverge else .ok v
  | fuel + 1, target, v =>
    if v.right.length < target then do
      let newRoot ← Node.emptyInternal (v.root.level + 1)
      let r ← v.root.shareChildrenWith v.root.newEmpty .back (v.root.slots / 2)
      raiseSelf fuel target { v with
        root := newRoot, left := v.left ++ [r.2.1], right := v.right ++ [r.2.2] }
    else .ok v

/-- `while other.left_spine.len() < self.right_spine.len()`, `src/vector.rs:991-1002`; `target` is
`self.right_spine.len()`. -/
def raiseOther : Nat → Nat → RVec α → M (RVec α)
  | 0, target, v => if v.left.length < target then .error .diverge else .ok v
  | fuel + 1, target, v =>
    if v.left.length < target then do
      let newRoot ← Node.emptyInternal (v.root.level + 1)
      let r ← v.root.shareChildrenWith v.root.newEmpty .front (v.root.slots / 2)
      raiseOther fuel target { v with
        root := newRoot, left := v.left ++ [r.2.2], right := v.right ++ [r.2.1] }
    else .ok v

/-- `spine.last_mut().unwrap_or(&mut root).internal_mut().load_mut()` of a reversed spine, and
`push_child` unless the child is empty: `src/vector.rs:1012-1022`, `:1023-1033`, `:1059-1075`.
The head of the list is the lowest node, so the reversals of the code cancel out. The check made
by `internal_mut` is made only when the child is pushed. -/
def pushUp (side : Side) (child : Node α) (sp : List (Node α)) (root : Node α) :
    M (List (Node α) × Node α) := do
  let e ← child.isEmpty
  if e then .ok (sp, root)
  else
    match sp with
    | [] => do
      let root ← root.pushChild side child
      .ok ([], root)
    | p :: rest => do
      let p ← p.pushChild side child
      .ok (p :: rest, root)

/-- `while !left_right_most.is_full() && !right.is_empty()`, `src/vector.rs:1043-1053`. Returns
`left_right_most` and `right`. The first argument bounds the number of iterations. -/
def stealLoop : Nat → Node α → Node α → M (Node α × Node α)
  | 0, lrm, right => do
    let full ← lrm.isFull
    let e ← right.isEmpty
    if !full && !e then .error .diverge else .ok (lrm, right)
  | fuel + 1, lrm, right => do
    let full ← lrm.isFull
    let e ← right.isEmpty
    if !full && !e then do
      let p ← right.popChild .front
      let r ← p.1.shareChildrenWith lrm .front p.1.slots
      let e ← r.2.1.isEmpty
      let right ← (if !e then p.2.pushChild .front r.2.1 else .ok p.2)
      stealLoop fuel r.2.2 right
    else .ok (lrm, right)

/-- The merging of two nodes of the same level, `src/vector.rs:1038-1057`. -/
def joinLevel (left right : Node α) : M (Node α × Node α) := do
  let left ← left.packChildren
  let p ← left.popChild .back
  let r ← stealLoop (right.slots + 1) p.1 right
  let left ← p.2.pushChild .back r.1
  let right ← r.2.packChildren
  let q ← right.shareChildrenWith left .front right.slots
  .ok (q.2.2, q.2.1)

/-- The main loop of `append`, `src/vector.rs:1034-1076`, on the reversed spines; returns the two
roots. The first argument is the number of nodes left in the spine. -/
def appendLoop : Nat → List (Node α) → List (Node α) → Node α → Node α → M (Node α × Node α)
  | _, [], ol, root, oroot => do
    massert ol.isEmpty
    .ok (root, oroot)
  | 0, _ :: _, _, _, _ => .error .diverge
  | n + 1, l :: ls, ol, root, oroot => do
    let q ← unwrap ol.head?
    let j ← joinLevel l q
    let r ← pushUp .back j.1 ls root
    let s ← pushUp .front j.2 ol.tail oroot
    appendLoop n r.1 s.1 r.2 s.2

/-- The first step of the joining in `append`, `src/vector.rs:1010-1033`: the lowest node of a spine
moves into its parent, or the root if it was the only one; without a spine nothing happens. -/
def firstUp (side : Side) : List (Node α) → Node α → M (List (Node α) × Node α)
  | [], root => .ok ([], root)
  | child :: rest, root => pushUp side child rest root

/-- `append` after the early exits, `src/vector.rs:975-1100`. -/
def appendMain (v other : RVec α) : M (RVec α) := do
  let newLen ← uadd v.len other.len
  let v ← raiseSelf other.left.length other.left.length v
  let other ← raiseOther v.right.length v.right.length other
  massert (other.left.length == other.right.length)
  massert (v.right.length == other.left.length)
  let r ← firstUp .back v.right v.root
  let s ← firstUp .front other.left other.root
  let roots ← appendLoop r.1.length r.1 s.1 r.2 s.2
  let q ← roots.2.shareChildrenWith roots.1 .front RRB_WIDTH
  let free ← q.2.2.freeSlots
  let p ← (if free < 2 then do
      let t ← q.2.2.shareChildrenWith q.2.1 .back 1
      .ok (t.2.1, t.2.2)
    else .ok (q.2.2, q.2.1))
  let e ← p.2.isEmpty
  let v ← (if !e then do
      let newRoot ← Node.emptyInternal (p.1.level + 1)
      .ok { left := v.left ++ [p.1], right := other.right ++ [p.2], root := newRoot, len := newLen }
    else .ok { left := v.left, right := other.right, root := p.1, len := newLen })
  fixupSpineTops v

/-- `append`, `src/vector.rs:929-1101`. -/
def append (v other : RVec α) : M (RVec α) :=
  if v.isEmpty then .ok other
  else if other.isEmpty then .ok v
  else if v.len == 1 then do
    let r ← v.popBack
    let x ← unwrap r.1
    other.pushFront x
  else if other.len == 1 then do
    let r ← other.popBack
    let x ← unwrap r.1
    v.pushBack x
  else appendMain v other

/-- `prepend`, `src/vector.rs:1114-1117`. -/
def prepend (v other : RVec α) : M (RVec α) := other.append v

/-- Removal of the empty nodes at the low end of the cut spine, `src/vector.rs:1271-1280` and
`:1303-1312` (the reversals of the code cancel out). -/
def dropEmpty : List (Node α) → M (List (Node α))
  | [] => .ok []
  | x :: xs => do
    let e ← x.isEmpty
    if e then dropEmpty xs else .ok (x :: xs)

/-- `while self.root.is_empty() && (self.left_spine.is_empty() || self.right_spine.is_empty())`,
`src/vector.rs:1282-1295` and `:1314-1327`. The first argument bounds the number of iterations. -/
def popTops : Nat → RVec α → M (RVec α)
  | 0, v => do
    let e ← v.root.isEmpty
    if e && (v.left.isEmpty || v.right.isEmpty) then .error .diverge else .ok v
  | fuel + 1, v => do
    let e ← v.root.isEmpty
    if e && (v.left.isEmpty || v.right.isEmpty) then
      if v.left.isEmpty then do
        let node ← unwrap v.right.getLast?
        popTops fuel { v with root := node, right := v.right.dropLast }
      else do
        let node ← unwrap v.left.getLast?
        popTops fuel { v with root := node, left := v.left.dropLast }
    else .ok v

/-- The loop of `fill_spine`, `src/vector.rs:1344-1354` (the reversals of the code cancel out).
The first argument bounds the number of iterations. -/
def fillLoop (side : Side) : Nat → List (Node α) → Node α → M (Bool × List (Node α) × Node α)
  | 0, _, _ => .error .diverge
  | fuel + 1, sp, root =>
    match sp.head?.getD root with
    | .leaf b => .ok (b.len == 0, sp, root)
    | .internal s t c => do
      let r ← (Node.internal s t c).popChild side
      match sp with
      | [] => fillLoop side fuel [r.1] r.2
      | _ :: rest => fillLoop side fuel (r.1 :: r.2 :: rest) root

/-- `fill_spine`, `src/vector.rs:1338-1357`. -/
def fillSpine (v : RVec α) (side : Side) : M (Bool × RVec α) := do
  let r ← fillLoop side (((v.spine side).head?.getD v.root).level + 1) (v.spine side) v.root
  .ok (r.1 && !r.2.1.isEmpty, ({ v with root := r.2.2 }).withSpine side r.2.1)

/-- What `split_off` does to each of the two parts after cutting, `src/vector.rs:1271-1301` (for
`self`, side `Back`) and `:1303-1333` (for the result, side `Front`). -/
def repair (v : RVec α) (side : Side) : M (RVec α) := do
  let sp ← dropEmpty (v.spine side)
  let v := v.withSpine side sp
  let v ← popTops (v.left.length + v.right.length + 1) v
  let r ← v.fillSpine side
  let v ← (if r.1 then do
      let v ← r.2.fixupSpineTops
      v.emptyLeaf side
    else .ok r.2)
  v.fixupSpineTops

/-- The cut itself, `src/vector.rs:1237-1269`: `self` and the result before they are repaired. -/
def cut (v : RVec α) (position : Option (Side × Nat)) (subposition at' : Nat) :
    M (RVec α × RVec α) := do
  let rest ← usub v.len at'
  match position with
  | some (.front, p) => do
    let node ← unwrap v.left[p]?
    let r ← node.splitAtPosition subposition
    .ok ({ left := v.left.take p, right := [], root := r.1, len := at' },
      { left := r.2 :: v.left.drop (p + 1), right := v.right, root := v.root, len := rest })
  | none => do
    let r ← v.root.splitAtPosition subposition
    .ok ({ left := v.left, right := [], root := r.1, len := at' },
      { left := [], right := v.right, root := r.2, len := rest })
  | some (.back, p) => do
    let node ← unwrap v.right[p]?
    let r ← node.splitAtPosition subposition
    .ok ({ left := v.left, right := r.1 :: v.right.drop (p + 1), root := v.root, len := at' },
      { left := [], right := v.right.take p ++ [r.2], root := Node.emptyLeaf, len := rest })

/-- `split_off`, `src/vector.rs:1227-1336`. Returns `self` and the result. -/
def splitOff (v : RVec α) (at' : Nat) : M (RVec α × RVec α) :=
  if at' == 0 then .ok (RVec.new, v)
  else if at' ≥ v.len then .ok (v, RVec.new)
  else do
    let p ← unwrap (← v.findNodeInfoForIndex at')
    let c ← v.cut p.1 p.2 at'
    let a ← c.1.repair .back
    let b ← c.2.repair .front
    .ok (a, b)

/-- `slice_from_start`, `src/vector.rs:1130-1140`. -/
def sliceFromStart (v : RVec α) (len : Nat) : M (RVec α) := do
  let r ← v.splitOff len
  .ok r.1

/-- `slice_to_end`, `src/vector.rs:1153-1165`. -/
def sliceToEnd (v : RVec α) (start : Nat) : M (RVec α) := do
  let r ← v.splitOff start
  .ok r.2

/-- The start of a range, as in `src/vector.rs:1169-1173` and in `arbitrary_range_to_range`,
`:1401-1405`. -/
def rangeStart : Bound → M Nat
  | .unbounded => .ok 0
  | .included x => .ok x
  | .excluded x => uadd x 1

/-- The end of a range, as in `src/vector.rs:1174-1178` and in `arbitrary_range_to_range`,
`:1406-1410`. -/
def rangeEnd (len : Nat) : Bound → M Nat
  | .unbounded => .ok len
  | .included x => uadd x 1
  | .excluded x => .ok x

/-- `extract_slice`, `src/vector.rs:1168-1184`. Returns `self` and the slice. -/
def extractSlice (v : RVec α) (startBound endBound : Bound) : M (RVec α × RVec α) := do
  let start ← rangeStart startBound
  let stop ← rangeEnd v.len endBound
  let a ← v.splitOff stop
  let b ← a.1.splitOff start
  let v ← b.1.append a.2
  .ok (v, b.2)

/-- `insert`, `src/vector.rs:1370-1375`. -/
def insert (v : RVec α) (index : Nat) (element : α) : M (RVec α) := do
  let r ← v.splitOff index
  let v ← r.1.pushBack element
  v.append r.2

/-- `remove`, `src/vector.rs:2042-2052`. Returns the item and the vector. -/
def remove (v : RVec α) (index : Nat) : M (Option α × RVec α) :=
  if index < v.len then do
    let r ← v.splitOff index
    let q ← r.2.popFront
    let v ← r.1.append q.2
    .ok (q.1, v)
  else .ok (none, v)

/-- The loop of `constant_vec_of_length`, `src/vector.rs:455-460`; returns `store`. The first
argument bounds the number of iterations. -/
def constantLoop : Nat → Nat → RVec α → RVec α → M (RVec α)
  | 0, len, store, acc => if acc.len ≤ len then .error .diverge else .ok store
  | fuel + 1, len, store, acc =>
    if acc.len ≤ len then do
      let store ← (if len &&& acc.len != 0 then store.append acc else .ok store)
      let acc ← acc.append acc
      constantLoop fuel len store acc
    else .ok store

/-- `constant_vec_of_length`, `src/vector.rs:452-462`. The accumulator doubles in each round and
its length is a `usize`, so 64 rounds are enough unless the code diverges. -/
def constantVecOfLength (item : α) (len : Nat) : M (RVec α) := do
  let acc ← RVec.singleton item
  constantLoop 64 len RVec.new acc

/-- Invariant 2 for one spine, `src/vector.rs:2170-2175`. -/
def checkFree (sp : List (Node α)) : M Unit :=
  sp.tail.forM fun nd => do
    let free ← nd.freeSlots
    massert (decide (free ≥ 1))

/-- Invariant 3 for one spine, `src/vector.rs:2179-2184`. -/
def checkHead : List (Node α) → M Unit
  | [] => .ok ()
  | leaf :: _ => massert (decide (leaf.slots ≥ 1))

/-- Invariant 4, `src/vector.rs:2188-2190`. -/
def checkRoot (v : RVec α) : M Unit :=
  if !v.root.isLeaf then do
    let free ← v.root.freeSlots
    massert (decide (free ≥ 2))
  else .ok ()

/-- Invariant 5, `src/vector.rs:2196-2217`. -/
def checkTops (v : RVec α) : M Unit := do
  let e ← v.root.isEmpty
  if e && !v.root.isLeaf then do
    let l ← unwrap v.left.getLast?
    let r ← unwrap v.right.getLast?
    let difference := if l.slots > r.slots then l.slots - r.slots else r.slots - l.slots
    massert (decide (difference ≤ 1))
    let minChildren := if v.root.level == 1 then RRB_WIDTH else RRB_WIDTH - 2
    massert (decide (l.slots + r.slots ≥ minChildren))
  else .ok ()

/-- Invariant 6 for one spine, `src/vector.rs:2221-2228`. -/
def checkNodes (sp : List (Node α)) : M Unit :=
  sp.zipIdx.forM fun p => do
    let n ← p.1.len
    p.1.debugCheck n p.2

/-- `assert_invariants`, `src/vector.rs:2163-2237`: every `assert!` in the order of the code. -/
def assertInvariants (v : RVec α) : M Bool := do
  massert (v.left.length == v.right.length)
  checkFree v.left
  checkFree v.right
  checkHead v.left
  checkHead v.right
  v.checkRoot
  v.checkTops
  checkNodes v.left
  let n ← v.root.len
  v.root.debugCheck n v.left.length
  checkNodes v.right
  let ls ← v.left.mapM Node.len
  let rs ← v.right.mapM Node.len
  massert (v.len == ls.sum + n + rs.sum)
  .ok true

end RVec
end Librrb
