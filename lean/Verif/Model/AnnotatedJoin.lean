import Verif.Model.Annotated

/-!
# Splitting and joining vectors of nodes that cache their sums

The rest of `src/node_impls/annotated_basic.rs` that `append`, `split_off` and the calls made of them
need, and these calls, word for word as in `Verif/Model/Vector.lean`, for these nodes.
-/
namespace Librrb

namespace ANode

/-- `NodeRc::is_full`, `src/node_traits.rs:407-412`, `:64-66`, `:260-262`. -/
def isFull (nd : ANode) : M Bool := do
  let n ← nd.freeSlots
  .ok (n == 0)

/-- The packing loop of `Internal::pack_children`, `src/node_impls/annotated_basic.rs:907-926` and
`:937-956` (the same for both arms). The first argument bounds the number of iterations. -/
def packLoop : Nat → Nat → Nat → CB ANode → M (CB ANode)
  | 0, _, readPosition, children =>
    if readPosition < children.len then .error .diverge else .ok children
  | fuel + 1, writePosition, readPosition, children =>
    if readPosition < children.len then
      if readPosition == writePosition then packLoop fuel writePosition (readPosition + 1) children
      else do
        let p ← children.pairMut writePosition readPosition
        let write ← readSlot children.data p.1
        let read ← readSlot children.data p.2
        let r ← read.shareChildrenWith write .front RRB_WIDTH
        let data ← assignSlot children.data p.1 r.2.2
        let data ← assignSlot data p.2 r.2.1
        let full ← r.2.2.isFull
        let empty ← r.2.1.isEmpty
        packLoop fuel (if full then writePosition + 1 else writePosition)
          (if empty then readPosition + 1 else readPosition) { children with data := data }
    else .ok children

/-- `while children.back().unwrap().load().is_empty() { children.pop_back(); }`,
`src/node_impls/annotated_basic.rs:927-929` and `:958-960`. -/
def packTrim : Nat → CB ANode → M (CB ANode)
  | 0, _ => .error .diverge
  | fuel + 1, children => do
    let last ← unwrap (← children.back)
    let e ← last.isEmpty
    if e then do
      let r ← children.popBack
      packTrim fuel r.2
    else .ok children

/-- `Internal::pack_children`, `src/node_impls/annotated_basic.rs:893-974`. The cached sum of the node is
not touched. -/
def packChildren (nd : ANode) : M ANode :=
  match nd with
  | .leaf _ _ => .error .panic
  | .internal s t c sum => do
    let e ← (ANode.internal s t c sum).isEmpty
    if e then .ok (.internal s t c sum)
    else do
      massert ((s.level == 1) == (t == .leaves))
      massert (c.len == s.len)
      let c ← packLoop (2 * c.len) 0 1 c
      let c ← packTrim (c.len + 1) c
      let s ← c.foldIter (fun (s : SizeTable) (child : ANode) => do
        let n ← child.len
        s.pushChild .back n) (SizeTable.new s.level)
      massert ((s.level == 1) == (t == .leaves))
      massert (c.len == s.len)
      .ok (.internal s t c sum)

/-- `LeafTrait::debug_check_invariants` (`src/node_traits.rs:121-124`),
`Internal::debug_check_invariants` (`src/node_impls/annotated_basic.rs:1159-1186`),
`NodeRc::debug_check_invariants` (`src/node_traits.rs:558-567`). The sums are not checked. -/
def debugCheckAux : Nat → ANode → Nat → Nat → M Unit
  | 0, _, _, _ => .error .diverge
  | _ + 1, .leaf b _, reportedSize, reportedLevel => do
    massert (reportedSize == b.len)
    massert (reportedLevel == 0)
  | fuel + 1, .internal s _ c _, reportedSize, reportedLevel => do
    massert (reportedLevel == s.level)
    massert (c.len == s.len)
    let r ← c.foldIter (fun (st : Nat × Nat) (child : ANode) => do
      let childSize ← unwrap (← s.getChildSize st.1)
      let lv ← usub reportedLevel 1
      debugCheckAux fuel child childSize lv
      .ok (st.1 + 1, st.2 + childSize)) (0, 0)
    massert (r.2 == reportedSize)

/-- `NodeRc::debug_check_invariants`; see `debugCheckAux`. -/
def debugCheck (nd : ANode) (reportedSize reportedLevel : Nat) : M Unit :=
  debugCheckAux (nd.level + 1) nd reportedSize reportedLevel

/-- The loop of `Leaf::split`, `src/node_impls/annotated_basic.rs:248-251`, on `self` and `other`. -/
def splitLoop : Nat → ANode → ANode → M (ANode × ANode)
  | 0, nd, o => .ok (nd, o)
  | n + 1, nd, o => do
    let r ← nd.leafPop .front
    let o ← o.leafPush .back r.1
    splitLoop n r.2 o

/-- `Leaf::split`, `src/node_impls/annotated_basic.rs:245-256`, and `Internal::split_at_child`, `:1101-1111`,
through `NodeRc::split_at_child`, `src/node_traits.rs:534-543`. Returns what `self` becomes (the
first part) and the returned node (the rest). -/
def splitAtChild (nd : ANode) (idx : Nat) : M (ANode × ANode) :=
  match nd with
  | .leaf b sum =>
    if idx ≤ b.len then do
      let r ← splitLoop idx (.leaf b sum) emptyLeaf
      .ok (r.2, r.1)
    else .error .panic
  | .internal s t c sum =>
    if idx ≤ c.len then do
      let r ← (ANode.internal s t c sum).shareChildrenWith (ANode.internal s t c sum).newEmpty .front idx
      .ok (r.2.2, r.2.1)
    else .error .panic

/-- `NodeRc::split_at_position`, `src/node_traits.rs:545-554`, and
`Internal::split_at_position`, `src/node_impls/annotated_basic.rs:1113-1137`. Returns what `self` becomes
and the returned node. The first argument bounds the depth. -/
def splitAtPositionAux : Nat → ANode → Nat → M (ANode × ANode)
  | 0, _, _ => .error .diverge
  | _ + 1, .leaf b sum, position => (ANode.leaf b sum).splitAtChild position
  | fuel + 1, .internal s t c sum, originalPosition => do
    let originalLen ← (ANode.internal s t c sum).len
    massert (decide (originalPosition ≤ originalLen))
    let p ← unwrap (← s.positionInfoFor originalPosition)
    let r ← (ANode.internal s t c sum).splitAtChild p.1
    let q ← r.2.popChild .front
    let nextLen ← q.1.len
    let fin ←
      (if p.2 == 0 then do
        let result ← q.2.pushChild .front q.1
        .ok (r.1, result)
      else if p.2 == nextLen then do
        let self ← r.1.pushChild .back q.1
        .ok (self, q.2)
      else do
        let sub ← splitAtPositionAux fuel q.1 p.2
        let self ← r.1.pushChild .back sub.1
        let result ← q.2.pushChild .front sub.2
        .ok (self, result))
    fin.1.debugCheck originalPosition fin.1.level
    let d ← usub originalLen originalPosition
    fin.2.debugCheck d fin.2.level
    .ok fin

/-- `NodeRc::split_at_position`; see `splitAtPositionAux`. -/
def splitAtPosition (nd : ANode) (position : Nat) : M (ANode × ANode) :=
  splitAtPositionAux (nd.level + 1) nd position

end ANode

namespace AVec

/-- `is_empty`, `src/vector.rs:490-492`. -/
def isEmpty (v : AVec) : Bool := v.len == 0

/-- `singleton`, `src/vector.rs:445-449`. -/
def singleton (item : Nat) : M AVec := AVec.new.pushBack item

/-- `LeafTrait::front` and `back`, `src/node_traits.rs:72-79`: entry `0`, entry
`len().saturating_sub(1)`; behind `leaf_ref`, which panics when the node is not a leaf. -/
def leafEnd (side : Side) : ANode → M (Option Nat)
  | .leaf b _ =>
    match side with
    | .front => b.get 0
    | .back => b.get (b.len - 1)
  | .internal _ _ _ _ => .error .panic

/-- `front` and `back`, `src/vector.rs:817-820`, `:851-854`. -/
def frontBack (v : AVec) (side : Side) : M (Option Nat) := leafEnd side (v.leafNode side)

/-- `LeafTrait::front_mut` and `back_mut`, `src/node_traits.rs:88-95`, and an assignment. -/
def setLeafEnd (side : Side) (x : Nat) : ANode → M (Option ANode)
  | .leaf b m => do
    let r ← (match side with
      | .front => b.set 0 x
      | .back => b.set (b.len - 1) x)
    .ok (r.map fun b => .leaf b m)
  | .internal _ _ _ _ => .error .panic

/-- `front_mut` and `back_mut`, `src/vector.rs:834-837`, `:868-871`, followed by an assignment of
`x` through the returned reference; `none` when the code returns `None`. -/
def setFrontBack (v : AVec) (side : Side) (x : Nat) : M (Option (AVec)) := do
  let r ← setLeafEnd side x (v.leafNode side)
  match r with
  | some nd => .ok (some (v.withLeafNode side nd))
  | none => .ok none

/-- `while self.right_spine.len() < other.left_spine.len()`, `src/vector.rs:978-989`; `target` is
`other.left_spine.len()`. The first argument bounds the number of iterations. -/
def raiseSelf : Nat → Nat → AVec → M AVec
  | 0, target, v => if v.right.length < target then .error .diverge else .ok v
  | fuel + 1, target, v =>
    if v.right.length < target then do
      let newRoot ← ANode.emptyInternal (v.root.level + 1)
      let r ← v.root.shareChildrenWith v.root.newEmpty .back (v.root.slots / 2)
      raiseSelf fuel target { v with
        root := newRoot, left := v.left ++ [r.2.1], right := v.right ++ [r.2.2] }
    else .ok v

/-- `while other.left_spine.len() < self.right_spine.len()`, `src/vector.rs:991-1002`; `target` is
`self.right_spine.len()`. -/
def raiseOther : Nat → Nat → AVec → M AVec
  | 0, target, v => if v.left.length < target then .error .diverge else .ok v
  | fuel + 1, target, v =>
    if v.left.length < target then do
      let newRoot ← ANode.emptyInternal (v.root.level + 1)
      let r ← v.root.shareChildrenWith v.root.newEmpty .front (v.root.slots / 2)
      raiseOther fuel target { v with
        root := newRoot, left := v.left ++ [r.2.2], right := v.right ++ [r.2.1] }
    else .ok v

/-- `spine.last_mut().unwrap_or(&mut root).internal_mut().load_mut()` of a reversed spine, and
`push_child` unless the child is empty: `src/vector.rs:1012-1022`, `:1023-1033`, `:1059-1075`.
The head of the list is the lowest node, so the reversals of the code cancel out. The check made
by `internal_mut` is made only when the child is pushed. -/
def pushUp (side : Side) (child : ANode) (sp : List ANode) (root : ANode) :
    M (List ANode × ANode) := do
  let e ← child.isEmpty
  if e then .ok (sp, root)
  else
    match sp with
    | [] => do
      let root ← root.pushChild side child
      .ok ([], root)
    | p :: rest => do
      let p ← p.pushChild side child
      .ok (p :: rest, root)

/-- `while !left_right_most.is_full() && !right.is_empty()`, `src/vector.rs:1043-1053`. Returns
`left_right_most` and `right`. The first argument bounds the number of iterations. -/
def stealLoop : Nat → ANode → ANode → M (ANode × ANode)
  | 0, lrm, right => do
    let full ← lrm.isFull
    let e ← right.isEmpty
    if !full && !e then .error .diverge else .ok (lrm, right)
  | fuel + 1, lrm, right => do
    let full ← lrm.isFull
    let e ← right.isEmpty
    if !full && !e then do
      let p ← right.popChild .front
      let r ← p.1.shareChildrenWith lrm .front p.1.slots
      let e ← r.2.1.isEmpty
      let right ← (if !e then p.2.pushChild .front r.2.1 else .ok p.2)
      stealLoop fuel r.2.2 right
    else .ok (lrm, right)

/-- The merging of two nodes of the same level, `src/vector.rs:1038-1057`. -/
def joinLevel (left right : ANode) : M (ANode × ANode) := do
  let left ← left.packChildren
  let p ← left.popChild .back
  let r ← stealLoop (right.slots + 1) p.1 right
  let left ← p.2.pushChild .back r.1
  let right ← r.2.packChildren
  let q ← right.shareChildrenWith left .front right.slots
  .ok (q.2.2, q.2.1)

/-- The main loop of `append`, `src/vector.rs:1034-1076`, on the reversed spines; returns the two
roots. The first argument is the number of nodes left in the spine. -/
def appendLoop : Nat → List ANode → List ANode → ANode → ANode → M (ANode × ANode)
  | _, [], ol, root, oroot => do
    massert ol.isEmpty
    .ok (root, oroot)
  | 0, _ :: _, _, _, _ => .error .diverge
  | n + 1, l :: ls, ol, root, oroot => do
    let q ← unwrap ol.head?
    let j ← joinLevel l q
    let r ← pushUp .back j.1 ls root
    let s ← pushUp .front j.2 ol.tail oroot
    appendLoop n r.1 s.1 r.2 s.2

/-- The first step of the joining in `append`, `src/vector.rs:1010-1033`: the lowest node of a spine
moves into its parent, or the root if it was the only one; without a spine nothing happens. -/
def firstUp (side : Side) : List ANode → ANode → M (List ANode × ANode)
  | [], root => .ok ([], root)
  | child :: rest, root => pushUp side child rest root

/-- `append` after the early exits, `src/vector.rs:975-1100`. -/
def appendMain (v other : AVec) : M AVec := do
  let newLen ← uadd v.len other.len
  let v ← raiseSelf other.left.length other.left.length v
  let other ← raiseOther v.right.length v.right.length other
  massert (other.left.length == other.right.length)
  massert (v.right.length == other.left.length)
  let r ← firstUp .back v.right v.root
  let s ← firstUp .front other.left other.root
  let roots ← appendLoop r.1.length r.1 s.1 r.2 s.2
  let q ← roots.2.shareChildrenWith roots.1 .front RRB_WIDTH
  let free ← q.2.2.freeSlots
  let p ← (if free < 2 then do
      let t ← q.2.2.shareChildrenWith q.2.1 .back 1
      .ok (t.2.1, t.2.2)
    else .ok (q.2.2, q.2.1))
  let e ← p.2.isEmpty
  let v ← (if !e then do
      let newRoot ← ANode.emptyInternal (p.1.level + 1)
      .ok { left := v.left ++ [p.1], right := other.right ++ [p.2], root := newRoot, len := newLen }
    else .ok { left := v.left, right := other.right, root := p.1, len := newLen })
  fixupSpineTops v

/-- `append`, `src/vector.rs:929-1101`. -/
def append (v other : AVec) : M AVec :=
  if v.isEmpty then .ok other
  else if other.isEmpty then .ok v
  else if v.len == 1 then do
    let r ← v.popBack
    let x ← unwrap r.1
    other.pushFront x
  else if other.len == 1 then do
    let r ← other.popBack
    let x ← unwrap r.1
    v.pushBack x
  else appendMain v other

/-- `prepend`, `src/vector.rs:1114-1117`. -/
def prepend (v other : AVec) : M AVec := other.append v

/-- Removal of the empty nodes at the low end of the cut spine, `src/vector.rs:1271-1280` and
`:1303-1312` (the reversals of the code cancel out). -/
def dropEmpty : List ANode → M (List ANode)
  | [] => .ok []
  | x :: xs => do
    let e ← x.isEmpty
    if e then dropEmpty xs else .ok (x :: xs)

/-- `while self.root.is_empty() && (self.left_spine.is_empty() || self.right_spine.is_empty())`,
`src/vector.rs:1282-1295` and `:1314-1327`. The first argument bounds the number of iterations. -/
def popTops : Nat → AVec → M AVec
  | 0, v => do
    let e ← v.root.isEmpty
    if e && (v.left.isEmpty || v.right.isEmpty) then .error .diverge else .ok v
  | fuel + 1, v => do
    let e ← v.root.isEmpty
    if e && (v.left.isEmpty || v.right.isEmpty) then
      if v.left.isEmpty then do
        let node ← unwrap v.right.getLast?
        popTops fuel { v with root := node, right := v.right.dropLast }
      else do
        let node ← unwrap v.left.getLast?
        popTops fuel { v with root := node, left := v.left.dropLast }
    else .ok v

/-- The loop of `fill_spine`, `src/vector.rs:1344-1354` (the reversals of the code cancel out).
The first argument bounds the number of iterations. -/
def fillLoop (side : Side) : Nat → List ANode → ANode → M (Bool × List ANode × ANode)
  | 0, _, _ => .error .diverge
  | fuel + 1, sp, root =>
    match sp.head?.getD root with
    | .leaf b _ => .ok (b.len == 0, sp, root)
    | .internal s t c m => do
      let r ← (ANode.internal s t c m).popChild side
      match sp with
      | [] => fillLoop side fuel [r.1] r.2
      | _ :: rest => fillLoop side fuel (r.1 :: r.2 :: rest) root

/-- `fill_spine`, `src/vector.rs:1338-1357`. -/
def fillSpine (v : AVec) (side : Side) : M (Bool × AVec) := do
  let r ← fillLoop side (((v.spine side).head?.getD v.root).level + 1) (v.spine side) v.root
  .ok (r.1 && !r.2.1.isEmpty, ({ v with root := r.2.2 }).withSpine side r.2.1)

/-- What `split_off` does to each of the two parts after cutting, `src/vector.rs:1271-1301` (for
`self`, side `Back`) and `:1303-1333` (for the result, side `Front`). -/
def repair (v : AVec) (side : Side) : M AVec := do
  let sp ← dropEmpty (v.spine side)
  let v := v.withSpine side sp
  let v ← popTops (v.left.length + v.right.length + 1) v
  let r ← v.fillSpine side
  let v ← (if r.1 then do
      let v ← r.2.fixupSpineTops
      v.emptyLeaf side
    else .ok r.2)
  v.fixupSpineTops

/-- The cut itself, `src/vector.rs:1237-1269`: `self` and the result before they are repaired. -/
def cut (v : AVec) (position : Option (Side × Nat)) (subposition at' : Nat) :
    M (AVec × AVec) := do
  let rest ← usub v.len at'
  match position with
  | some (.front, p) => do
    let node ← unwrap v.left[p]?
    let r ← node.splitAtPosition subposition
    .ok ({ left := v.left.take p, right := [], root := r.1, len := at' },
      { left := r.2 :: v.left.drop (p + 1), right := v.right, root := v.root, len := rest })
  | none => do
    let r ← v.root.splitAtPosition subposition
    .ok ({ left := v.left, right := [], root := r.1, len := at' },
      { left := [], right := v.right, root := r.2, len := rest })
  | some (.back, p) => do
    let node ← unwrap v.right[p]?
    let r ← node.splitAtPosition subposition
    .ok ({ left := v.left, right := r.1 :: v.right.drop (p + 1), root := v.root, len := at' },
      { left := [], right := v.right.take p ++ [r.2], root := ANode.emptyLeaf, len := rest })

/-- `split_off`, `src/vector.rs:1227-1336`. Returns `self` and the result. -/
def splitOff (v : AVec) (at' : Nat) : M (AVec × AVec) :=
  if at' == 0 then .ok (AVec.new, v)
  else if at' ≥ v.len then .ok (v, AVec.new)
  else do
    let p ← unwrap (← v.findNodeInfoForIndex at')
    let c ← v.cut p.1 p.2 at'
    let a ← c.1.repair .back
    let b ← c.2.repair .front
    .ok (a, b)

/-- `slice_from_start`, `src/vector.rs:1130-1140`. -/
def sliceFromStart (v : AVec) (len : Nat) : M AVec := do
  let r ← v.splitOff len
  .ok r.1

/-- `slice_to_end`, `src/vector.rs:1153-1165`. -/
def sliceToEnd (v : AVec) (start : Nat) : M AVec := do
  let r ← v.splitOff start
  .ok r.2

/-- `extract_slice`, `src/vector.rs:1168-1184`. Returns `self` and the slice. -/
def extractSlice (v : AVec) (startBound endBound : Bound) : M (AVec × AVec) := do
  let start ← RVec.rangeStart startBound
  let stop ← RVec.rangeEnd v.len endBound
  let a ← v.splitOff stop
  let b ← a.1.splitOff start
  let v ← b.1.append a.2
  .ok (v, b.2)

/-- `insert`, `src/vector.rs:1370-1375`. -/
def insert (v : AVec) (index : Nat) (element : Nat) : M AVec := do
  let r ← v.splitOff index
  let v ← r.1.pushBack element
  v.append r.2

/-- `remove`, `src/vector.rs:2042-2052`. Returns the item and the vector. -/
def remove (v : AVec) (index : Nat) : M (Option Nat × AVec) :=
  if index < v.len then do
    let r ← v.splitOff index
    let q ← r.2.popFront
    let v ← r.1.append q.2
    .ok (q.1, v)
  else .ok (none, v)

/-- The loop of `constant_vec_of_length`, `src/vector.rs:455-460`; returns `store`. The first
argument bounds the number of iterations. -/
def constantLoop : Nat → Nat → AVec → AVec → M AVec
  | 0, len, store, acc => if acc.len ≤ len then .error .diverge else .ok store
  | fuel + 1, len, store, acc =>
    if acc.len ≤ len then do
      let store ← (if len &&& acc.len != 0 then store.append acc else .ok store)
      let acc ← acc.append acc
      constantLoop fuel len store acc
    else .ok store

/-- `constant_vec_of_length`, `src/vector.rs:452-462`. The accumulator doubles in each round and
its length is a `usize`, so 64 rounds are enough unless the code diverges. -/
def constantVecOfLength (item : Nat) (len : Nat) : M AVec := do
  let acc ← AVec.singleton item
  constantLoop 64 len AVec.new acc

end AVec
end Librrb
