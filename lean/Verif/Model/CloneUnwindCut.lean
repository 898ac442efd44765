import Verif.Model.CloneUnwind

/-!
# Model of cutting, joining and borrowing with items whose `Clone` panics, `src/vector.rs`

The functions of `Verif/Model/Vector.lean` that cut and join vectors, and those that borrow an item, with the vector that
is left behind at each `load_mut` of a leaf, as in `Verif/Model/CloneUnwind.lean`. Only what differs from there is
commented on.

Simplifications. Those of `Verif/Model/CloneUnwind.lean`. Where the code borrows leaves that the same call has borrowed
before, so that they have one owner, the borrow is left out if the comment says so.
-/
namespace Librrb

/-- A call on a local variable: while it runs, `w` is in the place of the vector. -/
def leaving (w : RVec α) (m : CM γ α τ) : CM γ α τ := fun g =>
  match m g with
  | (.error (.unwound _), g) => (.error (.unwound w), g)
  | r => r

namespace Node

/-- `split_at_position`, `src/node_traits.rs:545-554`, `src/node_impls/basic.rs:840-863`; see `splitAtPositionAux`.
`left` is what is in the place of the vector when the given node is in the place of `self`. While a child is cut, the
first part of the children is there (`:848`). -/
def splitAtPositionAuxC (cp : Copier γ α) : Nat → (Node α → RVec α) → Node α → Nat → CM γ α (Node α × Node α)
  | 0, _, _, _ => steady (.error .diverge)
  | _ + 1, left, .leaf b, position => do
    cp.touch (left (.leaf b)) (.leaf b)
    steady ((Node.leaf b).splitAtChild position)
  | fuel + 1, left, .internal s t c, originalPosition => do
    let originalLen ← steady (Node.internal s t c).len
    steady (massert (decide (originalPosition ≤ originalLen)))
    let info ← steady (s.positionInfoFor originalPosition)
    let p ← steady (unwrap info)
    let r ← steady ((Node.internal s t c).splitAtChild p.1)
    let q ← steady (r.2.popChild .front)
    let nextLen ← steady q.1.len
    let fin ←
      (if p.2 == 0 then do
        let result ← steady (q.2.pushChild .front q.1)
        pure (r.1, result)
      else if p.2 == nextLen then do
        let self ← steady (r.1.pushChild .back q.1)
        pure (self, q.2)
      else do
        let sub ← splitAtPositionAuxC cp fuel (fun _ => left r.1) q.1 p.2
        let self ← steady (r.1.pushChild .back sub.1)
        let result ← steady (q.2.pushChild .front sub.2)
        pure (self, result))
    steady (fin.1.debugCheckAux (cp.more + (fin.1.level + 1)) originalPosition fin.1.level)
    let d ← steady (usub originalLen originalPosition)
    steady (fin.2.debugCheckAux (cp.more + (fin.2.level + 1)) d fin.2.level)
    pure fin

/-- `split_at_position`; see `splitAtPosition`. -/
def splitAtPositionC (cp : Copier γ α) (left : Node α → RVec α) (nd : Node α) (position : Nat) :
    CM γ α (Node α × Node α) :=
  splitAtPositionAuxC cp (cp.more + (nd.level + 1)) left nd position

/-- The loop of `pack_children`, `src/node_impls/basic.rs:648-667`, `:678-697`; see `packLoop`. To move items, `read` is
borrowed before `write` (`:684-685`). -/
def packLoopC (cp : Copier γ α) (left : RVec α) : Nat → Nat → Nat → CB (Node α) → CM γ α (CB (Node α))
  | 0, _, readPosition, children =>
    if readPosition < children.len then steady (.error .diverge) else pure children
  | fuel + 1, writePosition, readPosition, children =>
    if readPosition < children.len then
      if readPosition == writePosition then packLoopC cp left fuel writePosition (readPosition + 1) children
      else do
        let p ← steady (children.pairMut writePosition readPosition)
        let write ← steady (readSlot children.data p.1)
        let read ← steady (readSlot children.data p.2)
        cp.touch left read
        cp.touch left write
        let r ← steady (read.shareChildrenWith write .front RRB_WIDTH)
        let data ← steady (assignSlot children.data p.1 r.2.2)
        let data ← steady (assignSlot data p.2 r.2.1)
        let full ← steady r.2.2.isFull
        let empty ← steady r.2.1.isEmpty
        packLoopC cp left fuel (if full then writePosition + 1 else writePosition)
          (if empty then readPosition + 1 else readPosition) { children with data := data }
    else pure children

/-- `pack_children`, `src/node_impls/basic.rs:634-715`; see `packChildren`. The node is in a local variable. -/
def packChildrenC (cp : Copier γ α) (left : RVec α) : Node α → CM γ α (Node α)
  | .leaf _ => steady (.error .panic)
  | .internal s t c => do
    let e ← steady (Node.internal s t c).isEmpty
    if e then pure (.internal s t c)
    else do
      steady (massert ((s.level == 1) == (t == .leaves)))
      steady (massert (c.len == s.len))
      let c ← packLoopC cp left (cp.more + 2 * c.len) 0 1 c
      let c ← steady (packTrim (c.len + 1) c)
      let s ← steady (c.foldIter (fun (s : SizeTable) (child : Node α) => do
        let n ← child.len
        s.pushChild .back n) (SizeTable.new s.level))
      steady (massert ((s.level == 1) == (t == .leaves)))
      steady (massert (c.len == s.len))
      pure (.internal s t c)

/-- The `load_mut` of the leaf in which `get_mut` (`src/node_traits.rs:436-441`, `src/node_impls/basic.rs:525-534`) finds the
item; see `setAux`. On the way down nodes that are not leaves are cloned, without a change to what they hold. -/
def touchAux (cp : Copier γ α) (left : RVec α) : Nat → Node α → Nat → CM γ α Unit
  | 0, _, _ => steady (.error .diverge)
  | _ + 1, .leaf b, _ => cp.touch left (.leaf b)
  | fuel + 1, .internal s _ c, idx => do
    let p ← steady (s.positionInfoFor idx)
    match p with
    | some (arrayIdx, newIdx) => do
      let slot ← steady (c.get arrayIdx)
      let child ← steady (unwrap slot)
      touchAux cp left fuel child newIdx
    | none => pure ()

end Node

namespace RVec

/-- `get_mut`, `src/vector.rs:888-899`, and an assignment; see `set`. -/
def setC (cp : Copier γ α) (v : RVec α) (idx : Nat) (x : α) : CM γ α (Option (RVec α)) := do
  let p ← steady (v.findNodeInfoForIndex idx)
  match p with
  | some (pos, sub) => do
    let nd ← steady (v.nodeAt pos)
    nd.touchAux cp v (cp.more + (nd.level + 1)) sub
    let r ← steady (nd.setAux (cp.more + (nd.level + 1)) sub x)
    let nd ← steady (unwrap r)
    pure (some (v.withNodeAt pos nd))
  | none => pure none

/-- `front_mut` and `back_mut`, `src/vector.rs:834-837`, `:868-871`, and an assignment; see `setFrontBack`. -/
def setFrontBackC (cp : Copier γ α) (v : RVec α) (side : Side) (x : α) : CM γ α (Option (RVec α)) := do
  cp.touch v (v.leafNode side)
  steady (v.setFrontBack side x)

/-- `fill_spine`, `src/vector.rs:1338-1357`; see `fillSpine`. -/
def fillSpineMore (v : RVec α) (more : Nat) (side : Side) : M (Bool × RVec α) := do
  let r ← fillLoop side (more + (((v.spine side).head?.getD v.root).level + 1)) (v.spine side) v.root
  .ok (r.1 && !r.2.1.isEmpty, ({ v with root := r.2.2 }).withSpine side r.2.1)

/-- What `split_off` does to a part after cutting, `src/vector.rs:1271-1301`, `:1303-1333`; see `repair`. -/
def repairC (cp : Copier γ α) (v : RVec α) (side : Side) : CM γ α (RVec α) := do
  let sp ← steady (dropEmpty (v.spine side))
  let v := v.withSpine side sp
  let v ← steady (popTops (v.left.length + v.right.length + 1) v)
  let r ← steady (v.fillSpineMore cp.more side)
  let v ← (if r.1 then do
      let v ← r.2.fixupSpineTopsC cp
      v.emptyLeafC cp side
    else pure r.2)
  v.fixupSpineTopsC cp

/-- The cut itself, `src/vector.rs:1237-1269`; see `cut`. The node of a spine is taken off it before it is cut (`:1243-1244`,
`:1259-1261`), with those above it or below it, and the right spine before the root is cut (`:1254`); `len` is written at
the end (`:1269`). -/
def cutC (cp : Copier γ α) (v : RVec α) (position : Option (Side × Nat)) (subposition at' : Nat) :
    CM γ α (RVec α × RVec α) := do
  let rest ← steady (usub v.len at')
  match position with
  | some (.front, p) => do
    let node ← steady (unwrap v.left[p]?)
    let r ← node.splitAtPositionC cp (fun _ => { v with left := v.left.take p }) subposition
    pure ({ left := v.left.take p, right := [], root := r.1, len := at' },
      { left := r.2 :: v.left.drop (p + 1), right := v.right, root := v.root, len := rest })
  | none => do
    let r ← v.root.splitAtPositionC cp (fun root => { v with right := [], root := root }) subposition
    pure ({ left := v.left, right := [], root := r.1, len := at' },
      { left := [], right := v.right, root := r.2, len := rest })
  | some (.back, p) => do
    let node ← steady (unwrap v.right[p]?)
    let r ← node.splitAtPositionC cp (fun _ => { v with right := v.right.drop (p + 1) }) subposition
    pure ({ left := v.left, right := r.1 :: v.right.drop (p + 1), root := v.root, len := at' },
      { left := [], right := v.right.take p ++ [r.2], root := Node.emptyLeaf, len := rest })

/-- `split_off`, `src/vector.rs:1227-1336`; see `splitOff`. The second part is in a local variable until the end. -/
def splitOffC (cp : Copier γ α) (v : RVec α) (at' : Nat) : CM γ α (RVec α × RVec α) :=
  if at' == 0 then pure (RVec.new, v)
  else if at' ≥ v.len then pure (v, RVec.new)
  else do
    let info ← steady (v.findNodeInfoForIndex at')
    let p ← steady (unwrap info)
    let c ← v.cutC cp p.1 p.2 at'
    let a ← c.1.repairC cp .back
    let b ← leaving a (c.2.repairC cp .front)
    pure (a, b)

/-- `slice_from_start`, `src/vector.rs:1130-1140`. -/
def sliceFromStartC (cp : Copier γ α) (v : RVec α) (len : Nat) : CM γ α (RVec α) := do
  let r ← v.splitOffC cp len
  pure r.1

/-- `slice_to_end`, `src/vector.rs:1153-1165`. -/
def sliceToEndC (cp : Copier γ α) (v : RVec α) (start : Nat) : CM γ α (RVec α) := do
  let r ← v.splitOffC cp start
  pure r.2

/-- `src/vector.rs:978-989`; see `raiseSelf`. The new root is in the place of the old one before the children are shared
(`:984`), and the halves are pushed to the spines afterwards (`:987-988`). -/
def raiseSelfC (cp : Copier γ α) : Nat → Nat → RVec α → CM γ α (RVec α)
  | 0, target, v => if v.right.length < target then steady (.error .diverge) else pure v
  | fuel + 1, target, v =>
    if v.right.length < target then do
      let newRoot ← steady (Node.emptyInternal (v.root.level + 1))
      let r ← cp.share { v with root := newRoot } v.root v.root.newEmpty .back (v.root.slots / 2)
      raiseSelfC cp fuel target { v with
        root := newRoot, left := v.left ++ [r.2.1], right := v.right ++ [r.2.2] }
    else pure v

/-- `src/vector.rs:991-1002`; see `raiseOther`. `other` is an argument, `left` is in the place of the vector. -/
def raiseOtherC (cp : Copier γ α) (left : RVec α) : Nat → Nat → RVec α → CM γ α (RVec α)
  | 0, target, v => if v.left.length < target then steady (.error .diverge) else pure v
  | fuel + 1, target, v =>
    if v.left.length < target then do
      let newRoot ← steady (Node.emptyInternal (v.root.level + 1))
      let r ← cp.share left v.root v.root.newEmpty .front (v.root.slots / 2)
      raiseOtherC cp left fuel target { v with
        root := newRoot, left := v.left ++ [r.2.2], right := v.right ++ [r.2.1] }
    else pure v

/-- `src/vector.rs:1043-1053`; see `stealLoop`. -/
def stealLoopC (cp : Copier γ α) (left : RVec α) : Nat → Node α → Node α → CM γ α (Node α × Node α)
  | 0, lrm, right => do
    let full ← steady lrm.isFull
    let e ← steady right.isEmpty
    if !full && !e then steady (.error .diverge) else pure (lrm, right)
  | fuel + 1, lrm, right => do
    let full ← steady lrm.isFull
    let e ← steady right.isEmpty
    if !full && !e then do
      let p ← steady (right.popChild .front)
      let r ← cp.share left p.1 lrm .front p.1.slots
      let e ← steady r.2.1.isEmpty
      let right ← (if !e then steady (p.2.pushChild .front r.2.1) else pure p.2)
      stealLoopC cp left fuel r.2.2 right
    else pure (lrm, right)

/-- The merging of two nodes of the same level, `src/vector.rs:1038-1057`; see `joinLevel`. At the end children are moved
from one node to the other, which does not borrow a leaf. -/
def joinLevelC (cp : Copier γ α) (w : RVec α) (left right : Node α) : CM γ α (Node α × Node α) := do
  let left ← left.packChildrenC cp w
  let p ← steady (left.popChild .back)
  let r ← stealLoopC cp w (cp.more + (right.slots + 1)) p.1 right
  let left ← steady (p.2.pushChild .back r.1)
  let right ← r.2.packChildrenC cp w
  let q ← steady (right.shareChildrenWith left .front right.slots)
  pure (q.2.2, q.2.1)

/-- The main loop of `append`, `src/vector.rs:1034-1076`; see `appendLoop`. The node of the right spine is taken off it
(`:1035`), and the spine is upside down (`:1010`); `put` is what is in the place of the vector with the given right spine and root. -/
def appendLoopC (cp : Copier γ α) (put : List (Node α) → Node α → RVec α) :
    Nat → List (Node α) → List (Node α) → Node α → Node α → CM γ α (Node α × Node α)
  | _, [], ol, root, oroot => do
    steady (massert ol.isEmpty)
    pure (root, oroot)
  | 0, _ :: _, _, _, _ => steady (.error .diverge)
  | n + 1, l :: ls, ol, root, oroot => do
    let q ← steady (unwrap ol.head?)
    let j ← joinLevelC cp (put ls.reverse root) l q
    let r ← steady (pushUp .back j.1 ls root)
    let s ← steady (pushUp .front j.2 ol.tail oroot)
    appendLoopC cp put n r.1 s.1 r.2 s.2

/-- `append` after the early exits, `src/vector.rs:975-1100`; see `appendMain`. The right spine of the other vector is taken
over before the roots are joined (`:1080`). If they are leaves, both are borrowed then (`:1082-1084`), so the borrows at
`:1086-1089` clone nothing and are left out; so are those of `fixup_spine_tops` at the end (`:1100`), where, if the root is
empty, the tops are the two roots. -/
def appendMainC (cp : Copier γ α) (v other : RVec α) : CM γ α (RVec α) := do
  let newLen ← steady (uadd v.len other.len)
  let v ← raiseSelfC cp other.left.length other.left.length v
  let other ← raiseOtherC cp v v.right.length v.right.length other
  steady (massert (other.left.length == other.right.length))
  steady (massert (v.right.length == other.left.length))
  let r ← steady (firstUp .back v.right v.root)
  let s ← steady (firstUp .front other.left other.root)
  let roots ← appendLoopC cp (fun right root => { v with right := right, root := root }) r.1.length r.1 s.1 r.2 s.2
  let q ← cp.share { v with right := other.right, root := roots.1 } roots.2 roots.1 .front RRB_WIDTH
  let free ← steady q.2.2.freeSlots
  let p ← steady (if free < 2 then do
      let t ← q.2.2.shareChildrenWith q.2.1 .back 1
      .ok (t.2.1, t.2.2)
    else .ok (q.2.2, q.2.1))
  let e ← steady p.2.isEmpty
  let v ← steady (if !e then do
      let newRoot ← Node.emptyInternal (p.1.level + 1)
      .ok { left := v.left ++ [p.1], right := other.right ++ [p.2], root := newRoot, len := newLen }
    else .ok { left := v.left, right := other.right, root := p.1, len := newLen })
  steady (fixupSpineTops v)

/-- `append`, `src/vector.rs:929-1101`; see `append`. The one item of `self` is popped before it is pushed to the other
vector (`:966`). -/
def appendC (cp : Copier γ α) (v other : RVec α) : CM γ α (RVec α) :=
  if v.isEmpty then pure other
  else if other.isEmpty then pure v
  else if v.len == 1 then do
    let r ← v.popBackC cp
    let x ← steady (unwrap r.1)
    leaving r.2 (other.pushFrontC cp x)
  else if other.len == 1 then do
    let r ← leaving v (other.popBackC cp)
    let x ← steady (unwrap r.1)
    v.pushBackC cp x
  else appendMainC cp v other

/-- `prepend`, `src/vector.rs:1114-1117`: the vectors are swapped first. -/
def prependC (cp : Copier γ α) (v other : RVec α) : CM γ α (RVec α) := other.appendC cp v

/-- `extract_slice`, `src/vector.rs:1168-1184`; see `extractSlice`. -/
def extractSliceC (cp : Copier γ α) (v : RVec α) (startBound endBound : Bound) : CM γ α (RVec α × RVec α) := do
  let start ← steady (rangeStart startBound)
  let stop ← steady (rangeEnd v.len endBound)
  let a ← v.splitOffC cp stop
  let b ← a.1.splitOffC cp start
  let v ← b.1.appendC cp a.2
  pure (v, b.2)

/-- `insert`, `src/vector.rs:1370-1375`; see `insert`. -/
def insertC (cp : Copier γ α) (v : RVec α) (index : Nat) (element : α) : CM γ α (RVec α) := do
  let r ← v.splitOffC cp index
  let v ← r.1.pushBackC cp element
  v.appendC cp r.2

/-- `remove`, `src/vector.rs:2042-2052`; see `remove`. -/
def removeC (cp : Copier γ α) (v : RVec α) (index : Nat) : CM γ α (Option α × RVec α) :=
  if index < v.len then do
    let r ← v.splitOffC cp index
    let q ← leaving r.1 (r.2.popFrontC cp)
    let v ← r.1.appendC cp q.2
    pure (q.1, v)
  else pure (none, v)

end RVec
end Librrb
