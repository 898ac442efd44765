import Verif.Model.Heap

/-!
# Model of `InternalVector` over reference-counted nodes, `src/vector.rs`

The same functions as in `Verif/Model/Vector.lean`, on a heap (`Verif/Model/Heap.lean`), with what the code
drops and clones. Only what differs is commented on; the simplifications are those of the two files.
-/
namespace Librrb

/-- `InternalVector`, `src/vector.rs:388-396`, with nodes of type `κ`; for a vector, `κ` is `Addr`. -/
structure VecOf (κ : Type) where
  left : List κ
  right : List κ
  root : κ
  len : Nat

/-- A vector: two spines and a root that are entries. -/
abbrev HVec := VecOf Addr

namespace VecOf

/-- `spine_ref`, `src/vector.rs:2062-2067`. -/
def spine (v : VecOf κ) : Side → List κ
  | .front => v.left
  | .back => v.right

/-- The pair `(spine, other_spine)` written back, `src/vector.rs:520-523`. -/
def withSpine (v : VecOf κ) (side : Side) (sp : List κ) : VecOf κ :=
  match side with
  | .front => { v with left := sp }
  | .back => { v with right := sp }

/-- `leaf_ref`, `src/vector.rs:2070-2075`. -/
def leafNode (v : VecOf κ) (side : Side) : κ := (v.spine side).head?.getD v.root

/-- Writing back the entry obtained as in `leaf_ref`, `src/vector.rs:567-577`. -/
def withLeafNode (v : VecOf κ) (side : Side) (nd : κ) : VecOf κ :=
  match v.spine side with
  | [] => { v with root := nd }
  | _ :: rest => v.withSpine side (nd :: rest)

/-- The entry named by the result of `find_node_info_for_index`, `src/vector.rs:876-880`. -/
def nodeAt (v : VecOf κ) : Option (Side × Nat) → M κ
  | some (.front, i) => unwrap v.left[i]?
  | some (.back, i) => unwrap v.right[i]?
  | none => .ok v.root

/-- Writing back an entry named by the result of `find_node_info_for_index`, `src/vector.rs:890-894`. -/
def withNodeAt (v : VecOf κ) (pos : Option (Side × Nat)) (nd : κ) : VecOf κ :=
  match pos with
  | some (.front, i) => { v with left := v.left.set i nd }
  | some (.back, i) => { v with right := v.right.set i nd }
  | none => { v with root := nd }

/-- The entries of a vector. -/
def entries (v : VecOf κ) : List κ := v.left ++ v.right ++ [v.root]

end VecOf

namespace HVec

/-- `new`, `src/vector.rs:426-433`. -/
def new : HM α HVec := do
  let root ← alloc Body.emptyLeaf
  pure { left := [], right := [], root := root, len := 0 }

/-- `Clone::clone`, `src/vector.rs:398-411`. -/
def clone (v : HVec) : HM α HVec := do
  cloneEntries v.entries
  pure v

/-- Dropping a vector: its spines and its root are dropped. -/
def drop (v : HVec) : HM α Unit := dropEntries v.entries

/-- One round of the loop of `fixup_spine_tops`, `src/vector.rs:678-719`. In the first case the old root is
dropped by the assignment `self.root = right_spine_top`, and `left_spine_top`, which is empty now, at the end of
the block. -/
def fixupStep (v : HVec) : HM α (HVec × Bool) := do
  let leftTop ← unwrap v.left.getLast?
  let rightTop ← unwrap v.right.getLast?
  let leftChildren ← Entry.slots leftTop
  let rightChildren ← Entry.slots rightTop
  let total := leftChildren + rightChildren
  let difference := if leftChildren > rightChildren then leftChildren - rightChildren
    else rightChildren - leftChildren
  let level ← Entry.level v.root
  let minChildren := if level == 1 then RRB_WIDTH else RRB_WIDTH - 2
  if total < minChildren then do
    let r ← Entry.share leftTop rightTop .back RRB_WIDTH
    dropEntry v.root
    dropEntry r.2.1
    pure ({ v with left := v.left.dropLast, right := v.right.dropLast, root := r.2.2 }, true)
  else if difference ≥ 2 then
    if leftChildren > rightChildren then do
      let r ← Entry.share leftTop rightTop .back (difference / 2)
      pure ({ v with left := v.left.dropLast ++ [r.2.1], right := v.right.dropLast ++ [r.2.2] }, false)
    else do
      let r ← Entry.share rightTop leftTop .front (difference / 2)
      pure ({ v with left := v.left.dropLast ++ [r.2.2], right := v.right.dropLast ++ [r.2.1] }, false)
  else pure (v, false)

/-- The loop of `fixup_spine_tops`, `src/vector.rs:677-720`. -/
def fixupLoop : Nat → HVec → HM α HVec
  | 0, v => do
    let s ← Entry.slots v.root
    let l ← Entry.isLeaf v.root
    if s == 0 && !l then throw .diverge else pure v
  | fuel + 1, v => do
    let s ← Entry.slots v.root
    let l ← Entry.isLeaf v.root
    if s == 0 && !l then do
      let r ← fixupStep v
      if r.2 then fixupLoop fuel r.1 else pure r.1
    else pure v

/-- `fixup_spine_tops`, `src/vector.rs:668-721`. -/
def fixupSpineTops (v : HVec) : HM α HVec := fixupLoop (v.left.length + 1) v

/-- The loop of `complete_leaf`, `src/vector.rs:525-540`. -/
def completeLoop (side : Side) : Nat → List Addr → Addr → HM α (List Addr × Addr)
  | 0, sp, root => pure (sp, root)
  | _ + 1, [], root => pure ([], root)
  | n + 1, node :: rest, root => do
    let free ← Entry.freeSlots node
    if free != 0 then pure (node :: rest, root)
    else do
      let e ← Entry.newEmpty node
      match rest with
      | [] => do
        let root ← Entry.pushChild root side node
        pure ([e], root)
      | p :: rest => do
        let p ← Entry.pushChild p side node
        let r ← completeLoop side n (p :: rest) root
        pure (e :: r.1, r.2)

/-- `complete_leaf`, `src/vector.rs:517-559`. -/
def completeLeaf (v : HVec) (side : Side) : HM α HVec := do
  massert (v.left.length == v.right.length)
  let free ← Entry.leafFreeSpace (v.leafNode side)
  massert (free == 0)
  let r ← completeLoop side (v.spine side).length (v.spine side) v.root
  let spine := r.1
  let otherSpine := v.spine side.negate
  let slots ← Entry.slots r.2
  if slots ≥ RRB_WIDTH - 1 then do
    let level ← Entry.level r.2
    let newRoot ← Entry.emptyInternal (level + 1)
    let e ← Entry.newEmpty r.2
    let q ← Entry.share r.2 e side.negate (RRB_WIDTH / 2)
    pure ((({ v with root := newRoot }).withSpine side (spine ++ [q.2.1])).withSpine side.negate
      (otherSpine ++ [q.2.2]))
  else if slots == 0 then fixupSpineTops (({ v with root := r.2 }).withSpine side spine)
  else pure (({ v with root := r.2 }).withSpine side spine)

/-- `push_side`, `src/vector.rs:563-586`. -/
def pushSide (v : HVec) (side : Side) (item : α) : HM α HVec := do
  let free ← Entry.leafFreeSpace (v.leafNode side)
  let v ← (if free == 0 then completeLeaf v side else pure v)
  let nd ← Entry.leafPush (v.leafNode side) side item
  let len ← uadd v.len 1
  let v := { v.withLeafNode side nd with len := len }
  if (v.spine side).length == 1 then fixupSpineTops v else pure v

/-- `push_back`, `src/vector.rs:602-604`. -/
def pushBack (v : HVec) (item : α) : HM α HVec := pushSide v .back item

/-- `push_front`, `src/vector.rs:620-622`. -/
def pushFront (v : HVec) (item : α) : HM α HVec := pushSide v .front item

/-- `singleton`, `src/vector.rs:445-449`. -/
def singleton (item : α) : HM α HVec := do
  let v ← new
  pushBack v item

/-- `Extend`/`FromIterator`, `src/vector.rs:2441-2447`. -/
def pushAll (v : HVec) : List α → HM α HVec
  | [] => pure v
  | x :: xs => do
    let v ← pushBack v x
    pushAll v xs

/-- `FromIterator::from_iter`, `src/vector.rs:2441-2447`. -/
def fromIter (items : List α) : HM α HVec := do
  let v ← new
  pushAll v items

/-- The search of `empty_leaf`, `src/vector.rs:642-648`. -/
def lastEmpty : List Addr → Nat → Nat → HM α Nat
  | [], _, dflt => pure dflt
  | a :: as, i, dflt => do
    let s ← Entry.slots a
    if s != 0 then pure (i - 1) else lastEmpty as (i + 1) dflt

/-- The loop of `empty_leaf`, `src/vector.rs:654-661`; the assignment `spine[level] = child` drops what was
there. -/
def emptyLeafLoop (side : Side) : Nat → List Addr → Addr → HM α (List Addr × Addr)
  | 0, sp, root => pure (sp, root)
  | level + 1, sp, root => do
    let old ← unwrap sp[level]?
    match sp[level + 1]? with
    | some p => do
      let r ← Entry.popChild p side
      dropEntry old
      emptyLeafLoop side level ((sp.set (level + 1) r.2).set level r.1) root
    | none => do
      let r ← Entry.popChild root side
      dropEntry old
      emptyLeafLoop side level (sp.set level r.1) r.2

/-- `empty_leaf`, `src/vector.rs:625-664`. -/
def emptyLeaf (v : HVec) (side : Side) : HM α HVec := do
  massert (v.left.length == v.right.length)
  let sp := v.spine side
  let first ← unwrap sp.head?
  let firstSlots ← Entry.slots first
  massert (firstSlots == 0)
  let last ← unwrap sp.getLast?
  let rootSlots ← Entry.slots v.root
  let lastSlots ← Entry.slots last
  massert (rootSlots != 0 || lastSlots != 0)
  let dflt ← usub sp.length 1
  let n ← lastEmpty sp.tail 1 dflt
  let r ← emptyLeafLoop side (n + 1) sp v.root
  fixupSpineTops (({ v with root := r.2 }).withSpine side r.1)

/-- `pop_side`, `src/vector.rs:725-759`. -/
def popSide (v : HVec) (side : Side) : HM α (Option α × HVec) := do
  massert (v.left.length == v.right.length)
  if (v.spine side).isEmpty then do
    let e ← Entry.isEmpty v.root
    if !e then do
      let len ← usub v.len 1
      let r ← Entry.leafPop v.root side
      pure (some r.1, { v with root := r.2, len := len })
    else pure (none, v)
  else do
    let r ← Entry.leafPop (v.leafNode side) side
    let v := v.withLeafNode side r.2
    let e ← Entry.isEmpty r.2
    let v ← (if e then emptyLeaf v side
      else if (v.spine side).length == 1 then fixupSpineTops v
      else pure v)
    let len ← usub v.len 1
    pure (some r.1, { v with len := len })

/-- `pop_front`, `src/vector.rs:779-781`. -/
def popFront (v : HVec) : HM α (Option α × HVec) := popSide v .front

/-- `pop_back`, `src/vector.rs:801-803`. -/
def popBack (v : HVec) : HM α (Option α × HVec) := popSide v .back

/-- The loop of `find_node_info_for_index`, `src/vector.rs:1194-1208`. -/
def findLoop (index : Nat) : List Addr → List Addr → Nat → Nat → Nat → HM α (Option (Side × Nat) × Nat)
  | l :: ls, r :: rs, idx, forwardEnd, backwardStart => do
    let llen ← Entry.len l
    if index < forwardEnd + llen then do
      let d ← usub index forwardEnd
      pure (some (.front, idx), d)
    else do
      let rlen ← Entry.len r
      let backwardStart ← usub backwardStart rlen
      if index ≥ backwardStart then do
        let d ← usub index backwardStart
        pure (some (.back, idx), d)
      else findLoop index ls rs (idx + 1) (forwardEnd + llen) backwardStart
  | _, _, _, forwardEnd, backwardStart => do
    massert (decide (index ≥ forwardEnd) && decide (index < backwardStart))
    let d ← usub index forwardEnd
    pure (none, d)

/-- `find_node_info_for_index`, `src/vector.rs:1187-1212`. -/
def findNodeInfoForIndex (v : HVec) (index : Nat) : HM α (Option (Option (Side × Nat) × Nat)) :=
  if index ≥ v.len then pure none
  else do
    let r ← findLoop index v.left v.right 0 0 v.len
    pure (some r)

/-- `get`, `src/vector.rs:874-885`. -/
def get (v : HVec) (idx : Nat) : HM α (Option α) := do
  let p ← findNodeInfoForIndex v idx
  match p with
  | some (pos, sub) => do
    let nd ← v.nodeAt pos
    let x ← unwrap (← Entry.get nd sub)
    pure (some x)
  | none => pure none

/-- `get_mut`, `src/vector.rs:888-899`, followed by an assignment of `x` through the returned reference. The
flag tells whether the code returned `Some`. -/
def set (v : HVec) (idx : Nat) (x : α) : HM α (Bool × HVec) := do
  let p ← findNodeInfoForIndex v idx
  match p with
  | some (pos, sub) => do
    let nd ← v.nodeAt pos
    let r ← Entry.set nd sub x
    massert r.1
    pure (true, v.withNodeAt pos r.2)
  | none => pure (false, v)

/-- `front` and `back`, `src/vector.rs:817-820`, `:851-854`. -/
def frontBack (v : HVec) (side : Side) : HM α (Option α) := do
  let n ← load (v.leafNode side)
  n.leafEnd side

/-- `front_mut` and `back_mut`, `src/vector.rs:834-837`, `:868-871`, followed by an assignment. The flag tells
whether the code returned `Some`; the leaf has been made the only owner's either way. -/
def setFrontBack (v : HVec) (side : Side) (x : α) : HM α (Bool × HVec) := do
  let b ← borrow (v.leafNode side)
  let r ← b.2.setLeafEnd side x
  giveBack b.1 (r.getD b.2)
  pure (r.isSome, v.withLeafNode side b.1)

/-- `while self.right_spine.len() < other.left_spine.len()`, `src/vector.rs:978-989`. -/
def raiseSelf : Nat → Nat → HVec → HM α HVec
  | 0, target, v => if v.right.length < target then throw .diverge else pure v
  | fuel + 1, target, v =>
    if v.right.length < target then do
      let level ← Entry.level v.root
      let newRoot ← Entry.emptyInternal (level + 1)
      let e ← Entry.newEmpty v.root
      let slots ← Entry.slots v.root
      let r ← Entry.share v.root e .back (slots / 2)
      raiseSelf fuel target { v with
        root := newRoot, left := v.left ++ [r.2.1], right := v.right ++ [r.2.2] }
    else pure v

/-- `while other.left_spine.len() < self.right_spine.len()`, `src/vector.rs:991-1002`. -/
def raiseOther : Nat → Nat → HVec → HM α HVec
  | 0, target, v => if v.left.length < target then throw .diverge else pure v
  | fuel + 1, target, v =>
    if v.left.length < target then do
      let level ← Entry.level v.root
      let newRoot ← Entry.emptyInternal (level + 1)
      let e ← Entry.newEmpty v.root
      let slots ← Entry.slots v.root
      let r ← Entry.share v.root e .front (slots / 2)
      raiseOther fuel target { v with
        root := newRoot, left := v.left ++ [r.2.2], right := v.right ++ [r.2.1] }
    else pure v

/-- `src/vector.rs:1059-1075`, see `RVec.pushUp`: an empty child is dropped at the end of the block. -/
def pushUp (side : Side) (child : Addr) (sp : List Addr) (root : Addr) : HM α (List Addr × Addr) := do
  let e ← Entry.isEmpty child
  if e then do
    dropEntry child
    pure (sp, root)
  else
    match sp with
    | [] => do
      let root ← Entry.pushChild root side child
      pure ([], root)
    | p :: rest => do
      let p ← Entry.pushChild p side child
      pure (p :: rest, root)

/-- `while !left_right_most.is_full() && !right.is_empty()`, `src/vector.rs:1043-1053`. An emptied
`right_left_most` is dropped at the end of the round. -/
def stealLoop : Nat → Addr → Addr → HM α (Addr × Addr)
  | 0, lrm, right => do
    let full ← Entry.isFull lrm
    let e ← Entry.isEmpty right
    if !full && !e then throw .diverge else pure (lrm, right)
  | fuel + 1, lrm, right => do
    let full ← Entry.isFull lrm
    let e ← Entry.isEmpty right
    if !full && !e then do
      let p ← Entry.popChild right .front
      let slots ← Entry.slots p.1
      let r ← Entry.share p.1 lrm .front slots
      let e ← Entry.isEmpty r.2.1
      if !e then do
        let right ← Entry.pushChild p.2 .front r.2.1
        stealLoop fuel r.2.2 right
      else do
        dropEntry r.2.1
        stealLoop fuel r.2.2 p.2
    else pure (lrm, right)

/-- The merging of two nodes of the same level, `src/vector.rs:1038-1057`. -/
def joinLevel (left right : Addr) : HM α (Addr × Addr) := do
  let left ← loadMut left
  let right ← loadMut right
  let left ← Entry.packChildren left
  let p ← Entry.popChild left .back
  let slots ← Entry.slots right
  let r ← stealLoop (slots + 1) p.1 right
  let left ← Entry.pushChild p.2 .back r.1
  let right ← Entry.packChildren r.2
  let slots ← Entry.slots right
  let q ← Entry.share right left .front slots
  pure (q.2.2, q.2.1)

/-- The main loop of `append`, `src/vector.rs:1034-1076`. -/
def appendLoop : Nat → List Addr → List Addr → Addr → Addr → HM α (Addr × Addr)
  | _, [], ol, root, oroot => do
    massert ol.isEmpty
    pure (root, oroot)
  | 0, _ :: _, _, _, _ => throw .diverge
  | n + 1, l :: ls, ol, root, oroot => do
    let q ← unwrap ol.head?
    let j ← joinLevel l q
    let r ← pushUp .back j.1 ls root
    let s ← pushUp .front j.2 ol.tail oroot
    appendLoop n r.1 s.1 r.2 s.2

/-- The first step of the joining in `append`, `src/vector.rs:1010-1033`: here the parent is borrowed even if
the child is empty. -/
def firstUp (side : Side) : List Addr → Addr → HM α (List Addr × Addr)
  | [], root => pure ([], root)
  | [child], root => do
    let root ← loadMut root
    pushUp side child [] root
  | child :: p :: rest, root => do
    let p ← loadMut p
    pushUp side child (p :: rest) root

/-- `append` after the early exits, `src/vector.rs:975-1100`. `other.root` is dropped at the end unless it has
moved. -/
def appendMain (v other : HVec) : HM α HVec := do
  let newLen ← uadd v.len other.len
  let v ← raiseSelf other.left.length other.left.length v
  let other ← raiseOther v.right.length v.right.length other
  massert (other.left.length == other.right.length)
  massert (v.right.length == other.left.length)
  let r ← firstUp .back v.right v.root
  let s ← firstUp .front other.left other.root
  let roots ← appendLoop r.1.length r.1 s.1 r.2 s.2
  let q ← Entry.share roots.2 roots.1 .front RRB_WIDTH
  let free ← Entry.freeSlots q.2.2
  let p ← (if free < 2 then do
      let t ← Entry.share q.2.2 q.2.1 .back 1
      pure (t.2.1, t.2.2)
    else pure (q.2.2, q.2.1))
  let e ← Entry.isEmpty p.2
  if !e then do
    let level ← Entry.level p.1
    let newRoot ← Entry.emptyInternal (level + 1)
    fixupSpineTops { left := v.left ++ [p.1], right := other.right ++ [p.2], root := newRoot, len := newLen }
  else do
    let v ← fixupSpineTops { left := v.left, right := other.right, root := p.1, len := newLen }
    dropEntry p.2
    pure v

/-- `append`, `src/vector.rs:929-1101`: `other` is given away; the vector that is not used any more is
dropped. -/
def append (v other : HVec) : HM α HVec :=
  if v.len == 0 then do
    drop v
    pure other
  else if other.len == 0 then do
    drop other
    pure v
  else if v.len == 1 then do
    let r ← popBack v
    let x ← unwrap r.1
    let other ← pushFront other x
    drop r.2
    pure other
  else if other.len == 1 then do
    let r ← popBack other
    let x ← unwrap r.1
    let v ← pushBack v x
    drop r.2
    pure v
  else appendMain v other

/-- `prepend`, `src/vector.rs:1114-1117`. -/
def prepend (v other : HVec) : HM α HVec := append other v

/-- Removal of the empty nodes at the low end of the cut spine, `src/vector.rs:1271-1280` and `:1303-1312`; they
are dropped. -/
def dropEmpty : List Addr → HM α (List Addr)
  | [] => pure []
  | x :: xs => do
    let e ← Entry.isEmpty x
    if e then do
      dropEntry x
      dropEmpty xs
    else pure (x :: xs)

/-- `while self.root.is_empty() && …`, `src/vector.rs:1282-1295` and `:1314-1327`; `self.root = node` drops the
old root. -/
def popTops : Nat → HVec → HM α HVec
  | 0, v => do
    let e ← Entry.isEmpty v.root
    if e && (v.left.isEmpty || v.right.isEmpty) then throw .diverge else pure v
  | fuel + 1, v => do
    let e ← Entry.isEmpty v.root
    if e && (v.left.isEmpty || v.right.isEmpty) then
      if v.left.isEmpty then do
        let node ← unwrap v.right.getLast?
        dropEntry v.root
        popTops fuel { v with root := node, right := v.right.dropLast }
      else do
        let node ← unwrap v.left.getLast?
        dropEntry v.root
        popTops fuel { v with root := node, left := v.left.dropLast }
    else pure v

/-- The loop of `fill_spine`, `src/vector.rs:1344-1354`. -/
def fillLoop (side : Side) : Nat → List Addr → Addr → HM α (Bool × List Addr × Addr)
  | 0, _, _ => throw .diverge
  | fuel + 1, sp, root => do
    let n ← load (sp.head?.getD root)
    match n with
    | .leaf b => pure (b.len == 0, sp, root)
    | .internal _ _ _ => do
      let r ← Entry.popChild (sp.head?.getD root) side
      match sp with
      | [] => fillLoop side fuel [r.1] r.2
      | _ :: rest => fillLoop side fuel (r.1 :: r.2 :: rest) root

/-- `fill_spine`, `src/vector.rs:1338-1357`. -/
def fillSpine (v : HVec) (side : Side) : HM α (Bool × HVec) := do
  let level ← Entry.level ((v.spine side).head?.getD v.root)
  let r ← fillLoop side (level + 1) (v.spine side) v.root
  pure (r.1 && !r.2.1.isEmpty, ({ v with root := r.2.2 }).withSpine side r.2.1)

/-- What `split_off` does to each of the two parts after cutting, `src/vector.rs:1271-1333`. -/
def repair (v : HVec) (side : Side) : HM α HVec := do
  let sp ← dropEmpty (v.spine side)
  let v := v.withSpine side sp
  let v ← popTops (v.left.length + v.right.length + 1) v
  let r ← fillSpine v side
  let v ← (if r.1 then do
      let v ← fixupSpineTops r.2
      emptyLeaf v side
    else pure r.2)
  fixupSpineTops v

/-- The cut itself, `src/vector.rs:1237-1269`. `fresh` is the root of `InternalVector::new()`: in the first case
it moves to `self.root` and is dropped by `self.root = split_node`, in the second it is dropped by the
assignment to `result.root`, in the third it stays. -/
def cut (v : HVec) (position : Option (Side × Nat)) (subposition at' : Nat) : HM α (HVec × HVec) := do
  let rest ← usub v.len at'
  let fresh ← alloc Body.emptyLeaf
  match position with
  | some (.front, p) => do
    let node ← unwrap v.left[p]?
    let r ← Entry.splitAtPosition node subposition
    dropEntry fresh
    pure ({ left := v.left.take p, right := [], root := r.1, len := at' },
      { left := r.2 :: v.left.drop (p + 1), right := v.right, root := v.root, len := rest })
  | none => do
    let r ← Entry.splitAtPosition v.root subposition
    dropEntry fresh
    pure ({ left := v.left, right := [], root := r.1, len := at' },
      { left := [], right := v.right, root := r.2, len := rest })
  | some (.back, p) => do
    let node ← unwrap v.right[p]?
    let r ← Entry.splitAtPosition node subposition
    pure ({ left := v.left, right := r.1 :: v.right.drop (p + 1), root := v.root, len := at' },
      { left := [], right := v.right.take p ++ [r.2], root := fresh, len := rest })

/-- `split_off`, `src/vector.rs:1227-1336`. -/
def splitOff (v : HVec) (at' : Nat) : HM α (HVec × HVec) :=
  if at' == 0 then do
    let e ← new
    pure (e, v)
  else if at' ≥ v.len then do
    let e ← new
    pure (v, e)
  else do
    let p ← unwrap (← findNodeInfoForIndex v at')
    let c ← cut v p.1 p.2 at'
    let a ← repair c.1 .back
    let b ← repair c.2 .front
    pure (a, b)

/-- `slice_from_start`, `src/vector.rs:1130-1140`: the result of `split_off` is dropped. -/
def sliceFromStart (v : HVec) (len : Nat) : HM α HVec := do
  let r ← splitOff v len
  drop r.2
  pure r.1

/-- `slice_to_end`, `src/vector.rs:1153-1165`: the assignment drops the front part. -/
def sliceToEnd (v : HVec) (start : Nat) : HM α HVec := do
  let r ← splitOff v start
  drop r.1
  pure r.2

/-- `extract_slice`, `src/vector.rs:1168-1184`. -/
def extractSlice (v : HVec) (startBound endBound : Bound) : HM α (HVec × HVec) := do
  let start ← RVec.rangeStart startBound
  let stop ← RVec.rangeEnd v.len endBound
  let a ← splitOff v stop
  let b ← splitOff a.1 start
  let v ← append b.1 a.2
  pure (v, b.2)

/-- `insert`, `src/vector.rs:1370-1375`. -/
def insert (v : HVec) (index : Nat) (element : α) : HM α HVec := do
  let r ← splitOff v index
  let v ← pushBack r.1 element
  append v r.2

/-- `remove`, `src/vector.rs:2042-2052`. -/
def remove (v : HVec) (index : Nat) : HM α (Option α × HVec) :=
  if index < v.len then do
    let r ← splitOff v index
    let q ← popFront r.2
    let v ← append r.1 q.2
    pure (q.1, v)
  else pure (none, v)

/-- The loop of `constant_vec_of_length`, `src/vector.rs:455-460`; the accumulator is dropped at the end. -/
def constantLoop : Nat → Nat → HVec → HVec → HM α HVec
  | 0, len, store, acc => if acc.len ≤ len then throw .diverge else do
    drop acc
    pure store
  | fuel + 1, len, store, acc =>
    if acc.len ≤ len then
      if len &&& acc.len != 0 then do
        let c ← clone acc
        let store ← append store c
        let c ← clone acc
        let acc ← append acc c
        constantLoop fuel len store acc
      else do
        let c ← clone acc
        let acc ← append acc c
        constantLoop fuel len store acc
    else do
      drop acc
      pure store

/-- `constant_vec_of_length`, `src/vector.rs:452-462`. -/
def constantVecOfLength (item : α) (len : Nat) : HM α HVec := do
  let store ← new
  let acc ← singleton item
  constantLoop 64 len store acc

end HVec
end Librrb
