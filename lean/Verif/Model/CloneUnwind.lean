import Verif.Model.Vector

/-!
# Model of pushing and popping with items whose `Clone` panics, `src/vector.rs`

`load_mut` of a leaf that has another owner clones the leaf, and with it its items, and `Clone::clone` of an item
may panic. The new leaf is given up then (`CircularBuffer::clone`, `src/circular.rs:509-544`, forgets the
clones that it has made) and the entry stays as it was, so what the caller finds is the vector as the code has
left it up to that moment. Here are the functions of `Verif/Model/Vector.lean` that push and pop, with the vector that is
left behind at each `load_mut` of a leaf. Nodes that are not leaves are cloned without calling code of the user.

Simplifications. Whether a leaf has another owner is part of the answer of the `Copier`: it may let any leaf be
cloned or not. What is in local variables is dropped during the unwinding, and is not looked at here.
-/
namespace Librrb

/-- What the `load_mut` of a leaf with the given items does: `true` if the leaf is cloned and cloning one of
the items panics. It may keep a state `γ`. `more` is by how much recursions and loops may be longer than they are on
an unbroken vector before the model stops (`diverge`). -/
structure Copier (γ α : Type) where
  ask : γ → List α → Bool × γ
  more : Nat := 0

instance : CoeFun (Copier γ α) (fun _ => γ → List α → Bool × γ) := ⟨Copier.ask⟩

/-- How a call stops. -/
inductive Stop (α : Type) where
  /-- As in `Verif/Model/Vector.lean`. -/
  | fault (e : Fault)
  /-- `Clone::clone` of an item panicked; `left` is what is in the place of the vector then. -/
  | unwound (left : RVec α)

/-- Calls that clone items on the way. -/
abbrev CM (γ α τ : Type) := ExceptT (Stop α) (StateM γ) τ

/-- What does not clone items. -/
def steady (m : M τ) : CM γ α τ := fun g =>
  match m with
  | .ok a => (.ok a, g)
  | .error e => (.error (.fault e), g)

namespace Copier

/-- `load_mut` of a leaf (`src/node_impls/basic.rs:78-80`) while `left` is in the place of the vector. Without
items there is nothing that panics. For other nodes see the header. -/
def touch (cp : Copier γ α) (left : RVec α) : Node α → CM γ α Unit
  | .leaf b => fun g =>
    if b.len == 0 then (.ok (), g)
    else
      match cp g (Node.leaf b).toList with
      | (true, g) => (.error (.unwound left), g)
      | (false, g) => (.ok (), g)
  | .internal _ _ _ => pure ()

/-- `NodeRc::share_children_with`, `src/node_traits.rs:358-380`: the destination is borrowed first. -/
def share (cp : Copier γ α) (left : RVec α) (src dst : Node α) (side : Side) (len : Nat) :
    CM γ α (Nat × Node α × Node α) := do
  cp.touch left dst
  cp.touch left src
  steady (src.shareChildrenWith dst side len)

end Copier

namespace RVec

/-- One round of the loop of `fixup_spine_tops`, `src/vector.rs:678-719`; see `fixupStep`. To merge the tops, both are
taken off the spines first (`:701-702`), and the root is assigned afterwards (`:704`). -/
def fixupStepC (cp : Copier γ α) (v : RVec α) : CM γ α (RVec α × Bool) := do
  let leftTop ← steady (unwrap v.left.getLast?)
  let rightTop ← steady (unwrap v.right.getLast?)
  let leftChildren := leftTop.slots
  let rightChildren := rightTop.slots
  let total := leftChildren + rightChildren
  let difference := if leftChildren > rightChildren then leftChildren - rightChildren
    else rightChildren - leftChildren
  let minChildren := if v.root.level == 1 then RRB_WIDTH else RRB_WIDTH - 2
  if total < minChildren then do
    let r ← cp.share { v with left := v.left.dropLast, right := v.right.dropLast } leftTop rightTop .back RRB_WIDTH
    pure ({ v with left := v.left.dropLast, right := v.right.dropLast, root := r.2.2 }, true)
  else if difference ≥ 2 then
    if leftChildren > rightChildren then do
      let r ← cp.share v leftTop rightTop .back (difference / 2)
      pure ({ v with left := v.left.dropLast ++ [r.2.1], right := v.right.dropLast ++ [r.2.2] }, false)
    else do
      let r ← cp.share v rightTop leftTop .front (difference / 2)
      pure ({ v with left := v.left.dropLast ++ [r.2.2], right := v.right.dropLast ++ [r.2.1] }, false)
  else pure (v, false)

/-- The loop of `fixup_spine_tops`, `src/vector.rs:677-720`; see `fixupLoop`. -/
def fixupLoopC (cp : Copier γ α) : Nat → RVec α → CM γ α (RVec α)
  | 0, v => if v.root.slots == 0 && !v.root.isLeaf then steady (.error .diverge) else pure v
  | fuel + 1, v =>
    if v.root.slots == 0 && !v.root.isLeaf then do
      let r ← v.fixupStepC cp
      if r.2 then fixupLoopC cp fuel r.1 else pure r.1
    else pure v

/-- `fixup_spine_tops`, `src/vector.rs:668-721`; see `fixupSpineTops`. -/
def fixupSpineTopsC (cp : Copier γ α) (v : RVec α) : CM γ α (RVec α) := fixupLoopC cp (v.left.length + 1) v

/-- `complete_leaf`, `src/vector.rs:517-559`; see `completeLeaf`. To raise the tree, the new root is put in the place of
the old one first (`:550`), and the halves of the old one are pushed to the spines at the end (`:553-554`). -/
def completeLeafC (cp : Copier γ α) (v : RVec α) (side : Side) : CM γ α (RVec α) := do
  steady (massert (v.left.length == v.right.length))
  let free ← steady (leafFreeSpace (v.leafNode side))
  steady (massert (free == 0))
  let r ← steady (completeLoop side (v.spine side).length (v.spine side) v.root)
  let spine := r.1
  let otherSpine := v.spine side.negate
  if r.2.slots ≥ RRB_WIDTH - 1 then do
    let newRoot ← steady (Node.emptyInternal (r.2.level + 1))
    let q ← cp.share (({ v with root := newRoot }).withSpine side spine) r.2 r.2.newEmpty side.negate (RRB_WIDTH / 2)
    pure ((({ v with root := newRoot }).withSpine side (spine ++ [q.2.1])).withSpine side.negate
      (otherSpine ++ [q.2.2]))
  else if r.2.slots == 0 then fixupSpineTopsC cp (({ v with root := r.2 }).withSpine side spine)
  else pure (({ v with root := r.2 }).withSpine side spine)

/-- `push_side`, `src/vector.rs:563-586`; see `pushSide`. -/
def pushSideC (cp : Copier γ α) (v : RVec α) (side : Side) (item : α) : CM γ α (RVec α) := do
  let free ← steady (leafFreeSpace (v.leafNode side))
  let v ← (if free == 0 then v.completeLeafC cp side else pure v)
  cp.touch v (v.leafNode side)
  let nd ← steady ((v.leafNode side).leafPush side item)
  let len ← steady (uadd v.len 1)
  let v := { v.withLeafNode side nd with len := len }
  if (v.spine side).length == 1 then v.fixupSpineTopsC cp else pure v

/-- `push_back`, `src/vector.rs:602-604`. -/
def pushBackC (cp : Copier γ α) (v : RVec α) (item : α) : CM γ α (RVec α) := v.pushSideC cp .back item

/-- `push_front`, `src/vector.rs:620-622`. -/
def pushFrontC (cp : Copier γ α) (v : RVec α) (item : α) : CM γ α (RVec α) := v.pushSideC cp .front item

/-- `empty_leaf`, `src/vector.rs:625-664`; see `emptyLeaf`. -/
def emptyLeafC (cp : Copier γ α) (v : RVec α) (side : Side) : CM γ α (RVec α) := do
  steady (massert (v.left.length == v.right.length))
  let sp := v.spine side
  let first ← steady (unwrap sp.head?)
  steady (massert (first.slots == 0))
  let last ← steady (unwrap sp.getLast?)
  steady (massert (v.root.slots != 0 || last.slots != 0))
  let dflt ← steady (usub sp.length 1)
  let r ← steady (emptyLeafLoop side (lastEmpty sp.tail 1 dflt + 1) sp v.root)
  fixupSpineTopsC cp (({ v with root := r.2 }).withSpine side r.1)

/-- `pop_side`, `src/vector.rs:725-759`; see `popSide`. When the root is the leaf, `self.len -= 1` (`:729`) comes before
`load_mut` (`:730`); otherwise `len` is written at the end (`:756`). -/
def popSideC (cp : Copier γ α) (v : RVec α) (side : Side) : CM γ α (Option α × RVec α) := do
  steady (massert (v.left.length == v.right.length))
  if (v.spine side).isEmpty then do
    let e ← steady v.root.isEmpty
    if !e then do
      let len ← steady (usub v.len 1)
      cp.touch { v with len := len } v.root
      let r ← steady (v.root.leafPop side)
      pure (some r.1, { v with root := r.2, len := len })
    else pure (none, v)
  else do
    cp.touch v (v.leafNode side)
    let r ← steady ((v.leafNode side).leafPop side)
    let v := v.withLeafNode side r.2
    let e ← steady r.2.isEmpty
    let v ← (if e then v.emptyLeafC cp side
      else if (v.spine side).length == 1 then v.fixupSpineTopsC cp
      else pure v)
    let len ← steady (usub v.len 1)
    pure (some r.1, { v with len := len })

/-- `pop_front`, `src/vector.rs:779-781`. -/
def popFrontC (cp : Copier γ α) (v : RVec α) : CM γ α (Option α × RVec α) := v.popSideC cp .front

/-- `pop_back`, `src/vector.rs:801-803`. -/
def popBackC (cp : Copier γ α) (v : RVec α) : CM γ α (Option α × RVec α) := v.popSideC cp .back

end RVec
end Librrb
