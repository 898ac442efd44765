import Verif.Model.Vector

/-!
# Model of the shared focus (`src/focus.rs:15-372`) and of the iterators of `src/vector.rs`
-/
namespace Librrb

/-- `range.contains(&idx)` for a `Range<usize>` given by its bounds. -/
def inRange (lo hi idx : Nat) : Bool := decide (lo ≤ idx) && decide (idx < hi)

namespace Node

/-- `Internal::get_child_ref_at_slot`, `src/node_impls/basic.rs:780-793`: the child and its range.
Only called on internal nodes. -/
def childRefAtSlot (nd : Node α) (idx : Nat) : M (Option (Node α × Nat × Nat)) :=
  match nd with
  | .leaf _ => .error .panic
  | .internal s _ c => do
    let r ← s.getChildRange idx
    match r with
    | some range => do
      let child ← unwrap (← c.get idx)
      .ok (some (child, range))
    | none => .ok none

/-- `Internal::get_child_ref_for_position`, `src/node_impls/basic.rs:795-801`. -/
def childRefForPosition (nd : Node α) (position : Nat) : M (Option (Node α × Nat × Nat)) :=
  match nd with
  | .leaf _ => .error .panic
  | .internal s t c => do
    let p ← s.positionInfoFor position
    match p with
    | some (childIdx, _) => (Node.internal s t c).childRefAtSlot childIdx
    | none => .ok none

end Node

/-- `PartialFocus`, `src/focus.rs:18-26`. The `Vec` `path` is kept with its last element first.
`lo`, `hi` are the bounds of `leaf_range`. -/
structure PFocus (α : Type) where
  path : List (Node α × Nat × Nat)
  leaf : CB α
  lo : Nat
  hi : Nat

namespace PFocus

/-- `PartialFocus::tree_path`, `src/focus.rs:33-57`: the new path, the leaf and its range. The first
argument bounds the number of steps. -/
def treePath : Nat → List (Node α × Nat × Nat) → Nat → M (PFocus α)
  | 0, _, _ => .error .diverge
  | _ + 1, [], _ => .error .panic
  | fuel + 1, (nd, lo, hi) :: rest, idx => do
    let r ← nd.childRefForPosition idx
    match r with
    | none => .error .panic
    | some (child, clo, chi) => do
      let len ← usub chi clo
      match child with
      | .leaf b => .ok ⟨(nd, lo, hi) :: rest, b, lo + clo, lo + clo + len⟩
      | .internal s t c => do
        let idx ← usub idx clo
        treePath fuel ((.internal s t c, lo + clo, lo + clo + len) :: (nd, lo, hi) :: rest) idx

/-- `PartialFocus::from_tree`, `src/focus.rs:60-77`. -/
def fromTree (tree : Node α) : M (PFocus α) :=
  match tree with
  | .leaf b => .ok ⟨[], b, 0, b.len⟩
  | .internal s t c => do
    let n ← (Node.internal s t c).len
    treePath (s.level + 1) [(.internal s t c, 0, n)] 0

/-- The loop of `move_focus`, `src/focus.rs:82-84`: `path.last().unwrap()` panics on an empty
path. -/
def popPath (idx : Nat) : List (Node α × Nat × Nat) → M (List (Node α × Nat × Nat))
  | [] => .error .panic
  | (nd, lo, hi) :: rest => if inRange lo hi idx then .ok ((nd, lo, hi) :: rest) else popPath idx rest

/-- Number of steps that suffice for `treePath`. -/
def pathFuel : List (Node α × Nat × Nat) → Nat
  | [] => 1
  | (nd, _) :: _ => nd.level + 1

/-- `self.path.last().unwrap().1.start`. -/
def pathStart : List (Node α × Nat × Nat) → M Nat
  | [] => .error .panic
  | (_, lo, _) :: _ => .ok lo

/-- `PartialFocus::move_focus`, `src/focus.rs:80-90`. -/
def moveFocus (pf : PFocus α) (idx : Nat) : M (PFocus α) :=
  if !inRange pf.lo pf.hi idx then do
    let path ← popPath idx pf.path
    let start ← pathStart path
    let newIdx ← usub idx start
    treePath (pathFuel path) path newIdx
  else .ok pf

/-- `PartialFocus::get`, `src/focus.rs:94-103`: the item read and the focus afterwards. -/
def get (pf : PFocus α) (idx : Nat) : M (Option α × PFocus α) :=
  match pf.path.getLast? with
  | none => do
    let x ← pf.leaf.get idx
    .ok (x, pf)
  | some (nd, _) => do
    let n ← nd.len
    if idx ≥ n then .ok (none, pf)
    else do
      let pf ← pf.moveFocus idx
      let i ← usub idx pf.lo
      let x ← pf.leaf.get i
      .ok (x, pf)

end PFocus

namespace RVec

/-- `InternalVector::spine_iter`, `src/vector.rs:496-513`, as the list it yields. -/
def spineIter (v : RVec α) : List (Option (Side × Nat) × Node α) :=
  (v.left.zipIdx.map fun p => (some (Side.front, p.2), p.1)) ++ [(none, v.root)] ++
    (v.right.zipIdx.map fun p => (some (Side.back, p.2), p.1)).reverse

end RVec

/-- `Focus`, `src/focus.rs:108-118`; `focus_range` is `flo..fhi`, `range` is `lo..hi`. -/
structure Focus (α : Type) where
  tree : RVec α
  pos : Option (Side × Nat)
  node : PFocus α
  flo : Nat
  fhi : Nat
  lo : Nat
  hi : Nat

namespace Focus

/-- What the loop of `narrowed_tree` has found: position, node and its range. -/
structure Pick (α : Type) where
  pos : Option (Side × Nat)
  node : Node α
  flo : Nat
  fhi : Nat

/-- The loop of `narrowed_tree`, `src/focus.rs:178-187`; `rangeEnd` is the variable `range_end`. -/
def pickLoop (lo hi : Nat) : List (Option (Side × Nat) × Node α) → Nat → Pick α → M (Pick α)
  | [], _, p => .ok p
  | (pos, nd) :: rest, rangeEnd, p => do
    let n ← nd.len
    let stop ← uadd rangeEnd n
    pickLoop lo hi rest stop
      (if lo < stop ∧ hi > rangeEnd then ⟨pos, nd, rangeEnd, stop⟩ else p)

/-- `Focus::narrowed_tree`, `src/focus.rs:166-195`. -/
def narrowedTree (tree : RVec α) (lo hi : Nat) : M (Focus α) := do
  let lo := if lo ≥ tree.len then tree.len else lo
  let hi := if hi ≥ tree.len then tree.len else hi
  let p ← pickLoop lo hi tree.spineIter 0 ⟨none, tree.root, 0, 0⟩
  let pf ← PFocus.fromTree p.node
  .ok ⟨tree, p.pos, pf, p.flo, p.fhi, lo, hi⟩

/-- `Focus::new`, `src/focus.rs:150-152`. -/
def new (tree : RVec α) : M (Focus α) := narrowedTree tree 0 tree.len

/-- The `skip_amount` of the search to the left, `src/focus.rs:202-208`. -/
def skipBack (v : RVec α) : Option (Side × Nat) → M Nat
  | some (.front, position) => usub (v.right.length + 1 + v.left.length) position
  | none => .ok (v.right.length + 1)
  | some (.back, position) => .ok (position + 1)

/-- The `skip_amount` of the search to the right, `src/focus.rs:223-229`. -/
def skipFwd (v : RVec α) : Option (Side × Nat) → M Nat
  | some (.front, position) => .ok (position + 1)
  | none => .ok (v.left.length + 1)
  | some (.back, position) => usub (v.left.length + 1 + v.right.length) position

/-- The common part of the two loops of `refocus`: go to `idx` in the node at `pos`. -/
def enter (f : Focus α) (pos : Option (Side × Nat)) (nd : Node α) (flo fhi idx : Nat) : M (Focus α) := do
  let pf ← PFocus.fromTree nd
  let i ← usub idx flo
  let pf ← pf.moveFocus i
  .ok { f with pos := pos, node := pf, flo := flo, fhi := fhi }

/-- The loop to the left, `src/focus.rs:210-221`. -/
def refocusBack (f : Focus α) (idx : Nat) : List (Option (Side × Nat) × Node α) → Nat → M (Focus α)
  | [], _ => .ok f
  | (pos, nd) :: rest, rangeEnd => do
    let n ← nd.len
    let start ← usub rangeEnd n
    if inRange start rangeEnd idx then f.enter pos nd start rangeEnd idx
    else refocusBack f idx rest start

/-- The loop to the right, `src/focus.rs:231-242`. -/
def refocusFwd (f : Focus α) (idx : Nat) : List (Option (Side × Nat) × Node α) → Nat → M (Focus α)
  | [], _ => .ok f
  | (pos, nd) :: rest, rangeStart => do
    let n ← nd.len
    let stop ← uadd rangeStart n
    if inRange rangeStart stop idx then f.enter pos nd rangeStart stop idx
    else refocusFwd f idx rest stop

/-- `Focus::refocus`, `src/focus.rs:199-244`. -/
def refocus (f : Focus α) (idx : Nat) : M (Focus α) := do
  massert (decide (idx < f.flo) || decide (idx ≥ f.fhi))
  if idx < f.flo then do
    let skip ← skipBack f.tree f.pos
    refocusBack f idx (f.tree.spineIter.reverse.drop skip) f.flo
  else do
    let skip ← skipFwd f.tree f.pos
    refocusFwd f idx (f.tree.spineIter.drop skip) f.fhi

/-- `Focus::get`, `src/focus.rs:262-272`: the item read and the focus afterwards. -/
def get (f : Focus α) (idx : Nat) : M (Option α × Focus α) := do
  let newIdx ← uadd idx f.lo
  if inRange f.lo f.hi newIdx then do
    let f ← (if !inRange f.flo f.fhi newIdx then f.refocus newIdx else .ok f)
    let i ← usub newIdx f.flo
    let r ← f.node.get i
    .ok (r.1, { f with node := r.2 })
  else .ok (none, f)

/-- `Focus::index`, `src/focus.rs:275-277`. -/
def index (f : Focus α) (idx : Nat) : M (α × Focus α) := do
  let r ← f.get idx
  let x ← unwrap r.1
  .ok (x, r.2)

/-- `Focus::len`, `src/focus.rs:290-292`. -/
def len (f : Focus α) : M Nat := usub f.hi f.lo

/-- `Focus::is_empty`, `src/focus.rs:305-307`. -/
def isEmpty (f : Focus α) : M Bool := do
  let n ← f.len
  .ok (n == 0)

/-- The start bound in `narrow`, `src/focus.rs:327-331`. -/
def narrowStart : Bound → M Nat
  | .unbounded => .ok 0
  | .included x => .ok x
  | .excluded x => uadd x 1

/-- The end bound in `narrow`, `src/focus.rs:332-336`. -/
def narrowEnd (f : Focus α) : Bound → M Nat
  | .unbounded => f.len
  | .included x => uadd x 1
  | .excluded x => .ok x

/-- `Focus::narrow`, `src/focus.rs:326-344`. As in the code, the end is compared to the absolute
end of the range, not to the length. -/
def narrow (f : Focus α) (startBound endBound : Bound) : M (Focus α) := do
  let rangeStart ← narrowStart startBound
  let rangeEnd ← f.narrowEnd endBound
  massert (!decide (rangeEnd > f.hi))
  let newStart ← uadd f.lo rangeStart
  let e ← uadd newStart rangeEnd
  let newEnd ← usub e rangeStart
  narrowedTree f.tree newStart newEnd

/-- `Focus::split_at`, `src/focus.rs:363-372`. As in the code, `idx` is used as an absolute
position. -/
def splitAt (f : Focus α) (idx : Nat) : M (Focus α × Focus α) := do
  let n ← f.len
  massert (!decide (idx ≥ n))
  let first ← narrowedTree f.tree f.lo idx
  let second ← narrowedTree f.tree idx f.hi
  .ok (first, second)

end Focus

/-- `Iter`, `src/vector.rs:2482-2491`. -/
structure VIter (α : Type) where
  front : Nat
  back : Nat
  focus : Focus α

namespace VIter

/-- `InternalVector::iter`, `src/vector.rs:2131-2137`. -/
def new (v : RVec α) : M (VIter α) := do
  let f ← Focus.new v
  .ok ⟨0, v.len, f⟩

/-- `Iter::next`, `src/vector.rs:2498-2507`. -/
def next (it : VIter α) : M (Option α × VIter α) :=
  if it.front != it.back then do
    let r ← it.focus.get it.front
    let x ← unwrap r.1
    .ok (some x, { it with front := it.front + 1, focus := r.2 })
  else .ok (none, it)

/-- `Iter::next_back`, `src/vector.rs:2533-2541`. -/
def nextBack (it : VIter α) : M (Option α × VIter α) :=
  if it.front != it.back then do
    let bk ← usub it.back 1
    let r ← it.focus.get bk
    .ok (r.1, { it with back := bk, focus := r.2 })
  else .ok (none, it)

/-- `Iter::size_hint`, `src/vector.rs:2509-2512`. -/
def sizeHint (it : VIter α) : M Nat := usub it.back it.front

/-- One call of `next` or `next_back`. -/
def step : Side → VIter α → M (Option α × VIter α)
  | .front, it => it.next
  | .back, it => it.nextBack

end VIter

/-- `IntoIter` (`src/vector.rs:2639-2684`) is the vector it consumes: `next` is `pop_front`,
`next_back` is `pop_back`, `size_hint` is `len`. -/
def RVec.intoIterStep : Side → RVec α → M (Option α × RVec α)
  | .front, v => v.popFront
  | .back, v => v.popBack

end Librrb
