import Verif.Model.HeapVec
import Verif.Model.Search

/-!
# Model of the shared focus and of the iterators, over reference-counted nodes

The same code as in `Verif/Model/Focus.lean` and `Verif/Model/Search.lean`; here a focus keeps the entries
of the nodes on its path, as `src/focus.rs:18-26` does, and every look into a node reads the heap.
-/
namespace Librrb

/-- `Internal::get_child_ref_for_position`, `src/node_impls/basic.rs:795-801`, with
`Internal::get_child_ref_at_slot`, `:780-793`: the entry of the child and its range. -/
def Entry.childRefForPosition (a : Addr) (position : Nat) : HM α (Option (Addr × Nat × Nat)) := do
  let n ← load a
  match n with
  | .leaf _ => throw .panic
  | .internal s _ c => do
    let p ← s.positionInfoFor position
    match p with
    | some (childIdx, _) => do
      let r ← s.getChildRange childIdx
      match r with
      | some range => do
        let child ← unwrap (← c.get childIdx)
        pure (some (child, range))
      | none => pure none
    | none => pure none

/-- `Leaf::get`, `src/node_impls/basic.rs:154-156`, behind `load`. -/
def Entry.leafGet (a : Addr) (idx : Nat) : HM α (Option α) := do
  let n ← load a
  match n with
  | .leaf b => b.get idx
  | .internal _ _ _ => throw .panic

/-- `PartialFocus`, `src/focus.rs:18-26`; see `PFocus`. `leaf` is the entry of the leaf. -/
structure HPFocus where
  path : List (Addr × Nat × Nat)
  leaf : Addr
  lo : Nat
  hi : Nat

namespace HPFocus

/-- `PartialFocus::tree_path`, `src/focus.rs:33-57`; see `PFocus.treePath`. -/
def treePath : Nat → List (Addr × Nat × Nat) → Nat → HM α HPFocus
  | 0, _, _ => throw .diverge
  | _ + 1, [], _ => throw .panic
  | fuel + 1, (a, lo, hi) :: rest, idx => do
    let r ← Entry.childRefForPosition a idx
    match r with
    | none => throw .panic
    | some (child, clo, chi) => do
      let len ← usub chi clo
      let n ← load child
      if n.isLeafNode then pure ⟨(a, lo, hi) :: rest, child, lo + clo, lo + clo + len⟩
      else do
        let idx ← usub idx clo
        treePath fuel ((child, lo + clo, lo + clo + len) :: (a, lo, hi) :: rest) idx

/-- `PartialFocus::from_tree`, `src/focus.rs:60-77`. -/
def fromTree (tree : Addr) : HM α HPFocus := do
  let nd ← load tree
  let n ← nd.len
  if nd.isLeafNode then pure ⟨[], tree, 0, n⟩
  else treePath (nd.level + 1) [(tree, 0, n)] 0

/-- The loop of `move_focus`, `src/focus.rs:82-84`; see `PFocus.popPath`. -/
def popPath (idx : Nat) : List (Addr × Nat × Nat) → M (List (Addr × Nat × Nat))
  | [] => .error .panic
  | (a, lo, hi) :: rest => if inRange lo hi idx then .ok ((a, lo, hi) :: rest) else popPath idx rest

/-- Last part of `move_focus`, `src/focus.rs:85-88`. -/
def enterPath (idx : Nat) : List (Addr × Nat × Nat) → HM α HPFocus
  | [] => throw .panic
  | (a, start, hi) :: rest => do
    let newIdx ← usub idx start
    let l ← Entry.level a
    treePath (l + 1) ((a, start, hi) :: rest) newIdx

/-- `PartialFocus::move_focus`, `src/focus.rs:80-90`. -/
def moveFocus (pf : HPFocus) (idx : Nat) : HM α HPFocus :=
  if !inRange pf.lo pf.hi idx then do
    let path ← popPath idx pf.path
    enterPath idx path
  else pure pf

/-- `PartialFocus::get`, `src/focus.rs:94-103`. -/
def get (pf : HPFocus) (idx : Nat) : HM α (Option α × HPFocus) :=
  match pf.path.getLast? with
  | none => do
    let x ← Entry.leafGet pf.leaf idx
    pure (x, pf)
  | some (a, _) => do
    let n ← Entry.len a
    if idx ≥ n then pure (none, pf)
    else do
      let pf ← pf.moveFocus idx
      let i ← usub idx pf.lo
      let x ← Entry.leafGet pf.leaf i
      pure (x, pf)

end HPFocus

/-- `InternalVector::spine_iter`, `src/vector.rs:496-513`, as the list it yields. -/
def VecOf.spineIter (v : VecOf κ) : List (Option (Side × Nat) × κ) :=
  (v.left.zipIdx.map fun p => (some (Side.front, p.2), p.1)) ++ [(none, v.root)] ++
    (v.right.zipIdx.map fun p => (some (Side.back, p.2), p.1)).reverse

/-- `Focus`, `src/focus.rs:108-118`; see `Focus`. -/
structure HFocus where
  tree : HVec
  pos : Option (Side × Nat)
  node : HPFocus
  flo : Nat
  fhi : Nat
  lo : Nat
  hi : Nat

namespace HFocus

/-- What the loop of `narrowed_tree` has found: position, entry and its range. -/
structure Pick where
  pos : Option (Side × Nat)
  node : Addr
  flo : Nat
  fhi : Nat

/-- The loop of `narrowed_tree`, `src/focus.rs:178-187`. -/
def pickLoop (lo hi : Nat) : List (Option (Side × Nat) × Addr) → Nat → Pick → HM α Pick
  | [], _, p => pure p
  | (pos, a) :: rest, rangeEnd, p => do
    let n ← Entry.len a
    let stop ← uadd rangeEnd n
    pickLoop lo hi rest stop
      (if lo < stop ∧ hi > rangeEnd then ⟨pos, a, rangeEnd, stop⟩ else p)

/-- `Focus::narrowed_tree`, `src/focus.rs:166-195`. -/
def narrowedTree (tree : HVec) (lo hi : Nat) : HM α HFocus := do
  let lo := if lo ≥ tree.len then tree.len else lo
  let hi := if hi ≥ tree.len then tree.len else hi
  let p ← pickLoop lo hi tree.spineIter 0 ⟨none, tree.root, 0, 0⟩
  let pf ← HPFocus.fromTree p.node
  pure ⟨tree, p.pos, pf, p.flo, p.fhi, lo, hi⟩

/-- `Focus::new`, `src/focus.rs:150-152`. -/
def new (tree : HVec) : HM α HFocus := narrowedTree tree 0 tree.len

/-- The `skip_amount` of the search to the left, `src/focus.rs:202-208`. -/
def skipBack (v : HVec) : Option (Side × Nat) → M Nat
  | some (.front, position) => usub (v.right.length + 1 + v.left.length) position
  | none => .ok (v.right.length + 1)
  | some (.back, position) => .ok (position + 1)

/-- The `skip_amount` of the search to the right, `src/focus.rs:223-229`. -/
def skipFwd (v : HVec) : Option (Side × Nat) → M Nat
  | some (.front, position) => .ok (position + 1)
  | none => .ok (v.left.length + 1)
  | some (.back, position) => usub (v.left.length + 1 + v.right.length) position

/-- The common part of the two loops of `refocus`: go to `idx` in the node at `pos`. -/
def enter (f : HFocus) (pos : Option (Side × Nat)) (a : Addr) (flo fhi idx : Nat) : HM α HFocus := do
  let pf ← HPFocus.fromTree a
  let i ← usub idx flo
  let pf ← pf.moveFocus i
  pure { f with pos := pos, node := pf, flo := flo, fhi := fhi }

/-- The loop to the left, `src/focus.rs:210-221`. -/
def refocusBack (f : HFocus) (idx : Nat) : List (Option (Side × Nat) × Addr) → Nat → HM α HFocus
  | [], _ => pure f
  | (pos, a) :: rest, rangeEnd => do
    let n ← Entry.len a
    let start ← usub rangeEnd n
    if inRange start rangeEnd idx then f.enter pos a start rangeEnd idx
    else refocusBack f idx rest start

/-- The loop to the right, `src/focus.rs:231-242`. -/
def refocusFwd (f : HFocus) (idx : Nat) : List (Option (Side × Nat) × Addr) → Nat → HM α HFocus
  | [], _ => pure f
  | (pos, a) :: rest, rangeStart => do
    let n ← Entry.len a
    let stop ← uadd rangeStart n
    if inRange rangeStart stop idx then f.enter pos a rangeStart stop idx
    else refocusFwd f idx rest stop

/-- `Focus::refocus`, `src/focus.rs:199-244`. -/
def refocus (f : HFocus) (idx : Nat) : HM α HFocus := do
  massert (decide (idx < f.flo) || decide (idx ≥ f.fhi))
  if idx < f.flo then do
    let skip ← skipBack f.tree f.pos
    refocusBack f idx (f.tree.spineIter.reverse.drop skip) f.flo
  else do
    let skip ← skipFwd f.tree f.pos
    refocusFwd f idx (f.tree.spineIter.drop skip) f.fhi

/-- `Focus::get`, `src/focus.rs:262-272`. -/
def get (f : HFocus) (idx : Nat) : HM α (Option α × HFocus) := do
  let newIdx ← uadd idx f.lo
  if inRange f.lo f.hi newIdx then do
    let f ← (if !inRange f.flo f.fhi newIdx then f.refocus newIdx else pure f)
    let i ← usub newIdx f.flo
    let r ← f.node.get i
    pure (r.1, { f with node := r.2 })
  else pure (none, f)

end HFocus

/-- `Iter`, `src/vector.rs:2482-2491`. -/
structure HVIter where
  front : Nat
  back : Nat
  focus : HFocus

namespace HVIter

/-- `InternalVector::iter`, `src/vector.rs:2131-2137`. -/
def new (v : HVec) : HM α HVIter := do
  let f ← HFocus.new v
  pure ⟨0, v.len, f⟩

/-- `Iter::next`, `src/vector.rs:2498-2507`. -/
def next (it : HVIter) : HM α (Option α × HVIter) :=
  if it.front != it.back then do
    let r ← it.focus.get it.front
    let x ← unwrap r.1
    pure (some x, { it with front := it.front + 1, focus := r.2 })
  else pure (none, it)

/-- `Iter::next_back`, `src/vector.rs:2533-2541`. -/
def nextBack (it : HVIter) : HM α (Option α × HVIter) :=
  if it.front != it.back then do
    let bk ← usub it.back 1
    let r ← it.focus.get bk
    pure (r.1, { it with back := bk, focus := r.2 })
  else pure (none, it)

/-- One call of `next` or `next_back`. -/
def step : Side → HVIter → HM α (Option α × HVIter)
  | .front, it => it.next
  | .back, it => it.nextBack

/-- The items of a script of calls, and the iterator afterwards. -/
def run : List Side → HVIter → HM α (List (Option α) × HVIter)
  | [], it => pure ([], it)
  | s :: rest, it => do
    let r ← step s it
    let q ← run rest r.2
    pure (r.1 :: q.1, q.2)

end HVIter

/-- `Iterator::cmp` of the standard library; see `RVec.iterCmp`. -/
def HVec.iterCmp (cmp : α → α → Ordering) : Nat → HVIter → HVIter → HM α Ordering
  | 0, _, _ => throw .diverge
  | fuel + 1, a, b => do
    let x ← a.next
    match x.1 with
    | none => do
      let y ← b.next
      pure (if y.1.isNone then .eq else .lt)
    | some p => do
      let y ← b.next
      match y.1 with
      | none => pure .gt
      | some q =>
        match cmp p q with
        | .eq => iterCmp cmp fuel x.2 y.2
        | r => pure r

/-- `Ord::cmp`, `src/vector.rs:2420-2422`. -/
def HVec.cmpVec (cmp : α → α → Ordering) (v w : HVec) : HM α Ordering := do
  let a ← HVIter.new v
  let b ← HVIter.new w
  iterCmp cmp (v.len + 1) a b

end Librrb
