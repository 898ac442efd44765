import Verif.Model.CloneUnwindCut
import Verif.Model.Focus

/-!
# Model of programs that go on after a panic of an item's `Clone`, `src/vector.rs`

A program that catches the panic of an item's `Clone` finds its vector as the call has left it, and may go on using it. The
calls are those of `Verif/Model/CloneUnwind.lean` and `Verif/Model/CloneUnwindCut.lean`. What is left may have spines of
different lengths, a root that is too high for them, or a `len` that is not the number of its items, so here `append` has all
its borrows, also those that clone nothing when the vectors are unbroken. A node may be deeper than its `level` says, so
recursions and loops are followed for any number `more` of further steps (`Copier`).

Simplifications. Those of `Verif/Model/CloneUnwind.lean`. Only panics of `Clone` are caught: if a call panics for another reason,
the program ends. What a call drops on the way is not followed.
-/
namespace Librrb

/-- `Drop` of a node that nobody else owns: its ring is dropped (`src/circular.rs:546-575`), and with it the children, and so is
the ring of its size table. Children that others own stay; that all are dropped is the worst case. They are visited in the order
of the ring, not of the array. -/
def Node.free : Node α → M Unit
  | .leaf b => do
    let _ ← b.drop
    .ok ()
  | .internal s _ c => do
    let _ ← s.buffer.drop
    let _ ← c.drop
    c.toList.attach.forM fun k => k.1.free
termination_by nd => sizeOf nd
decreasing_by
  have := CB.sizeOf_mem_toList k.2
  simp; omega

namespace RVec

/-- `Drop` of a vector: `src/vector.rs:388-396` has no `Drop` of its own, so the fields are dropped. -/
def free (v : RVec α) : M Unit := do
  v.left.forM Node.free
  v.right.forM Node.free
  v.root.free

/-- `append` after the early exits, `src/vector.rs:975-1100`; see `appendMainC`. With the borrows at `:1086-1089` and those of
`fixup_spine_tops` (`:1100`). -/
def appendMainB (cp : Copier γ α) (v other : RVec α) : CM γ α (RVec α) := do
  let newLen ← steady (uadd v.len other.len)
  let v ← raiseSelfC cp other.left.length other.left.length v
  let other ← raiseOtherC cp v v.right.length v.right.length other
  steady (massert (other.left.length == other.right.length))
  steady (massert (v.right.length == other.left.length))
  let r ← steady (firstUp .back v.right v.root)
  let s ← steady (firstUp .front other.left other.root)
  let roots ← appendLoopC cp (fun right root => { v with right := right, root := root }) r.1.length r.1 s.1 r.2 s.2
  let q ← cp.share { v with right := other.right, root := roots.1 } roots.2 roots.1 .front RRB_WIDTH
  let free ← steady q.2.2.freeSlots
  let p ← (if free < 2 then do
      let t ← cp.share { v with right := other.right, root := q.2.2 } q.2.2 q.2.1 .back 1
      pure (t.2.1, t.2.2)
    else pure (q.2.2, q.2.1))
  let e ← steady p.2.isEmpty
  let v ← (if !e then do
      let newRoot ← steady (Node.emptyInternal (p.1.level + 1))
      pure { left := v.left ++ [p.1], right := other.right ++ [p.2], root := newRoot, len := newLen }
    else pure { left := v.left, right := other.right, root := p.1, len := newLen })
  fixupSpineTopsC cp v

/-- `append`, `src/vector.rs:929-1101`; see `appendC`. -/
def appendB (cp : Copier γ α) (v other : RVec α) : CM γ α (RVec α) :=
  if v.isEmpty then pure other
  else if other.isEmpty then pure v
  else if v.len == 1 then do
    let r ← v.popBackC cp
    let x ← steady (unwrap r.1)
    leaving r.2 (other.pushFrontC cp x)
  else if other.len == 1 then do
    let r ← leaving v (other.popBackC cp)
    let x ← steady (unwrap r.1)
    v.pushBackC cp x
  else appendMainB cp v other

/-- `extract_slice`, `src/vector.rs:1168-1184`; see `extractSliceC`. -/
def extractSliceB (cp : Copier γ α) (v : RVec α) (startBound endBound : Bound) : CM γ α (RVec α × RVec α) := do
  let start ← steady (rangeStart startBound)
  let stop ← steady (rangeEnd v.len endBound)
  let a ← v.splitOffC cp stop
  let b ← a.1.splitOffC cp start
  let v ← b.1.appendB cp a.2
  pure (v, b.2)

/-- `insert`, `src/vector.rs:1370-1375`; see `insertC`. -/
def insertB (cp : Copier γ α) (v : RVec α) (index : Nat) (element : α) : CM γ α (RVec α) := do
  let r ← v.splitOffC cp index
  let v ← r.1.pushBackC cp element
  v.appendB cp r.2

/-- `remove`, `src/vector.rs:2042-2052`; see `removeC`. -/
def removeB (cp : Copier γ α) (v : RVec α) (index : Nat) : CM γ α (Option α × RVec α) :=
  if index < v.len then do
    let r ← v.splitOffC cp index
    let q ← leaving r.1 (r.2.popFrontC cp)
    let v ← r.1.appendB cp q.2
    pure (q.1, v)
  else pure (none, v)

end RVec

/-! ### Foci

The functions of `Verif/Model/Focus.lean` with `more` steps on the way down. -/

/-- `get`, `src/vector.rs:874-885`; see `RVec.get`. -/
def RVec.getMore (v : RVec α) (more idx : Nat) : M (Option α) := do
  let p ← v.findNodeInfoForIndex idx
  match p with
  | some (pos, sub) => do
    let nd ← v.nodeAt pos
    let x ← unwrap (← nd.getAux (more + (nd.level + 1)) sub)
    .ok (some x)
  | none => .ok none

namespace PFocus

/-- `PartialFocus::from_tree`, `src/focus.rs:60-77`; see `fromTree`. -/
def fromTreeMore (more : Nat) (tree : Node α) : M (PFocus α) :=
  match tree with
  | .leaf b => .ok ⟨[], b, 0, b.len⟩
  | .internal s t c => do
    let n ← (Node.internal s t c).len
    treePath (more + (s.level + 1)) [(.internal s t c, 0, n)] 0

/-- `PartialFocus::move_focus`, `src/focus.rs:80-90`; see `moveFocus`. -/
def moveFocusMore (pf : PFocus α) (more idx : Nat) : M (PFocus α) :=
  if !inRange pf.lo pf.hi idx then do
    let path ← popPath idx pf.path
    let start ← pathStart path
    let newIdx ← usub idx start
    treePath (more + pathFuel path) path newIdx
  else .ok pf

/-- `PartialFocus::get`, `src/focus.rs:94-103`; see `get`. -/
def getMore (pf : PFocus α) (more idx : Nat) : M (Option α × PFocus α) :=
  match pf.path.getLast? with
  | none => do
    let x ← pf.leaf.get idx
    .ok (x, pf)
  | some (nd, _) => do
    let n ← nd.len
    if idx ≥ n then .ok (none, pf)
    else do
      let pf ← pf.moveFocusMore more idx
      let i ← usub idx pf.lo
      let x ← pf.leaf.get i
      .ok (x, pf)

end PFocus

namespace Focus

/-- `Focus::narrowed_tree`, `src/focus.rs:166-195`; see `narrowedTree`. -/
def narrowedTreeMore (more : Nat) (tree : RVec α) (lo hi : Nat) : M (Focus α) := do
  let lo := if lo ≥ tree.len then tree.len else lo
  let hi := if hi ≥ tree.len then tree.len else hi
  let p ← pickLoop lo hi tree.spineIter 0 ⟨none, tree.root, 0, 0⟩
  let pf ← PFocus.fromTreeMore more p.node
  .ok ⟨tree, p.pos, pf, p.flo, p.fhi, lo, hi⟩

/-- `Focus::new`, `src/focus.rs:150-152`. -/
def newMore (more : Nat) (tree : RVec α) : M (Focus α) := narrowedTreeMore more tree 0 tree.len

/-- The common part of the two loops of `refocus`; see `enter`. -/
def enterMore (f : Focus α) (more : Nat) (pos : Option (Side × Nat)) (nd : Node α) (flo fhi idx : Nat) : M (Focus α) := do
  let pf ← PFocus.fromTreeMore more nd
  let i ← usub idx flo
  let pf ← pf.moveFocusMore more i
  .ok { f with pos := pos, node := pf, flo := flo, fhi := fhi }

/-- The loop to the left, `src/focus.rs:210-221`; see `refocusBack`. -/
def refocusBackMore (f : Focus α) (more idx : Nat) : List (Option (Side × Nat) × Node α) → Nat → M (Focus α)
  | [], _ => .ok f
  | (pos, nd) :: rest, rangeEnd => do
    let n ← nd.len
    let start ← usub rangeEnd n
    if inRange start rangeEnd idx then f.enterMore more pos nd start rangeEnd idx
    else refocusBackMore f more idx rest start

/-- The loop to the right, `src/focus.rs:231-242`; see `refocusFwd`. -/
def refocusFwdMore (f : Focus α) (more idx : Nat) : List (Option (Side × Nat) × Node α) → Nat → M (Focus α)
  | [], _ => .ok f
  | (pos, nd) :: rest, rangeStart => do
    let n ← nd.len
    let stop ← uadd rangeStart n
    if inRange rangeStart stop idx then f.enterMore more pos nd rangeStart stop idx
    else refocusFwdMore f more idx rest stop

/-- `Focus::refocus`, `src/focus.rs:199-244`; see `refocus`. -/
def refocusMore (f : Focus α) (more idx : Nat) : M (Focus α) := do
  massert (decide (idx < f.flo) || decide (idx ≥ f.fhi))
  if idx < f.flo then do
    let skip ← skipBack f.tree f.pos
    refocusBackMore f more idx (f.tree.spineIter.reverse.drop skip) f.flo
  else do
    let skip ← skipFwd f.tree f.pos
    refocusFwdMore f more idx (f.tree.spineIter.drop skip) f.fhi

/-- `Focus::get`, `src/focus.rs:262-272`; see `get`. -/
def getMore (f : Focus α) (more idx : Nat) : M (Option α × Focus α) := do
  let newIdx ← uadd idx f.lo
  if inRange f.lo f.hi newIdx then do
    let f ← (if !inRange f.flo f.fhi newIdx then f.refocusMore more newIdx else .ok f)
    let i ← usub newIdx f.flo
    let r ← f.node.getMore more i
    .ok (r.1, { f with node := r.2 })
  else .ok (none, f)

/-- `Focus::narrow`, `src/focus.rs:326-344`; see `narrow`. -/
def narrowMore (f : Focus α) (more : Nat) (startBound endBound : Bound) : M (Focus α) := do
  let rangeStart ← narrowStart startBound
  let rangeEnd ← f.narrowEnd endBound
  massert (!decide (rangeEnd > f.hi))
  let newStart ← uadd f.lo rangeStart
  let e ← uadd newStart rangeEnd
  let newEnd ← usub e rangeStart
  narrowedTreeMore more f.tree newStart newEnd

/-- `Focus::split_at`, `src/focus.rs:363-372`; see `splitAt`. -/
def splitAtMore (f : Focus α) (more idx : Nat) : M (Focus α × Focus α) := do
  let n ← f.len
  massert (!decide (idx ≥ n))
  let first ← narrowedTreeMore more f.tree f.lo idx
  let second ← narrowedTreeMore more f.tree idx f.hi
  .ok (first, second)

end Focus

namespace VIter

/-- `InternalVector::iter`, `src/vector.rs:2131-2137`; see `new`. -/
def newMore (more : Nat) (v : RVec α) : M (VIter α) := do
  let f ← Focus.newMore more v
  .ok ⟨0, v.len, f⟩

/-- `Iter::next`, `src/vector.rs:2498-2507`, and `Iter::next_back`, `:2533-2541`; see `step`. -/
def stepMore (more : Nat) : Side → VIter α → M (Option α × VIter α)
  | .front, it =>
    if it.front != it.back then do
      let r ← it.focus.getMore more it.front
      let x ← unwrap r.1
      .ok (some x, { it with front := it.front + 1, focus := r.2 })
    else .ok (none, it)
  | .back, it =>
    if it.front != it.back then do
      let bk ← usub it.back 1
      let r ← it.focus.getMore more bk
      .ok (r.1, { it with back := bk, focus := r.2 })
    else .ok (none, it)

end VIter

/-- What is done with a focus (`src/focus.rs:108-372`): `get`, `narrow`, or `split_at` and going on with one of the halves. -/
inductive Look where
  | get (idx : Nat)
  | narrow (startBound endBound : Bound)
  | splitAt (idx : Nat) (side : Side)

/-- One use of a focus. -/
def Look.exec (more : Nat) (f : Focus α) : Look → M (Focus α)
  | .get idx => do
    let r ← f.getMore more idx
    .ok r.2
  | .narrow startBound endBound => f.narrowMore more startBound endBound
  | .splitAt idx side => do
    let r ← f.splitAtMore more idx
    .ok (match side with | .front => r.1 | .back => r.2)

/-- The vectors of a program by their names. A name not used yet has an empty vector, and so has one whose vector was moved
away. -/
abbrev Vars (α : Type) := Nat → RVec α

/-- The call has ended with `v` in the place of vector `i`. -/
def Vars.put (vars : Vars α) (i : Nat) (v : RVec α) : Vars α := fun k => if k = i then v else vars k

/-- The calls a program makes. `i` is `self`; where a call takes another vector or returns one, `j` is its name. -/
inductive Attempt (α : Type) where
  | clone (i j : Nat)
  | drop (i : Nat)
  | push (i : Nat) (side : Side) (x : α)
  | pop (i : Nat) (side : Side)
  | get (i idx : Nat)
  | frontBack (i : Nat) (side : Side)
  | iter (i : Nat) (steps : List Side)
  | focus (i : Nat) (looks : List Look)
  | set (i idx : Nat) (x : α)
  | setFrontBack (i : Nat) (side : Side) (x : α)
  | splitOff (i at' j : Nat)
  | sliceFromStart (i len : Nat)
  | sliceToEnd (i start : Nat)
  | append (i j : Nat)
  | prepend (i j : Nat)
  | extractSlice (i : Nat) (startBound endBound : Bound) (j : Nat)
  | insert (i idx : Nat) (x : α)
  | remove (i idx : Nat)

/-- `catch_unwind` around a call on vector `i`: a panic of an item's `Clone` is caught, and what is left of the vector is in its
place. -/
def caught (vars : Vars α) (i : Nat) (m : CM γ α (Vars α)) (g : γ) : M (Vars α × γ) :=
  match m g with
  | (.ok vars, g) => .ok (vars, g)
  | (.error (.fault e), _) => .error e
  | (.error (.unwound left), g) => .ok (vars.put i left, g)

/-- One call, see the functions named. What is in a variable that gets a new vector is dropped. `push_back`, `push_front`,
`pop_back`, `pop_front`, `front`, `back`, `front_mut` and `back_mut` have the side as an argument. `iter` is followed by some calls
of `next` and `next_back`. -/
def Attempt.exec (cp : Copier γ α) (vars : Vars α) : Attempt α → γ → M (Vars α × γ)
  | .clone i j => caught vars i (do
      steady (vars j).free
      pure (vars.put j (vars i)))
  | .drop i => caught vars i (do
      steady (vars i).free
      pure (vars.put i .new))
  | .push i side x => caught vars i (do
      let v ← (vars i).pushSideC cp side x
      pure (vars.put i v))
  | .pop i side => caught vars i (do
      let r ← (vars i).popSideC cp side
      pure (vars.put i r.2))
  | .get i idx => caught vars i (do
      let _ ← steady ((vars i).getMore cp.more idx)
      pure vars)
  | .frontBack i side => caught vars i (do
      let _ ← steady ((vars i).frontBack side)
      pure vars)
  | .iter i steps => caught vars i (do
      let it ← steady (VIter.newMore cp.more (vars i))
      let _ ← steady (steps.foldlM (fun it side => do
        let r ← VIter.stepMore cp.more side it
        .ok r.2) it)
      pure vars)
  | .focus i looks => caught vars i (do
      let f ← steady (Focus.newMore cp.more (vars i))
      let _ ← steady (looks.foldlM (Look.exec cp.more) f)
      pure vars)
  | .set i idx x => caught vars i (do
      let r ← (vars i).setC cp idx x
      pure (vars.put i (r.getD (vars i))))
  | .setFrontBack i side x => caught vars i (do
      let r ← (vars i).setFrontBackC cp side x
      pure (vars.put i (r.getD (vars i))))
  | .splitOff i at' j => caught vars i (do
      let r ← (vars i).splitOffC cp at'
      steady (vars j).free
      pure ((vars.put i r.1).put j r.2))
  | .sliceFromStart i len => caught vars i (do
      let v ← (vars i).sliceFromStartC cp len
      pure (vars.put i v))
  | .sliceToEnd i start => caught vars i (do
      let v ← (vars i).sliceToEndC cp start
      pure (vars.put i v))
  | .append i j => caught (vars.put j .new) i (do
      let v ← (vars i).appendB cp (vars j)
      pure ((vars.put j .new).put i v))
  | .prepend i j => caught (vars.put j .new) i (do
      let v ← (vars j).appendB cp (vars i)
      pure ((vars.put j .new).put i v))
  | .extractSlice i startBound endBound j => caught vars i (do
      let r ← (vars i).extractSliceB cp startBound endBound
      steady (vars j).free
      pure ((vars.put i r.1).put j r.2))
  | .insert i idx x => caught vars i (do
      let v ← (vars i).insertB cp idx x
      pure (vars.put i v))
  | .remove i idx => caught vars i (do
      let r ← (vars i).removeB cp idx
      pure (vars.put i r.2))

/-- The calls of a program one after another. -/
def Attempt.run (cp : Copier γ α) : List (Attempt α) → Vars α → γ → M (Vars α × γ)
  | [], vars, g => .ok (vars, g)
  | c :: cs, vars, g => do
    let r ← c.exec cp vars g
    run cp cs r.1 r.2

end Librrb
