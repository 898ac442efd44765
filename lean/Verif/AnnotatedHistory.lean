import Verif.History
import Verif.Model.AnnotatedSort

/-!
# Programs over several annotated vectors

As in `Verif/History.lean`, for vectors of nodes that cache their sums. What a call means is said by
`Call.Means` of the same call on plain vectors.
-/
namespace Librrb

/-- Calls on one annotated vector. -/
inductive AAct where
  | len
  | isEmpty
  | get (i : Nat)
  | front
  | back
  | iterate (script : List Side)
  | focusRead (is : List Nat)
  /-- `*v.get_mut_guarded(i)? = x` (`guarded`) or `*v.get_mut(i)? = x`. -/
  | set (guarded : Bool) (i x : Nat)
  | setEnd (s : Side) (x : Nat)
  | push (s : Side) (x : Nat)
  | pop (s : Side)
  | splitOff (i : Nat)
  | sliceFromStart (n : Nat)
  | sliceToEnd (n : Nat)
  | extractSlice (sb eb : Bound)
  | insert (i x : Nat)
  | remove (i : Nat)
  | mapEnds (g : Nat → Nat) (script : List Side)
  | editFocus (ops : List (FOp Nat))
  | shareFocus (ops : List (TOp Nat))
  | reverseRange (sb eb : Bound)
  | sortRange (cmp : Nat → Nat → Ordering) (total : Std.TransCmp cmp) (draws : Nat → Nat) (sb eb : Bound)

/-- Calls of a program. -/
inductive ACall where
  | new
  | singleton (x : Nat)
  | collect (items : List Nat)
  | clone (v : Nat)
  | act (v : Nat) (a : AAct)
  | append (v w : Nat)
  | prepend (v w : Nat)
  | compare (cmp : Nat → Nat → Ordering) (v w : Nat)
  | drop (v : Nat)
  | intoIter (v : Nat) (script : List Side)
  | constant (x n : Nat)
  | dualSort (cmp : Nat → Nat → Ordering) (total : Std.TransCmp cmp) (draws : Nat → Nat) (sb eb : Bound) (v w : Nat)

/-- The same call on a plain vector. -/
def AAct.plain : AAct → Act Nat
  | .len => .len
  | .isEmpty => .isEmpty
  | .get i => .get i
  | .front => .front
  | .back => .back
  | .iterate script => .iterate script
  | .focusRead is => .focusRead is
  | .set _ i x => .set i x
  | .setEnd s x => .setEnd s x
  | .push .front x => .pushFront x
  | .push .back x => .pushBack x
  | .pop .front => .popFront
  | .pop .back => .popBack
  | .splitOff i => .splitOff i
  | .sliceFromStart n => .sliceFromStart n
  | .sliceToEnd n => .sliceToEnd n
  | .extractSlice sb eb => .extractSlice sb eb
  | .insert i x => .insert i x
  | .remove i => .remove i
  | .mapEnds g script => .mapEnds g script
  | .editFocus ops => .editFocus ops
  | .shareFocus ops => .shareFocus ops
  | .reverseRange sb eb => .reverseRange sb eb
  | .sortRange cmp total draws sb eb => .sortRange cmp total draws sb eb

/-- The same call on plain vectors. -/
def ACall.plain : ACall → Call Nat
  | .new => .new
  | .singleton x => .singleton x
  | .collect items => .collect items
  | .clone v => .clone v
  | .act v a => .act v a.plain
  | .append v w => .append v w
  | .prepend v w => .prepend v w
  | .compare cmp v w => .compare cmp v w
  | .drop v => .drop v
  | .intoIter v script => .intoIter v script
  | .constant x n => .constant x n
  | .dualSort cmp total draws sb eb v w => .dualSort cmp total draws sb eb v w

/-- The result of an assignment through a mutable reference that may be absent. -/
def AVec.assigned (v : AVec) : Option AVec → Answer Nat × AVec × List AVec
  | .none => (.flag false, v, [])
  | .some v' => (.flag true, v', [])

/-- See `FOp.access`. -/
def FOp.accessA (o : FOp Nat) (v : AVec) : Option Cell → M (Option Nat × AVec)
  | .none => .ok (.none, v)
  | .some c => do
    let old ← v.erase.readCell c
    match o with
    | .read _ => .ok (.some old, v)
    | .write _ x => do
      let v ← v.writeCell x c
      .ok (.some old, v)

/-- The operation through a mutable focus of the vector. -/
def FOp.runA (o : FOp Nat) (st : AVec × FMut Cell) : M (Option Nat × (AVec × FMut Cell)) := do
  let r ← st.1.focusGet st.2 o.index
  let a ← o.accessA r.2.1 r.1
  .ok (a.1, (a.2, r.2.2))

/-- See `TOp.run`; the foci that were split are kept, the latest first. -/
def TOp.runA (t : TOp Nat) (st : AVec × List (FMut Cell) × List (FMut Cell)) :
    M (Option Nat × (AVec × List (FMut Cell) × List (FMut Cell))) :=
  match t with
  | .use k o =>
    match st.2.1[k]? with
    | .none => .ok (.none, st)
    | .some f => do
      let r ← o.runA (st.1, f)
      .ok (r.1, (r.2.1, st.2.1.set k r.2.2, st.2.2))
  | .split k i =>
    match st.2.1[k]? with
    | .none => .ok (.none, st)
    | .some f => do
      let r ← st.1.focusSplit f i
      .ok (.none, (r.1, st.2.1.take k ++ r.2.1 :: r.2.2 :: st.2.1.drop (k + 1), f :: st.2.2))

/-- See `mapStep`. `next` and `next_back` of `IterMut`, `src/vector.rs:2577-2587`, `:2613-2621`, move the focus to `front`
and to `back - 1`. -/
def mapStepA (g : Nat → Nat) (s : Side) (st : AVec × VIterMut Cell) : M (Option Nat × (AVec × VIterMut Cell)) := do
  let v ← (if st.2.front != st.2.back then
      st.1.dropBorrowed (st.2.focus.moveDrops (match s with | .front => st.2.front | .back => st.2.back - 1))
    else .ok st.1)
  let r ← VIterMut.step s st.2
  match r.1 with
  | .none => .ok (.none, (v, r.2))
  | .some c => do
    let x ← v.erase.readCell c
    let v ← v.writeCell (g x) c
    .ok (.some x, (v, r.2))

/-- The answer, what the vector is afterwards, and further vectors that the call returns. A focus, or an iterator, is
dropped at the end of the call; of several foci the pieces are dropped first, in order, and then what they were split from. -/
def AAct.run (v : AVec) : AAct → M (Answer Nat × AVec × List AVec)
  | .len => .ok (.size v.len, v, [])
  | .isEmpty => .ok (.flag v.isEmpty, v, [])
  | .get i => do
    let x ← v.get i
    .ok (.item x, v, [])
  | .front => do
    let x ← v.frontBack .front
    .ok (.item x, v, [])
  | .back => do
    let x ← v.frontBack .back
    .ok (.item x, v, [])
  | .iterate script => do
    let it ← VIter.new v.erase
    let r ← runScript VIter.step script it
    .ok (.items r.1, v, [])
  | .focusRead is => do
    let f ← Focus.new v.erase
    let r ← runAll (fun i f => Focus.get f i) is f
    .ok (.items r.1, v, [])
  | .set g i x => do
    let r ← v.set g i x
    .ok (v.assigned r)
  | .setEnd s x => do
    let r ← v.setFrontBack s x
    .ok (v.assigned r)
  | .push s x => do
    let v ← v.pushSide s x
    .ok (.none, v, [])
  | .pop s => do
    let r ← v.popSide s
    .ok (.item r.1, r.2, [])
  | .splitOff i => do
    let r ← v.splitOff i
    .ok (.none, r.1, [r.2])
  | .sliceFromStart n => do
    let v ← v.sliceFromStart n
    .ok (.none, v, [])
  | .sliceToEnd n => do
    let v ← v.sliceToEnd n
    .ok (.none, v, [])
  | .extractSlice sb eb => do
    let r ← v.extractSlice sb eb
    .ok (.none, r.1, [r.2])
  | .insert i x => do
    let v ← v.insert i x
    .ok (.none, v, [])
  | .remove i => do
    let r ← v.remove i
    .ok (.item r.1, r.2, [])
  | .mapEnds g script => do
    let it ← VIterMut.new v.erase.cells
    let r ← runScript (mapStepA g) script (v, it)
    let v ← r.2.1.dropFoci [r.2.2.focus]
    .ok (.items r.1, v, [])
  | .editFocus ops => do
    let f ← v.erase.cells.focusMut
    let r ← runAll FOp.runA ops (v, f)
    let v ← r.2.1.dropFoci [r.2.2]
    .ok (.items r.1, v, [])
  | .shareFocus ops => do
    let f ← v.erase.cells.focusMut
    let r ← runAll TOp.runA ops (v, [f], [])
    let v ← r.2.1.dropFoci (r.2.2.1 ++ r.2.2.2)
    .ok (.items r.1, v, [])
  | .reverseRange sb eb => do
    let v ← v.reverseRange sb eb
    .ok (.none, v, [])
  | .sortRange cmp _ draws sb eb => do
    let v ← v.sortRangeBy cmp sb eb (fun n : Nat => (draws n, n + 1)) 0
    .ok (.none, v, [])

/-- One call of a program; see `Call.run`. -/
def ACall.run (st : List AVec) : ACall → M (Answer Nat × List AVec)
  | .new => .ok (.none, st ++ [AVec.new])
  | .singleton x => do
    let v ← AVec.singleton x
    .ok (.none, st ++ [v])
  | .collect items => do
    let v ← AVec.fromIter items
    .ok (.none, st ++ [v])
  | .clone v => .ok (.none, st ++ st[v]?.toList)
  | .act v a =>
    match st[v]? with
    | .none => .ok (.none, st)
    | .some x => do
      let r ← a.run x
      .ok (r.1, st.set v r.2.1 ++ r.2.2)
  | .append v w =>
    match (st.set w AVec.new)[v]?, st[w]? with
    | .some x, .some y => do
      let r ← x.append y
      .ok (.none, (st.set w AVec.new).set v r)
    | _, _ => .ok (.none, st)
  | .prepend v w =>
    match (st.set w AVec.new)[v]?, st[w]? with
    | .some x, .some y => do
      let r ← x.prepend y
      .ok (.none, (st.set w AVec.new).set v r)
    | _, _ => .ok (.none, st)
  | .compare cmp v w =>
    match st[v]?, st[w]? with
    | .some x, .some y => do
      let r ← RVec.cmpVec cmp x.erase y.erase
      .ok (.order r, st)
    | _, _ => .ok (.none, st)
  | .drop v => .ok (.none, st.eraseIdx v)
  | .intoIter v script =>
    match st[v]? with
    | .none => .ok (.none, st)
    | .some x => do
      let r ← runScript (fun s v => v.popSide s) script x
      .ok (.items r.1, st.eraseIdx v)
  | .constant x n => do
    let v ← AVec.constantVecOfLength x n
    .ok (.none, st ++ [v])
  | .dualSort cmp _ draws sb eb v w =>
    if v = w then .ok (.none, st) else
    match st[v]?, st[w]? with
    | .some x, .some y => do
      let r ← x.dualSortRangeBy y cmp sb eb (fun n : Nat => (draws n, n + 1)) 0
      .ok (.none, (st.set v r.1).set w r.2)
    | _, _ => .ok (.none, st)

/-- A program, from given variables. -/
def runAProgram : List ACall → List AVec → M (List (Answer Nat) × List AVec) :=
  runAll fun c st => c.run st

end Librrb
