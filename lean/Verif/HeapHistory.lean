import Verif.History
import Verif.Model.HeapSort
import Verif.Model.HeapFocus

/-!
# Programs over several vectors, on reference-counted nodes

The calls of `Verif/History.lean`, run by the model in which nodes live in a heap and are shared.
-/
namespace Librrb

/-- Running several calls; the answers in order. -/
def hrunAll (step : ι → σ → HM α (β × σ)) : List ι → σ → HM α (List β × σ)
  | [], st => pure ([], st)
  | o :: os, st => do
    let r ← step o st
    let q ← hrunAll step os r.2
    pure (r.1 :: q.1, q.2)

/-- What is done with the result of `get` of a mutable focus; see `FOp.access`. -/
def FOp.haccess (o : FOp α) : Option Ptr → HM α (Option α)
  | none => pure none
  | some p => do
    let old ← readPtr p
    match o with
    | .read _ => pure (some old)
    | .write _ x => do
      writePtr x p
      pure (some old)

/-- The operation through a mutable focus; see `FOp.run`. -/
def FOp.hrun (o : FOp α) (f : HFMut) : HM α (Option α × HFMut) := do
  let r ← f.get o.index
  let a ← o.haccess r.1
  pure (a, r.2)

/-- One step of a loop over `iter_mut`; see `mapStep`. -/
def hmapStep (g : α → α) (s : Side) (it : HVIterMut) : HM α (Option α × HVIterMut) := do
  let r ← HVIterMut.step s it
  match r.1 with
  | none => pure (none, r.2)
  | some p => do
    let x ← readPtr p
    writePtr (g x) p
    pure (some x, r.2)

/-- See `TOp.run`. -/
def TOp.hrun (t : TOp α) (fs : List HFMut) : HM α (Option α × List HFMut) :=
  match t with
  | .use k o =>
    match fs[k]? with
    | none => pure (none, fs)
    | some f => do
      let r ← o.hrun f
      pure (r.1, fs.set k r.2)
  | .split k i =>
    match fs[k]? with
    | none => pure (none, fs)
    | some f => do
      let r ← f.splitAt i
      pure (none, fs.take k ++ r.1 :: r.2 :: fs.drop (k + 1))

/-- `IntoIter`, `src/vector.rs:2639-2684`; see `RVec.intoIterStep`. -/
def HVec.intoIterStep : Side → HVec → HM α (Option α × HVec)
  | .front, v => v.popFront
  | .back, v => v.popBack

/-- A call on one vector; see `Act.run`. -/
def Act.hrun (v : HVec) : Act α → HM α (Answer α × HVec × List HVec)
  | .len => pure (.size v.len, v, [])
  | .isEmpty => pure (.flag (v.len == 0), v, [])
  | .get i => do
    let x ← v.get i
    pure (.item x, v, [])
  | .front => do
    let x ← v.frontBack .front
    pure (.item x, v, [])
  | .back => do
    let x ← v.frontBack .back
    pure (.item x, v, [])
  | .iterate script => do
    let it ← HVIter.new v
    let r ← HVIter.run script it
    pure (.items r.1, v, [])
  | .set i x => do
    let r ← v.set i x
    pure (.flag r.1, r.2, [])
  | .setEnd s x => do
    let r ← v.setFrontBack s x
    pure (.flag r.1, r.2, [])
  | .pushBack x => do
    let v ← v.pushBack x
    pure (.none, v, [])
  | .pushFront x => do
    let v ← v.pushFront x
    pure (.none, v, [])
  | .popBack => do
    let r ← v.popBack
    pure (.item r.1, r.2, [])
  | .popFront => do
    let r ← v.popFront
    pure (.item r.1, r.2, [])
  | .splitOff i => do
    let r ← v.splitOff i
    pure (.none, r.1, [r.2])
  | .sliceFromStart n => do
    let v ← v.sliceFromStart n
    pure (.none, v, [])
  | .sliceToEnd n => do
    let v ← v.sliceToEnd n
    pure (.none, v, [])
  | .extractSlice sb eb => do
    let r ← v.extractSlice sb eb
    pure (.none, r.1, [r.2])
  | .insert i x => do
    let v ← v.insert i x
    pure (.none, v, [])
  | .remove i => do
    let r ← v.remove i
    pure (.item r.1, r.2, [])
  | .reverseRange sb eb => do
    let v ← v.reverseRange sb eb
    pure (.none, v, [])
  | .sortRange cmp _ draws sb eb => do
    let v ← v.sortRangeBy cmp sb eb (fun n : Nat => (draws n, n + 1)) 0
    pure (.none, v, [])
  | .focusRead is => do
    let f ← HFocus.new v
    let r ← hrunAll (fun i f => HFocus.get f i) is f
    pure (.items r.1, v, [])
  | .mapEnds g script => do
    let w ← HVIterMut.new v
    let r ← hrunAll (hmapStep g) script w.2
    pure (.items r.1, w.1, [])
  | .editFocus ops => do
    let w ← v.focusMut
    let r ← hrunAll FOp.hrun ops w.2
    pure (.items r.1, w.1, [])
  | .shareFocus ops => do
    let w ← v.focusMut
    let r ← hrunAll TOp.hrun ops [w.2]
    pure (.items r.1, w.1, [])

/-- One call of a program; see `Call.run`. To pass the variable `w` by value to `append` or `prepend` is to
leave a new vector in it. -/
def Call.hrun (st : List HVec) : Call α → HM α (Answer α × List HVec)
  | .new => do
    let v ← HVec.new
    pure (.none, st ++ [v])
  | .singleton x => do
    let v ← HVec.singleton x
    pure (.none, st ++ [v])
  | .collect items => do
    let v ← HVec.fromIter items
    pure (.none, st ++ [v])
  | .clone v =>
    match st[v]? with
    | .none => pure (.none, st)
    | .some x => do
      let y ← x.clone
      pure (.none, st ++ [y])
  | .act v a =>
    match st[v]? with
    | .none => pure (.none, st)
    | .some x => do
      let r ← a.hrun x
      pure (r.1, st.set v r.2.1 ++ r.2.2)
  | .append v w =>
    match st[v]?, st[w]? with
    | .some x, .some y => do
      let e ← HVec.new
      let r ← (if v = w then e else x).append y
      pure (.none, (st.set w e).set v r)
    | _, _ => pure (.none, st)
  | .prepend v w =>
    match st[v]?, st[w]? with
    | .some x, .some y => do
      let e ← HVec.new
      let r ← (if v = w then e else x).prepend y
      pure (.none, (st.set w e).set v r)
    | _, _ => pure (.none, st)
  | .compare cmp v w =>
    match st[v]?, st[w]? with
    | .some x, .some y => do
      let r ← HVec.cmpVec cmp x y
      pure (.order r, st)
    | _, _ => pure (.none, st)
  | .drop v =>
    match st[v]? with
    | .none => pure (.none, st)
    | .some x => do
      x.drop
      pure (.none, st.eraseIdx v)
  | .intoIter v script =>
    match st[v]? with
    | .none => pure (.none, st)
    | .some x => do
      let r ← hrunAll HVec.intoIterStep script x
      r.2.drop
      pure (.items r.1, st.eraseIdx v)
  | .constant x n => do
    let v ← HVec.constantVecOfLength x n
    pure (.none, st ++ [v])
  | .dualSort cmp _ draws sb eb v w =>
    if v = w then pure (.none, st) else
    match st[v]?, st[w]? with
    | .some x, .some y => do
      let r ← x.dualSortRangeBy y cmp sb eb (fun n : Nat => (draws n, n + 1)) 0
      pure (.none, (st.set v r.1).set w r.2)
    | _, _ => pure (.none, st)

/-- A program, from given variables. -/
def runHeap : List (Call α) → List HVec → HM α (List (Answer α) × List HVec) :=
  hrunAll fun c st => c.hrun st

end Librrb
