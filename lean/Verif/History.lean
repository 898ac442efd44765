import Verif.Spec
import Verif.Model.Sort

/-!
# Programs over several vectors

A program is a list of calls on variables that hold vectors. `Call.run` is what the modelled code does;
`Call.Means` says, in terms of plain sequences only, which results the call may have.
-/
namespace Librrb
open RVec

/-- What a call gives back. -/
inductive Answer (α : Type) where
  | none
  | item (x : Option α)
  | size (n : Nat)
  | flag (b : Bool)
  | items (xs : List (Option α))
  | order (o : Ordering)
  deriving DecidableEq

/-- A bound whose position is a `usize`. -/
def Bound.Fits : Bound → Prop
  | .unbounded => True
  | .included x => x < USIZE_LIMIT
  | .excluded x => x < USIZE_LIMIT

/-- What is done with the pieces of a mutable focus: the `k`-th piece is used, or is split into two. Pieces
that are used in any order are workers that take turns in any order. -/
inductive TOp (α : Type) where
  | use (k : Nat) (o : FOp α)
  | split (k : Nat) (i : Nat)

/-- Calls on one vector. `sortRange` has any comparator that is a total preorder, and any sequence of
numbers from the generator. `focusRead` reads through a `Focus`, `editFocus` reads and writes through a
`FocusMut`, `shareFocus` through the pieces that a `FocusMut` is split into, and `mapEnds` takes mutable references off the ends of `iter_mut` and replaces each item by its
image. -/
inductive Act (α : Type) where
  | len
  | isEmpty
  | get (i : Nat)
  | front
  | back
  | iterate (script : List Side)
  | set (i : Nat) (x : α)
  | setEnd (s : Side) (x : α)
  | pushBack (x : α)
  | pushFront (x : α)
  | popBack
  | popFront
  | splitOff (i : Nat)
  | sliceFromStart (n : Nat)
  | sliceToEnd (n : Nat)
  | extractSlice (sb eb : Bound)
  | insert (i : Nat) (x : α)
  | remove (i : Nat)
  | reverseRange (sb eb : Bound)
  | sortRange (cmp : α → α → Ordering) (total : Std.TransCmp cmp) (draws : Nat → Nat) (sb eb : Bound)
  | focusRead (is : List Nat)
  | mapEnds (g : α → α) (script : List Side)
  | editFocus (ops : List (FOp α))
  | shareFocus (ops : List (TOp α))

/-- Calls of a program: on one variable, or with new variables, or on two variables, or calls that end a
variable (`drop`, and `intoIter`, which takes items off the ends and then drops the iterator). -/
inductive Call (α : Type) where
  | new
  | singleton (x : α)
  | collect (items : List α)
  | clone (v : Nat)
  | act (v : Nat) (a : Act α)
  | append (v w : Nat)
  | prepend (v w : Nat)
  | compare (cmp : α → α → Ordering) (v w : Nat)
  | drop (v : Nat)
  | intoIter (v : Nat) (script : List Side)
  | constant (x : α) (n : Nat)
  | dualSort (cmp : α → α → Ordering) (total : Std.TransCmp cmp) (draws : Nat → Nat) (sb eb : Bound) (v w : Nat)

/-- Bounds in a call are bounds of `usize`, and so are the indices for a focus. -/
def Act.Fits : Act α → Prop
  | .extractSlice sb eb | .reverseRange sb eb | .sortRange _ _ _ sb eb => sb.Fits ∧ eb.Fits
  | .focusRead is => ∀ i ∈ is, i < USIZE_LIMIT
  | _ => True

def Call.Fits : Call α → Prop
  | .act _ a => a.Fits
  | .dualSort _ _ _ sb eb _ _ => sb.Fits ∧ eb.Fits
  | _ => True

/-! ### On the modelled vectors -/

/-- The result of an assignment through a mutable reference that may be absent. -/
def assigned (v : RVec α) : Option (RVec α) → Answer α × RVec α × List (RVec α)
  | .none => (.flag false, v, [])
  | .some v' => (.flag true, v', [])

/-- The operation on the pieces of a mutable focus, in order; nothing is done to a piece that is not there. -/
def TOp.run (t : TOp α) (st : RVec α × List (FMut Cell)) : M (Option α × (RVec α × List (FMut Cell))) :=
  match t with
  | .use k o =>
    match st.2[k]? with
    | .none => .ok (.none, st)
    | .some f => do
      let r ← o.run (st.1, f)
      .ok (r.1, (r.2.1, st.2.set k r.2.2))
  | .split k i =>
    match st.2[k]? with
    | .none => .ok (.none, st)
    | .some f => do
      let r ← f.splitAt i
      .ok (.none, (st.1, st.2.take k ++ r.1 :: r.2 :: st.2.drop (k + 1)))

/-- The answer, what the vector is afterwards, and further vectors that the call returns. -/
def Act.run (v : RVec α) : Act α → M (Answer α × RVec α × List (RVec α))
  | .len => .ok (.size v.len, v, [])
  | .isEmpty => .ok (.flag v.isEmpty, v, [])
  | .get i => do
    let x ← v.get i
    .ok (.item x, v, [])
  | .front => do
    let x ← v.frontBack .front
    .ok (.item x, v, [])
  | .back => do
    let x ← v.frontBack .back
    .ok (.item x, v, [])
  | .iterate script => do
    let it ← VIter.new v
    let r ← runScript VIter.step script it
    .ok (.items r.1, v, [])
  | .set i x => do
    let r ← v.set i x
    .ok (assigned v r)
  | .setEnd s x => do
    let r ← v.setFrontBack s x
    .ok (assigned v r)
  | .pushBack x => do
    let v ← v.pushBack x
    .ok (.none, v, [])
  | .pushFront x => do
    let v ← v.pushFront x
    .ok (.none, v, [])
  | .popBack => do
    let r ← v.popBack
    .ok (.item r.1, r.2, [])
  | .popFront => do
    let r ← v.popFront
    .ok (.item r.1, r.2, [])
  | .splitOff i => do
    let r ← v.splitOff i
    .ok (.none, r.1, [r.2])
  | .sliceFromStart n => do
    let v ← v.sliceFromStart n
    .ok (.none, v, [])
  | .sliceToEnd n => do
    let v ← v.sliceToEnd n
    .ok (.none, v, [])
  | .extractSlice sb eb => do
    let r ← v.extractSlice sb eb
    .ok (.none, r.1, [r.2])
  | .insert i x => do
    let v ← v.insert i x
    .ok (.none, v, [])
  | .remove i => do
    let r ← v.remove i
    .ok (.item r.1, r.2, [])
  | .reverseRange sb eb => do
    let v ← v.reverseRange sb eb
    .ok (.none, v, [])
  | .sortRange cmp _ draws sb eb => do
    let v ← v.sortRangeBy cmp sb eb (fun n : Nat => (draws n, n + 1)) 0
    .ok (.none, v, [])
  | .focusRead is => do
    let f ← Focus.new v
    let r ← runAll (fun i f => Focus.get f i) is f
    .ok (.items r.1, v, [])
  | .mapEnds g script => do
    let it ← VIterMut.new v.cells
    let r ← runScript (mapStep g) script (v, it)
    .ok (.items r.1, r.2.1, [])
  | .editFocus ops => do
    let f ← v.cells.focusMut
    let r ← runAll FOp.run ops (v, f)
    .ok (.items r.1, r.2.1, [])
  | .shareFocus ops => do
    let f ← v.cells.focusMut
    let r ← runAll TOp.run ops (v, [f])
    .ok (.items r.1, r.2.1, [])

/-- One call of a program; new vectors get new variables, at the end. A variable that is passed by value
(to `append` and `prepend`) is empty afterwards. A call on an unbound variable does nothing; nor does
`dualSort` on one variable, which is not a Rust program. -/
def Call.run (st : List (RVec α)) : Call α → M (Answer α × List (RVec α))
  | .new => .ok (.none, st ++ [RVec.new])
  | .singleton x => do
    let v ← RVec.singleton x
    .ok (.none, st ++ [v])
  | .collect items => do
    let v ← fromIter items
    .ok (.none, st ++ [v])
  | .clone v => .ok (.none, st ++ st[v]?.toList)
  | .act v a =>
    match st[v]? with
    | .none => .ok (.none, st)
    | .some x => do
      let r ← a.run x
      .ok (r.1, st.set v r.2.1 ++ r.2.2)
  | .append v w =>
    match (st.set w RVec.new)[v]?, st[w]? with
    | .some x, .some y => do
      let r ← x.append y
      .ok (.none, (st.set w RVec.new).set v r)
    | _, _ => .ok (.none, st)
  | .prepend v w =>
    match (st.set w RVec.new)[v]?, st[w]? with
    | .some x, .some y => do
      let r ← x.prepend y
      .ok (.none, (st.set w RVec.new).set v r)
    | _, _ => .ok (.none, st)
  | .compare cmp v w =>
    match st[v]?, st[w]? with
    | .some x, .some y => do
      let r ← cmpVec cmp x y
      .ok (.order r, st)
    | _, _ => .ok (.none, st)
  | .drop v => .ok (.none, st.eraseIdx v)
  | .intoIter v script =>
    match st[v]? with
    | .none => .ok (.none, st)
    | .some x => do
      let r ← runScript RVec.intoIterStep script x
      .ok (.items r.1, st.eraseIdx v)
  | .constant x n => do
    let v ← constantVecOfLength x n
    .ok (.none, st ++ [v])
  | .dualSort cmp _ draws sb eb v w =>
    if v = w then .ok (.none, st) else
    match st[v]?, st[w]? with
    | .some x, .some y => do
      let r ← x.dualSortRangeBy y cmp sb eb (fun n : Nat => (draws n, n + 1)) 0
      .ok (.none, (st.set v r.1).set w r.2)
    | _, _ => .ok (.none, st)

/-- A program, from given variables. -/
def runProgram : List (Call α) → List (RVec α) → M (List (Answer α) × List (RVec α)) :=
  runAll fun c st => c.run st

/-! ### On sequences -/

/-- `l`, if its length is that of a vector; otherwise the call panics because of an overflow. -/
def fitting (l : List α) (r : γ) : M γ := if l.length < USIZE_LIMIT then .ok r else .error .overflow

/-- The positions of a range, for calls that accept any range. -/
def looseRange (n : Nat) (sb eb : Bound) : M (Nat × Nat) :=
  if sb.first < USIZE_LIMIT ∧ eb.afterLast n < USIZE_LIMIT then .ok (sb.first, eb.afterLast n)
  else .error .overflow

/-- The positions of a range, for calls that panic unless the range is one of positions of the sequence. -/
def strictRange (n : Nat) (sb eb : Bound) : M (Nat × Nat) := do
  let r ← looseRange n sb eb
  if r.1 ≤ r.2 ∧ r.2 ≤ n then .ok r else .error .panic

/-- The operation on the pieces of a sequence. -/
def TOp.spec (t : TOp α) (ls : List (List α)) : M (Option α × List (List α)) :=
  match t with
  | .use k o =>
    match ls[k]? with
    | .none => .ok (.none, ls)
    | .some l => .ok ((o.spec l).1, ls.set k (o.spec l).2)
  | .split k i =>
    match ls[k]? with
    | .none => .ok (.none, ls)
    | .some l =>
      if i ≤ l.length then .ok (.none, ls.take k ++ l.take i :: l.drop i :: ls.drop (k + 1)) else .error .panic

/-- Some piece is asked for an index beyond its end. -/
def strays : List (TOp α) → List (List α) → Prop
  | [], _ => False
  | t :: ts, ls => (∃ k o l, t = .use k o ∧ ls[k]? = .some l ∧ l.length ≤ o.index) ∨
      ∃ a ls', t.spec ls = .ok (a, ls') ∧ strays ts ls'

/-- The results that a call on one sequence may have. All calls have one result, but for
`sortRange`, and for `editFocus` and `shareFocus` with an index out of range, which may make it panic. -/
def Act.Means (l : List α) (r : M (Answer α × List α × List (List α))) : Act α → Prop
  | .len => r = .ok (.size l.length, l, [])
  | .isEmpty => r = .ok (.flag (l.length == 0), l, [])
  | .get i => r = .ok (.item l[i]?, l, [])
  | .front => r = .ok (.item l.head?, l, [])
  | .back => r = .ok (.item l.getLast?, l, [])
  | .iterate script => r = .ok (.items (drain script l).1, l, [])
  | .set i x => r = .ok (.flag (decide (i < l.length)), l.set i x, [])
  | .setEnd .front x => r = .ok (.flag (decide (l ≠ [])), l.set 0 x, [])
  | .setEnd .back x => r = .ok (.flag (decide (l ≠ [])), l.set (l.length - 1) x, [])
  | .pushBack x => r = fitting (l ++ [x]) (.none, l ++ [x], [])
  | .pushFront x => r = fitting (x :: l) (.none, x :: l, [])
  | .popBack => r = .ok (.item l.getLast?, l.dropLast, [])
  | .popFront => r = .ok (.item l.head?, l.tail, [])
  | .splitOff i => r = .ok (.none, l.take i, [l.drop i])
  | .sliceFromStart n => r = .ok (.none, l.take n, [])
  | .sliceToEnd n => r = .ok (.none, l.drop n, [])
  | .extractSlice sb eb => r = do
    let p ← looseRange l.length sb eb
    if p.1 ≤ p.2 then .ok (.none, l.take p.1 ++ l.drop p.2, [(l.take p.2).drop p.1])
    else .ok (.none, l, [[]])
  | .insert i x => r = fitting (x :: l) (.none, l.take i ++ x :: l.drop i, [])
  | .remove i => r = .ok (.item l[i]?, l.eraseIdx i, [])
  | .reverseRange sb eb => r = do
    let p ← strictRange l.length sb eb
    .ok (.none, l.take p.1 ++ ((l.take p.2).drop p.1).reverse ++ l.drop p.2, [])
  | .sortRange cmp _ _ sb eb => ∃ m : Nat × Nat → List α,
    (∀ p, strictRange l.length sb eb = .ok p →
      (m p).Perm ((l.take p.2).drop p.1) ∧ (m p).Pairwise (fun x y => cmp x y ≠ .gt)) ∧
    r = do
      let p ← strictRange l.length sb eb
      .ok (.none, l.take p.1 ++ m p ++ l.drop p.2, [])
  | .focusRead is => r = .ok (.items (is.map fun i => l[i]?), l, [])
  | .mapEnds g script => r = .ok (.items (drain script l).1, Librrb.mapEnds g script l, [])
  | .editFocus ops => r = .ok (.items (FOp.specAll ops l).1, (FOp.specAll ops l).2, []) ∨
    r = .error .panic ∧ ∃ o ∈ ops, l.length ≤ o.index
  | .shareFocus ops => r = (do
      let q ← runAll TOp.spec ops [l]
      .ok (.items q.1, q.2.flatten, [])) ∨
    r = .error .panic ∧ strays ops [l]

/-- The results that a call may have when the variables hold the sequences `st`. -/
def Call.Means (st : List (List α)) (r : M (Answer α × List (List α))) : Call α → Prop
  | .new => r = .ok (.none, st ++ [[]])
  | .singleton x => r = .ok (.none, st ++ [[x]])
  | .collect items => r = fitting items (.none, st ++ [items])
  | .clone v => r = .ok (.none, st ++ st[v]?.toList)
  | .act v a =>
    match st[v]? with
    | .none => r = .ok (.none, st)
    | .some l => ∃ q, a.Means l q ∧ r = do
      let q ← q
      .ok (q.1, st.set v q.2.1 ++ q.2.2)
  | .append v w =>
    match (st.set w [])[v]?, st[w]? with
    | .some x, .some y => r = fitting (x ++ y) (.none, (st.set w []).set v (x ++ y))
    | _, _ => r = .ok (.none, st)
  | .prepend v w =>
    match (st.set w [])[v]?, st[w]? with
    | .some x, .some y => r = fitting (y ++ x) (.none, (st.set w []).set v (y ++ x))
    | _, _ => r = .ok (.none, st)
  | .compare cmp v w =>
    match st[v]?, st[w]? with
    | .some x, .some y => r = .ok (.order (List.compareLex cmp x y), st)
    | _, _ => r = .ok (.none, st)
  | .drop v => r = .ok (.none, st.eraseIdx v)
  | .intoIter v script =>
    match st[v]? with
    | .none => r = .ok (.none, st)
    | .some l => r = .ok (.items (drain script l).1, st.eraseIdx v)
  | .constant x n => r = if n < 2 ^ 63 then .ok (.none, st ++ [List.replicate n x]) else .error .overflow
  | .dualSort cmp _ _ sb eb v w =>
    if v = w then r = .ok (.none, st) else
    match st[v]?, st[w]? with
    | .some l, .some m => ∃ z : Nat × Nat → List (α × α),
      (∀ p, strictRange l.length sb eb = .ok p → p.2 ≤ m.length →
        (z p).Perm (((l.take p.2).drop p.1).zip ((m.take p.2).drop p.1)) ∧
          (z p).Pairwise (fun x y => cmp x.1 y.1 ≠ .gt)) ∧
      r = do
        let p ← strictRange l.length sb eb
        if p.2 ≤ m.length then
          .ok (.none, (st.set v (l.take p.1 ++ (z p).map Prod.fst ++ l.drop p.2)).set w
            (m.take p.1 ++ (z p).map Prod.snd ++ m.drop p.2))
        else .error .panic
    | _, _ => r = .ok (.none, st)

/-- The results that a program may have. -/
def ProgramMeans : List (Call α) → List (List α) → M (List (Answer α) × List (List α)) → Prop
  | [], st, r => r = .ok ([], st)
  | c :: cs, st, r => ∃ q, c.Means st q ∧
    match q with
    | .error e => r = .error e
    | .ok (a, st') => ∃ r', ProgramMeans cs st' r' ∧ r = r'.map fun p => (a :: p.1, p.2)

end Librrb
