import Verif.Model.FocusMut
import Verif.Model.Search

/-!
# What a user sees

A vector is observed through `len` and `get` only; the states that matter are those that calls of
the public API can produce.
-/
namespace Librrb
open RVec

/-- Through `len` and `get` the vector presents the sequence `l`, and looking at it never fails. -/
def Shows (v : RVec α) (l : List α) : Prop :=
  v.len = l.length ∧ ∀ i, v.get i = .ok l[i]?

/-- The call neither read an empty or moved-out slot nor overwrote a live one. -/
def Safe (r : M γ) : Prop := r ≠ .error .ub ∧ r ≠ .error .leak

/-- The first index of a range over positions. -/
def Bound.first : Bound → Nat
  | .unbounded => 0
  | .included x => x
  | .excluded x => x + 1

/-- The index after the last one of a range over the positions of a sequence of length `n`. -/
def Bound.afterLast (n : Nat) : Bound → Nat
  | .unbounded => n
  | .included x => x + 1
  | .excluded x => x

/-- The vectors that calls of the public API produce. A copy of a vector is the vector itself. -/
inductive Built {α : Type} : RVec α → Prop
  | new : Built RVec.new
  | singleton {x v} : RVec.singleton x = .ok v → Built v
  | constant {x n v} : constantVecOfLength x n = .ok v → Built v
  | collect {items v} : fromIter items = .ok v → Built v
  | pushBack {v x v'} : Built v → v.pushBack x = .ok v' → Built v'
  | pushFront {v x v'} : Built v → v.pushFront x = .ok v' → Built v'
  | popBack {v r v'} : Built v → v.popBack = .ok (r, v') → Built v'
  | popFront {v r v'} : Built v → v.popFront = .ok (r, v') → Built v'
  | set {v i x v'} : Built v → v.set i x = .ok (some v') → Built v'
  | setEnd {v s x v'} : Built v → v.setFrontBack s x = .ok (some v') → Built v'
  | append {v w v'} : Built v → Built w → v.append w = .ok v' → Built v'
  | prepend {v w v'} : Built v → Built w → v.prepend w = .ok v' → Built v'
  | splitOffLeft {v i a b} : Built v → v.splitOff i = .ok (a, b) → Built a
  | splitOffRight {v i a b} : Built v → v.splitOff i = .ok (a, b) → Built b
  | sliceFromStart {v n v'} : Built v → v.sliceFromStart n = .ok v' → Built v'
  | sliceToEnd {v n v'} : Built v → v.sliceToEnd n = .ok v' → Built v'
  | extractRest {v a b w r} : Built v → v.extractSlice a b = .ok (w, r) → Built w
  | extractSlice {v a b w r} : Built v → v.extractSlice a b = .ok (w, r) → Built r
  | insert {v i x v'} : Built v → v.insert i x = .ok v' → Built v'
  | remove {v i r v'} : Built v → v.remove i = .ok (r, v') → Built v'

end Librrb

/-! ### Double-ended iteration -/
namespace Librrb

/-- Taking an item from one end of a sequence: what is taken, and what is left. -/
def takeEnd : Side → List α → Option α × List α
  | .front, l => (l.head?, l.tail)
  | .back, l => (l.getLast?, l.dropLast)

/-- The answers to a script of `next` (`front`) and `next_back` (`back`) calls on a sequence, and
what is left at the end. -/
def drain : List Side → List α → List (Option α) × List α
  | [], l => ([], l)
  | s :: ss, l => ((takeEnd s l).1 :: (drain ss (takeEnd s l).2).1, (drain ss (takeEnd s l).2).2)

/-- Running a script of `next` and `next_back` calls of an iterator with states `σ`. -/
def runScript (step : Side → σ → M (Option β × σ)) : List Side → σ → M (List (Option β) × σ)
  | [], st => .ok ([], st)
  | s :: ss, st => do
    let r ← step s st
    let q ← runScript step ss r.2
    .ok (r.1 :: q.1, q.2)

/-- Running several calls; the answers in order. -/
def runAll (step : ι → σ → M (β × σ)) : List ι → σ → M (List β × σ)
  | [], st => .ok ([], st)
  | o :: os, st => do
    let r ← step o st
    let q ← runAll step os r.2
    .ok (r.1 :: q.1, q.2)

/-! ### Shared foci -/

/-- The shared foci of a vector that calls of the public API produce. -/
inductive FBuilt {α : Type} (v : RVec α) : Focus α → Prop
  | new {f} : Focus.new v = .ok f → FBuilt v f
  | narrowedTree {lo hi f} : Focus.narrowedTree v lo hi = .ok f → FBuilt v f
  | get {f i r} : FBuilt v f → f.get i = .ok r → FBuilt v r.2
  | narrow {f sb eb f'} : FBuilt v f → f.narrow sb eb = .ok f' → FBuilt v f'
  | splitFirst {f i r} : FBuilt v f → f.splitAt i = .ok r → FBuilt v r.1
  | splitSecond {f i r} : FBuilt v f → f.splitAt i = .ok r → FBuilt v r.2

/-- Whatever indices are asked for, in whatever order, the focus answers with the items of `l`. The
code adds the start of the focus to the index and that sum has to fit into a `usize`, so a focus
that does not start at 0 panics on enormous indices; `bound` is where they begin. -/
def FReads (f : Focus α) (bound : Nat) (l : List α) : Prop :=
  ∀ is : List Nat, (∀ i ∈ is, i < bound) →
    ∃ f', runAll (fun i f => Focus.get f i) is f = .ok (is.map fun i => l[i]?, f')

/-! ### Mutable foci -/

/-- The mutable foci of a vector that calls of the public API produce, with the range of positions
that each is meant for. If `tame`, only indices inside of the focus were asked for. -/
inductive MBuilt {α : Type} (v : RVec α) (tame : Prop) : FMut Cell → Nat → Nat → Prop
  | new {f} : v.cells.focusMut = .ok f → MBuilt v tame f 0 v.len
  | get {f lo hi i r} : MBuilt v tame f lo hi → (tame → i < hi - lo) → f.get i = .ok r → MBuilt v tame r.2 lo hi
  | splitFirst {f lo hi i r} : MBuilt v tame f lo hi → f.splitAt i = .ok r → MBuilt v tame r.1 lo (lo + i)
  | splitSecond {f lo hi i r} : MBuilt v tame f lo hi → f.splitAt i = .ok r → MBuilt v tame r.2 (lo + i) hi

/-- The place `c` is where the `i`-th of the items `l` of the vector lives: this item is read there,
and assigning there replaces just this item. -/
def PlaceOf (v : RVec α) (l : List α) (i : Nat) (c : Cell) : Prop :=
  (∃ x, l[i]? = some x ∧ v.readCell c = .ok x) ∧
    ∀ y, ∃ v', v.writeCell y c = .ok v' ∧ Built v' ∧ Shows v' (l.set i y)

/-- What is done with a mutable focus: read the item at an index, or replace it. -/
inductive FOp (α : Type) where
  | read (i : Nat)
  | write (i : Nat) (x : α)

/-- The index of an operation. -/
def FOp.index : FOp α → Nat
  | .read i => i
  | .write i _ => i

/-- The operation on a sequence; the answer is the item found at the index. -/
def FOp.spec : FOp α → List α → Option α × List α
  | .read i, l => (l[i]?, l)
  | .write i x, l => (l[i]?, l.set i x)

/-- Several operations on a sequence. -/
def FOp.specAll : List (FOp α) → List α → List (Option α) × List α
  | [], l => ([], l)
  | o :: os, l => ((o.spec l).1 :: (specAll os (o.spec l).2).1, (specAll os (o.spec l).2).2)

/-- What is done with the result of `get`: nothing if it is `None`; otherwise the item is read and,
for `write`, replaced. -/
def FOp.access (o : FOp α) (v : RVec α) : Option Cell → M (Option α × RVec α)
  | none => .ok (none, v)
  | some c => do
    let old ← v.readCell c
    match o with
    | .read _ => .ok (some old, v)
    | .write _ x => do
      let v ← v.writeCell x c
      .ok (some old, v)

/-- The operation through a mutable focus of the vector. -/
def FOp.run (o : FOp α) (st : RVec α × FMut Cell) : M (Option α × (RVec α × FMut Cell)) := do
  let r ← st.2.get o.index
  let a ← o.access st.1 r.1
  .ok (a.1, (a.2, r.2))

/-- Both indices are among the first `a` or among the last `c` of `n`. -/
def InEnd (a c n i j : Nat) : Prop := (i < a ∧ j < a) ∨ (n ≤ i + c ∧ n ≤ j + c)

/-- A script of indices asked of a focus on `n` items. `last` is the last index in range before,
`out` says whether one out of range was asked for since. The script is careful if an index in range
that comes right after indices out of range is never `same` as the index in range before these. -/
def Careful (same : Nat → Nat → Prop) (n : Nat) : Option Nat → Bool → List Nat → Prop
  | _, _, [] => True
  | last, out, i :: is =>
    (i < n → (out = true → ∀ j, last = some j → ¬ same i j) ∧ Careful same n (some i) false is) ∧
    (n ≤ i → Careful same n last true is)

/-- An operation of one of several workers, each with a focus of its own. -/
def FOp.runWorker [DecidableEq ι] (o : ι × FOp α) (st : RVec α × (ι → FMut Cell)) :
    M (Option α × (RVec α × (ι → FMut Cell))) := do
  let r ← o.2.run (st.1, st.2 o.1)
  .ok (r.1, (r.2.1, fun k => if k = o.1 then r.2.2 else st.2 k))

/-- The answers that one worker gets in a schedule. -/
def answersOf [DecidableEq ι] (k : ι) (sched : List (ι × FOp α)) (answers : List β) : List β :=
  ((sched.zip answers).filter fun p => p.1.1 = k).map Prod.snd

/-- The operations of one worker in a schedule. -/
def opsOf [DecidableEq ι] (k : ι) (sched : List (ι × FOp α)) : List (FOp α) :=
  (sched.filter fun p => p.1 = k).map Prod.snd

/-- One step of a loop over `iter_mut` from either end that replaces every item by its image. -/
def mapStep (g : α → α) (s : Side) (st : RVec α × VIterMut Cell) : M (Option α × (RVec α × VIterMut Cell)) := do
  let r ← VIterMut.step s st.2
  match r.1 with
  | none => .ok (none, (st.1, r.2))
  | some c => do
    let x ← st.1.readCell c
    let v ← st.1.writeCell (g x) c
    .ok (some x, (v, r.2))

/-- The sequence after such a loop: the items that were taken off the ends are replaced. -/
def mapEnds (g : α → α) : List Side → List α → List α
  | [], l => l
  | .front :: ss, l =>
    match l with
    | [] => []
    | x :: l => g x :: mapEnds g ss l
  | .back :: ss, l =>
    match l.getLast? with
    | none => []
    | some x => mapEnds g ss l.dropLast ++ [g x]

/-! ### Searches -/

/-- The sequence is sorted with respect to the comparison: first the items that compare `Less`, then
those that compare `Equal`, then those that compare `Greater`. -/
def SortedFor (f : α → Ordering) (l : List α) : Prop :=
  l.Pairwise fun x y => (f y = .lt → f x = .lt) ∧ (f x = .gt → f y = .gt)

/-- `s..e` are exactly the positions among `a..b` whose items compare `Equal`. -/
def EqualBlock (f : α → Ordering) (l : List α) (a b s e : Nat) : Prop :=
  a ≤ s ∧ s < e ∧ e ≤ b ∧ ∀ k x, a ≤ k → k < b → l[k]? = some x → (f x = .eq ↔ s ≤ k ∧ k < e)

/-- `i` is the position among `a..b` where an item that compares `Equal` is missing: all items before
compare `Less` and all others compare `Greater`. -/
def GapAt (f : α → Ordering) (l : List α) (a b i : Nat) : Prop :=
  a ≤ i ∧ i ≤ b ∧ ∀ k x, a ≤ k → k < b → l[k]? = some x → (k < i → f x = .lt) ∧ (i ≤ k → f x = .gt)

/-- What a search among the positions `a..b` has to answer. -/
def RightHit (f : α → Ordering) (l : List α) (a b : Nat) : RVec.Hit → Prop
  | .found s e => EqualBlock f l a b s e
  | .missing i => GapAt f l a b i

/-- The value is not below the lower bound. -/
def NotBelow [LE K] [LT K] (x : K) : RVec.KeyBound K → Prop
  | .unbounded => True
  | .included k => k ≤ x
  | .excluded k => k < x

/-- The value is not above the upper bound. -/
def NotAbove [LE K] [LT K] (x : K) : RVec.KeyBound K → Prop
  | .unbounded => True
  | .included k => x ≤ k
  | .excluded k => x < k

/-! ### Comparisons -/

/-- The lexicographic order of two sequences whose items may be incomparable: the first pair that is
not `Equal` decides, and a proper prefix is smaller. -/
def lexPartial (cmp : α → α → Option Ordering) : List α → List α → Option Ordering
  | [], [] => some .eq
  | [], _ :: _ => some .lt
  | _ :: _, [] => some .gt
  | x :: l, y :: m => if cmp x y = some .eq then lexPartial cmp l m else cmp x y

end Librrb
