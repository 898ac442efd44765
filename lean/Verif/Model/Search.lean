import Verif.Model.Focus

/-!
# Model of the searches and comparisons of `src/vector.rs`

A comparison `f : Fn(&K) -> Ordering` is taken to be a function of the item alone that returns. The
conversion `Borrow<K>` of the items is part of that function, or the function `key` below.
-/
namespace Librrb
namespace RVec

/-- The end bound of the searches, `src/vector.rs:1457-1461` and `:1589-1593`. As in the code, an
included end `x` becomes `x - 1`. The start bound is that of `rangeStart`, in the same lines. -/
def searchEnd (len : Nat) : Bound → M Nat
  | .included x => usub x 1
  | .excluded x => .ok x
  | .unbounded => .ok len

/-- The closure `avg`, `src/vector.rs:1472` and `:1595`. -/
def avg (x y : Nat) : Nat := x / 2 + y / 2 + (x % 2 + y % 2) / 2

/-- First loop of `equal_range_for_index_in_range_by`, `src/vector.rs:1479-1496`: the new
`equals_start`, and the focus. The first argument bounds the number of steps. -/
def expandStart (f : α → Ordering) : Nat → Focus α → Nat → Nat → M (Nat × Focus α)
  | 0, _, _, _ => .error .diverge
  | fuel + 1, focus, start, equalsStart => do
    let s ← uadd start 1
    if s == equalsStart then do
      let r ← focus.index start
      .ok (if f r.1 == .eq then start else equalsStart, r.2)
    else do
      let mid := avg start equalsStart
      let r ← focus.index mid
      if f r.1 == .eq then expandStart f fuel r.2 start mid
      else expandStart f fuel r.2 mid equalsStart

/-- Second loop of `equal_range_for_index_in_range_by`, `src/vector.rs:1500-1512`: the new
`equals_end_inclusive`. The first argument bounds the number of steps. -/
def expandEnd (f : α → Ordering) : Nat → Focus α → Nat → Nat → M Nat
  | 0, _, _, _ => .error .diverge
  | fuel + 1, focus, equalsEnd, stop => do
    let e ← uadd equalsEnd 1
    if e == stop then .ok equalsEnd
    else do
      let mid := avg equalsEnd stop
      let r ← focus.index mid
      if f r.1 == .eq then expandEnd f fuel r.2 mid stop
      else expandEnd f fuel r.2 equalsEnd mid

/-- `equal_range_for_index_in_range_by`, `src/vector.rs:1439-1516`; the result is a `Range`. -/
def equalRangeForIndexInRangeBy (v : RVec α) (index : Nat) (f : α → Ordering) (startBound endBound : Bound) :
    M (Nat × Nat) := do
  let start ← rangeStart startBound
  let stop ← searchEnd v.len endBound
  if index < start ∨ index ≥ stop then .ok (0, 0)
  else do
    let focus ← Focus.new v
    let r ← focus.index index
    if f r.1 != .eq then .ok (0, 0)
    else do
      let p ← (if index != start then expandStart f (index - start + 1) r.2 start index else .ok (index, r.2))
      let e ← expandEnd f (stop - index + 1) p.2 index stop
      let e ← uadd e 1
      .ok (p.1, e)

/-- `equal_range_for_index_by`, `src/vector.rs:1543-1550`. -/
def equalRangeForIndexBy (v : RVec α) (index : Nat) (f : α → Ordering) : M (Nat × Nat) :=
  v.equalRangeForIndexInRangeBy index f .unbounded .unbounded

/-- `Result<Range<usize>, usize>`. -/
inductive Hit where
  | found (start stop : Nat)
  | missing (index : Nat)
  deriving DecidableEq

/-- The loop of `equal_range_in_range_by`, `src/vector.rs:1601-1632`. The first argument bounds the
number of steps. -/
def searchLoop (v : RVec α) (f : α → Ordering) : Nat → Focus α → Nat → Nat → M Hit
  | 0, _, _, _ => .error .diverge
  | fuel + 1, focus, start, stop => do
    let s ← uadd start 1
    if s == stop then do
      let r ← focus.index start
      match f r.1 with
      | .lt => .ok (.missing s)
      | .gt => .ok (.missing start)
      | .eq => .ok (.found start stop)
    else do
      let mid := avg start stop
      let r ← focus.index mid
      match f r.1 with
      | .lt => searchLoop v f fuel r.2 mid stop
      | .gt => searchLoop v f fuel r.2 start mid
      | .eq => do
        let p ← v.equalRangeForIndexInRangeBy mid f (.included start) (.excluded stop)
        .ok (.found p.1 p.2)

/-- Number of steps after which the loop of `equal_range_in_range_by` has stopped or no longer
changes its variables: every step that goes on and changes one of them brings them closer together. -/
def searchFuel (start stop : Nat) : Nat := (stop - start) + (start - stop) + 2

/-- `equal_range_in_range_by`, `src/vector.rs:1576-1634`. -/
def equalRangeInRangeBy (v : RVec α) (f : α → Ordering) (startBound endBound : Bound) : M Hit := do
  let start ← rangeStart startBound
  let stop ← searchEnd v.len endBound
  let focus ← Focus.new v
  searchLoop v f (searchFuel start stop) focus start stop

/-- `equal_range_by`, `src/vector.rs:1660-1667`. -/
def equalRangeBy (v : RVec α) (f : α → Ordering) : M Hit := v.equalRangeInRangeBy f .unbounded .unbounded

/-- `equal_range_in_range`, `src/vector.rs:1682-1690`; `key` is `Borrow::borrow`. -/
def equalRangeInRange [Ord K] (v : RVec α) (key : α → K) (value : K) (startBound endBound : Bound) : M Hit :=
  v.equalRangeInRangeBy (fun x => compare (key x) value) startBound endBound

/-- `equal_range`, `src/vector.rs:1708-1715`. -/
def equalRange [Ord K] (v : RVec α) (key : α → K) (value : K) : M Hit :=
  v.equalRangeInRangeBy (fun x => compare (key x) value) .unbounded .unbounded

/-- `std::ops::Bound<&K>`. -/
inductive KeyBound (K : Type) where
  | unbounded
  | included (k : K)
  | excluded (k : K)

/-- First `match` of the closure of `between_range_in_range`, `src/vector.rs:1743-1755`: does it
return `Less`? -/
def belowStart [LE K] [LT K] [DecidableLE K] [DecidableLT K] (x : K) : KeyBound K → Bool
  | .excluded b => decide (x ≤ b)
  | .included b => decide (x < b)
  | .unbounded => false

/-- Second `match` of the closure of `between_range_in_range`, `src/vector.rs:1756-1768`: does it
return `Greater`? -/
def aboveEnd [LE K] [LT K] [DecidableLE K] [DecidableLT K] (x : K) : KeyBound K → Bool
  | .excluded b => decide (b ≤ x)
  | .included b => decide (b < x)
  | .unbounded => false

/-- `between_range_in_range`, `src/vector.rs:1731-1772`. -/
def betweenRangeInRange [LE K] [LT K] [DecidableLE K] [DecidableLT K] (v : RVec α) (key : α → K)
    (first last : KeyBound K) (startBound endBound : Bound) : M Hit :=
  v.equalRangeInRangeBy
    (fun x => if belowStart (key x) first then .lt else if aboveEnd (key x) last then .gt else .eq)
    startBound endBound

/-- `between_range`, `src/vector.rs:1787-1793`. -/
def betweenRange [LE K] [LT K] [DecidableLE K] [DecidableLT K] (v : RVec α) (key : α → K)
    (first last : KeyBound K) : M Hit :=
  v.betweenRangeInRange key first last .unbounded .unbounded

/-! ### Equality, order and hash -/

/-- `Iterator::eq` of the standard library on the iterators of two vectors, where `eq` is `==` of the
items. The first argument bounds the number of steps. -/
def iterEq (eq : α → α → Bool) : Nat → VIter α → VIter α → M Bool
  | 0, _, _ => .error .diverge
  | fuel + 1, a, b => do
    let x ← a.next
    match x.1 with
    | none => do
      let y ← b.next
      .ok y.1.isNone
    | some p => do
      let y ← b.next
      match y.1 with
      | none => .ok false
      | some q => if eq p q then iterEq eq fuel x.2 y.2 else .ok false

/-- `PartialEq::eq`, `src/vector.rs:2393-2395`. -/
def eqVec (eq : α → α → Bool) (v w : RVec α) : M Bool :=
  if v.len == w.len then do
    let a ← VIter.new v
    let b ← VIter.new w
    iterEq eq (v.len + 1) a b
  else .ok false

/-- `Iterator::partial_cmp` of the standard library on the iterators of two vectors, where `cmp` is
`partial_cmp` of the items. The first argument bounds the number of steps. -/
def iterPartialCmp (cmp : α → α → Option Ordering) : Nat → VIter α → VIter α → M (Option Ordering)
  | 0, _, _ => .error .diverge
  | fuel + 1, a, b => do
    let x ← a.next
    match x.1 with
    | none => do
      let y ← b.next
      .ok (some (if y.1.isNone then .eq else .lt))
    | some p => do
      let y ← b.next
      match y.1 with
      | none => .ok (some .gt)
      | some q =>
        match cmp p q with
        | some .eq => iterPartialCmp cmp fuel x.2 y.2
        | r => .ok r

/-- `PartialOrd::partial_cmp`, `src/vector.rs:2410-2412`. -/
def partialCmp (cmp : α → α → Option Ordering) (v w : RVec α) : M (Option Ordering) := do
  let a ← VIter.new v
  let b ← VIter.new w
  iterPartialCmp cmp (v.len + 1) a b

/-- `Iterator::cmp` of the standard library on the iterators of two vectors, where `cmp` is `cmp` of
the items. The first argument bounds the number of steps. -/
def iterCmp (cmp : α → α → Ordering) : Nat → VIter α → VIter α → M Ordering
  | 0, _, _ => .error .diverge
  | fuel + 1, a, b => do
    let x ← a.next
    match x.1 with
    | none => do
      let y ← b.next
      .ok (if y.1.isNone then .eq else .lt)
    | some p => do
      let y ← b.next
      match y.1 with
      | none => .ok .gt
      | some q =>
        match cmp p q with
        | .eq => iterCmp cmp fuel x.2 y.2
        | r => .ok r

/-- `Ord::cmp`, `src/vector.rs:2420-2422`. -/
def cmpVec (cmp : α → α → Ordering) (v w : RVec α) : M Ordering := do
  let a ← VIter.new v
  let b ← VIter.new w
  iterCmp cmp (v.len + 1) a b

/-- The `for` loop of `hash`, `src/vector.rs:2431-2433`; `hash x` is what hashing the item `x` does to
the state of the hasher. The first argument bounds the number of steps. -/
def hashLoop (hash : α → H → H) : Nat → VIter α → H → M H
  | 0, _, _ => .error .diverge
  | fuel + 1, it, state => do
    let x ← it.next
    match x.1 with
    | none => .ok state
    | some p => hashLoop hash fuel x.2 (hash p state)

/-- `Hash::hash`, `src/vector.rs:2430-2434`. -/
def hashVec (hash : α → H → H) (v : RVec α) (state : H) : M H := do
  let it ← VIter.new v
  hashLoop hash (v.len + 1) it state

end RVec
end Librrb
