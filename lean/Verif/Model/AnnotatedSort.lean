import Verif.Model.AnnotatedFocus
import Verif.Model.Sort

/-!
# Sorting and reversing annotated vectors

`src/sort.rs` and `reverse_range` on mutable foci of annotated vectors. The code is that of `Verif/Model/Sort.lean`. What is new
is that moving, splitting and dropping a focus changes cached sums (`Verif/Model/AnnotatedFocus.lean`), so these change the
state, and that foci are dropped at the end of their scopes: local variables from the last one declared, what `_` is matched with
at the end of the statement.
-/
namespace Librrb

/-- Computations that change a state. -/
abbrev AM (σ τ : Type) := StateT σ M τ

/-- What the algorithm does with foci `φ`; see `SortFocus`. -/
structure ASortFocus (σ φ : Type) where
  len : φ → Nat
  check : φ → M Unit
  splitAt : φ → Nat → AM σ (φ × φ)
  compare : φ → Nat → φ → Nat → AM σ (Ordering × φ × φ)
  swap : φ → Nat → φ → Nat → AM σ (φ × φ)
  drop : φ → AM σ Unit

namespace AVec

/-- `FocusMut::index`, `src/focus.rs:609-611`. -/
def focusIndex (v : AVec) (f : FMut Cell) (idx : Nat) : M (Cell × AVec × FMut Cell) := do
  let r ← v.focusGet f idx
  let c ← unwrap r.1
  .ok (c, r.2.1, r.2.2)

/-- `mem::swap` of the items at two places; no cached sum changes. -/
def swapCells (v : AVec) (a b : Cell) : M AVec := do
  let x ← v.erase.readCell a
  let y ← v.erase.readCell b
  let v ← v.writeCell y a
  v.writeCell x b

end AVec

namespace ASortFocus

/-- The operations of `do_single_sort`; see `SortFocus.single`. -/
def single (cmp : Nat → Nat → Ordering) : ASortFocus AVec (FMut Cell) where
  len f := f.len
  check _ := .ok ()
  splitAt f k := fun v => do
    let r ← v.focusSplit f k
    .ok (r.2, r.1)
  compare a i b j := fun v => do
    let x ← v.focusIndex a i
    let y ← x.2.1.focusIndex b j
    let p ← y.2.1.erase.readCell x.1
    let q ← y.2.1.erase.readCell y.1
    .ok ((cmp p q, x.2.2, y.2.2), y.2.1)
  swap a i b j := fun v => do
    let x ← v.focusIndex a i
    let y ← x.2.1.focusIndex b j
    let v ← y.2.1.swapCells x.1 y.1
    .ok ((x.2.2, y.2.2), v)
  drop f := fun v => do
    let v ← v.dropBorrowed f.pathNodes
    .ok ((), v)

/-- The operations of `do_dual_sort`; see `SortFocus.dual`. Both vectors are annotated here. -/
def dual (cmp : Nat → Nat → Ordering) : ASortFocus (AVec × AVec) (FMut Cell × FMut Cell) where
  len f := f.1.len
  check f := massert (f.1.len == f.2.len)
  splitAt f k := fun s => do
    let a ← s.1.focusSplit f.1 k
    let b ← s.2.focusSplit f.2 k
    .ok (((a.2.1, b.2.1), (a.2.2, b.2.2)), (a.1, b.1))
  compare a i b j := fun s => do
    let x ← s.1.focusIndex a.1 i
    let y ← x.2.1.focusIndex b.1 j
    let p ← y.2.1.erase.readCell x.1
    let q ← y.2.1.erase.readCell y.1
    .ok ((cmp p q, (x.2.2, a.2), (y.2.2, b.2)), (y.2.1, s.2))
  swap a i b j := fun s => do
    let x ← s.1.focusIndex a.1 i
    let y ← x.2.1.focusIndex b.1 j
    let v ← y.2.1.swapCells x.1 y.1
    let p ← s.2.focusIndex a.2 i
    let q ← p.2.1.focusIndex b.2 j
    let w ← q.2.1.swapCells p.1 q.1
    .ok (((x.2.2, p.2.2), (y.2.2, q.2.2)), (v, w))
  drop f := fun s => do
    let v ← s.1.dropBorrowed f.1.pathNodes
    let w ← s.2.dropBorrowed f.2.pathNodes
    .ok ((), (v, w))

variable (o : ASortFocus σ φ)

/-- The counting loop, `src/sort.rs:93-104` and `:275-282`; see `SortFocus.countLoop`. -/
def countLoop : Nat → Nat → φ → φ → Nat → Nat → AM σ (Nat × Nat × φ × φ)
  | 0, _, first, rest, less, equal => pure (less, equal, first, rest)
  | n + 1, index, first, rest, less, equal => do
    let r ← o.compare rest index first 0
    match r.1 with
    | .lt => countLoop n (index + 1) r.2.2 r.2.1 (less + 1) equal
    | .eq => countLoop n (index + 1) r.2.2 r.2.1 less (equal + 1)
    | .gt => countLoop n (index + 1) r.2.2 r.2.1 less equal

/-- The loop that moves the minimum to the front, `src/sort.rs:118-128` and `:297-308`; see
`SortFocus.minLoop`. -/
def minLoop (lessCount : Nat) : Nat → Nat → φ → φ → AM σ (φ × φ)
  | 0, _, first, rest => pure (first, rest)
  | n + 1, index, first, rest =>
    if index == lessCount then minLoop lessCount n (index + 1) first rest
    else do
      let r ← o.compare rest index first 0
      if r.1 == .lt then do
        let q ← o.swap r.2.2 0 r.2.1 index
        minLoop lessCount n (index + 1) q.1 q.2
      else minLoop lessCount n (index + 1) r.2.2 r.2.1

/-- First inner loop, `src/sort.rs:141-156` and `:333-348`; see `SortFocus.advanceLess`. -/
def advanceLess : Nat → SortFocus.Parts φ → AM σ (Bool × SortFocus.Parts φ)
  | 0, _ => throw .diverge
  | fuel + 1, p =>
    if p.lp != o.len p.less then do
      let r ← o.compare p.less p.lp p.equal p.ep
      match r.1 with
      | .eq => pure (true, { p with less := r.2.1, equal := r.2.2 })
      | .gt => pure (false, { p with less := r.2.1, equal := r.2.2 })
      | .lt => advanceLess fuel { p with less := r.2.1, equal := r.2.2, lp := p.lp + 1 }
    else pure (false, p)

/-- Second inner loop, `src/sort.rs:159-172` and `:351-364`; see `SortFocus.advanceGreater`. -/
def advanceGreater : Nat → SortFocus.Parts φ → AM σ (Bool × SortFocus.Parts φ)
  | 0, _ => throw .diverge
  | fuel + 1, p =>
    if p.gp != o.len p.greater then do
      let r ← o.compare p.greater p.gp p.equal p.ep
      match r.1 with
      | .lt => pure (false, { p with greater := r.2.1, equal := r.2.2 })
      | .eq => pure (true, { p with greater := r.2.1, equal := r.2.2 })
      | .gt => advanceGreater fuel { p with greater := r.2.1, equal := r.2.2, gp := p.gp + 1 }
    else pure (false, p)

/-- The loops `src/sort.rs:177-183`, `:192-198` and `:369-375`, `:388-394`; see `SortFocus.advanceEqual`. -/
def advanceEqual (i : Nat) : Nat → φ → φ → Nat → AM σ (Nat × φ × φ)
  | 0, _, _, _ => throw .diverge
  | fuel + 1, side, equal, ep => do
    let r ← o.compare side i equal ep
    if r.1 == .eq then advanceEqual i fuel r.2.1 r.2.2 (ep + 1)
    else pure (ep, r.2.1, r.2.2)

/-- The body of the partition loop, `src/sort.rs:137-231` and `:329-435`; see `SortFocus.partStep`. -/
def partStep (p : SortFocus.Parts φ) : AM σ (SortFocus.Parts φ) := do
  let a ← advanceLess o (o.len p.less - p.lp + 1) p
  let b ← advanceGreater o (o.len p.greater - p.gp + 1) a.2
  let p := b.2
  if b.1 then do
    let r ← advanceEqual o p.gp (o.len p.equal - p.ep + 1) p.greater p.equal p.ep
    let q ← o.swap r.2.1 p.gp r.2.2 r.1
    pure { p with greater := q.1, equal := q.2, ep := r.1 }
  else if a.1 then do
    let r ← advanceEqual o p.lp (o.len p.equal - p.ep + 1) p.less p.equal p.ep
    let q ← o.swap r.2.1 p.lp r.2.2 r.1
    pure { p with less := q.1, equal := q.2, ep := r.1 }
  else if p.lp ≠ o.len p.less ∧ p.gp ≠ o.len p.greater then do
    let c ← o.compare p.less p.lp p.equal p.ep
    massert (c.1 != .eq)
    let d ← o.compare p.greater p.gp c.2.2 p.ep
    massert (d.1 != .eq)
    let q ← o.swap c.2.1 p.lp d.2.1 p.gp
    pure { p with less := q.1, equal := d.2.2, greater := q.2, lp := p.lp + 1, gp := p.gp + 1 }
  else pure p

/-- The partition loop, `src/sort.rs:136-232` and `:328-436`; see `SortFocus.partLoop`. -/
def partLoop : Nat → SortFocus.Parts φ → AM σ (SortFocus.Parts φ)
  | 0, _ => throw .diverge
  | fuel + 1, p =>
    if p.lp ≠ o.len p.less ∨ p.gp ≠ o.len p.greater then do
      let r ← partStep o p
      partLoop fuel r
    else pure p

/-- `do_single_sort`, `src/sort.rs:68-239`, and `do_dual_sort`, `:241-449`; see `SortFocus.sort`. The focus that is sorted
is dropped by the caller; splitting it has not changed it. In `do_dual_sort` the two foci of a pair are not always dropped one right after the other, but
they belong to different vectors. -/
def sort (next : ρ → Nat × ρ) : Nat → ρ → φ → AM σ ρ
  | 0, _, _ => throw .diverge
  | fuel + 1, rng, focus =>
    if o.len focus ≤ 1 then pure rng
    else do
      let u := next rng
      let pivotIndex := u.1 % o.len focus
      let p ← o.splitAt focus 1
      o.check p.1
      o.check p.2
      let q ← (if pivotIndex > 0 then o.swap p.2 (pivotIndex - 1) p.1 0 else pure (p.2, p.1))
      let c ← countLoop o (o.len q.1) 0 q.2 q.1 0 0
      if c.1 == 0 then do
        let x ← sort next fuel u.2 c.2.2.2
        o.drop c.2.2.2
        o.drop c.2.2.1
        pure x
      else do
        let lessCount ← usub c.1 1
        let equalCount := c.2.1 + 1
        let w ← o.swap c.2.2.1 0 c.2.2.2 lessCount
        let m ← minLoop o lessCount (o.len w.2) 0 w.1 w.2
        let g ← o.splitAt m.2 (lessCount + equalCount)
        o.check g.2
        let e ← o.splitAt g.1 lessCount
        o.check e.2
        o.check e.1
        let r ← partLoop o (o.len e.1 + o.len e.2 + o.len g.2 + 2) ⟨e.1, e.2, g.2, 0, 0, 0⟩
        let x ← sort next fuel u.2 r.less
        let x ← (if o.len r.greater != 0 then sort next fuel x r.greater else pure x)
        o.drop r.equal
        o.drop r.less
        o.drop r.greater
        o.drop g.1
        o.drop m.2
        o.drop m.1
        pure x

end ASortFocus

namespace AVec

/-- The foci that `reverse_range`, `src/vector.rs:1380-1382`, and `sort_range_by`, `:1826-1828`, make: that of the vector, split at
the end of the range, and its first part, split at the start. The parts that are matched with `_` are dropped at once. -/
def window (v : AVec) (lo hi : Nat) : M (AVec × FMut Cell × FMut Cell × FMut Cell) := do
  let whole ← v.erase.cells.focusMut
  let a ← v.focusSplit whole hi
  let v ← a.1.dropBorrowed a.2.2.pathNodes
  let b ← v.focusSplit a.2.1 lo
  let v ← b.1.dropBorrowed b.2.1.pathNodes
  .ok (v, whole, a.2.1, b.2.2)

/-- The end of the foci made by `window`, from the last one. -/
def dropWindow (v : AVec) (fs : FMut Cell × FMut Cell × FMut Cell) : M AVec :=
  v.dropFoci [fs.2.2, fs.2.1, fs.1]

/-- The loop of `reverse_range`, `src/vector.rs:1388-1392`; see `RVec.reverseLoop`. The foci come back to be dropped. -/
def reverseLoop (rightLen : Nat) : Nat → Nat → AVec → FMut Cell → FMut Cell → M (AVec × FMut Cell × FMut Cell)
  | 0, _, v, left, right => .ok (v, left, right)
  | n + 1, i, v, left, right => do
    let l ← v.focusIndex left i
    let k ← usub rightLen 1
    let k ← usub k i
    let r ← l.2.1.focusIndex right k
    let v ← r.2.1.swapCells l.1 r.1
    reverseLoop rightLen n (i + 1) v l.2.2 r.2.2

/-- `reverse_range`, `src/vector.rs:1378-1393`. -/
def reverseRange (v : AVec) (startBound endBound : Bound) : M AVec := do
  let start ← RVec.rangeStart startBound
  let stop ← RVec.rangeEnd v.len endBound
  let w ← v.window start stop
  let p ← w.1.focusSplit w.2.2.2 (w.2.2.2.len / 2)
  let r ← reverseLoop p.2.2.len (w.2.2.2.len / 2) 0 p.1 p.2.1 p.2.2
  let v ← r.1.dropBorrowed r.2.2.pathNodes
  let v ← v.dropBorrowed r.2.1.pathNodes
  v.dropWindow w.2

/-- `sort_range_by`, `src/vector.rs:1808-1832`, for any generator. -/
def sortRangeBy (v : AVec) (cmp : Nat → Nat → Ordering) (startBound endBound : Bound) (next : ρ → Nat × ρ) (rng : ρ) : M AVec := do
  let start ← RVec.rangeStart startBound
  let stop ← RVec.rangeEnd v.len endBound
  let w ← v.window start stop
  let r ← (ASortFocus.single cmp).sort next (w.2.2.2.len + 1) rng w.2.2.2 w.1
  r.2.dropWindow w.2

/-- `dual_sort_range_by`, `src/vector.rs:1851-1884`, for any generator. -/
def dualSortRangeBy (v u : AVec) (cmp : Nat → Nat → Ordering) (startBound endBound : Bound) (next : ρ → Nat × ρ) (rng : ρ) :
    M (AVec × AVec) := do
  let start ← RVec.rangeStart startBound
  let stop ← RVec.rangeEnd v.len endBound
  let a ← v.window start stop
  let b ← u.window start stop
  let r ← (ASortFocus.dual cmp).sort next (a.2.2.2.len + 1) rng (a.2.2.2, b.2.2.2) (a.1, b.1)
  let u ← r.2.2.dropWindow b.2
  let v ← r.2.1.dropWindow a.2
  .ok (v, u)

end AVec
end Librrb
