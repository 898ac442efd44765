import Verif.Model.FocusMut

/-!
# Model of `src/sort.rs` and of the sorts and reversals of `src/vector.rs`

A comparator is taken to be a function of the two items that returns. The random number generator is
any function on any state. Swapping through two references (`mem::swap`) reads and writes the places
that the mutable foci hand out.
-/
namespace Librrb

namespace RVec

/-- `mem::swap` of the items at two places. -/
def swapCells (v : RVec α) (a b : Cell) : M (RVec α) := do
  let x ← v.readCell a
  let y ← v.readCell b
  let v ← v.writeCell y a
  v.writeCell x b

/-- The focus over the range `lo..hi`, made as in `src/vector.rs:1380-1382` and `:1826-1828`: split at
the end, then at the start. -/
def window (v : RVec α) (lo hi : Nat) : M (FMut Cell) := do
  let focus ← v.cells.focusMut
  let a ← focus.splitAt hi
  let b ← a.1.splitAt lo
  .ok b.2

/-- The loop of `reverse_range`, `src/vector.rs:1388-1392`: `n` steps to go, the next one is `i`. -/
def reverseLoop (rightLen : Nat) : Nat → Nat → RVec α → FMut Cell → FMut Cell → M (RVec α)
  | 0, _, v, _, _ => .ok v
  | n + 1, i, v, left, right => do
    let l ← left.index i
    let k ← usub rightLen 1
    let k ← usub k i
    let r ← right.index k
    let v ← v.swapCells l.1 r.1
    reverseLoop rightLen n (i + 1) v l.2 r.2

/-- `reverse_range`, `src/vector.rs:1378-1393`. -/
def reverseRange (v : RVec α) (startBound endBound : Bound) : M (RVec α) := do
  let start ← rangeStart startBound
  let stop ← rangeEnd v.len endBound
  let focus ← v.window start stop
  let p ← focus.splitAt (focus.len / 2)
  reverseLoop p.2.len (focus.len / 2) 0 v p.1 p.2

/-- `reverse`, `src/vector.rs:1396-1398`. -/
def reverse (v : RVec α) : M (RVec α) := v.reverseRange .unbounded .unbounded

end RVec

/-! ### Sorting

`do_single_sort` and `do_dual_sort` are the same algorithm: where the one compares two items of a
focus, the other does the same, and where the one swaps two items, the other also swaps the items at
the same positions of the second focus. The source has this abstraction in a comment
(`src/sort.rs:12-29`, `trait SortFocus`); here it is used. -/

/-- What the algorithm does with foci `φ` on a state `σ`; `trait SortFocus`, `src/sort.rs:13-29`.
`check` are the assertions that only `do_dual_sort` makes. -/
structure SortFocus (σ φ : Type) where
  len : φ → Nat
  check : φ → M Unit
  splitAt : φ → Nat → M (φ × φ)
  compare : σ → φ → Nat → φ → Nat → M (Ordering × φ × φ)
  swap : σ → φ → Nat → φ → Nat → M (σ × φ × φ)

namespace SortFocus

/-- The operations of `do_single_sort`: `comparator(a.index(i), b.index(j))` and
`mem::swap(a.index(i), b.index(j))`. -/
def single (cmp : α → α → Ordering) : SortFocus (RVec α) (FMut Cell) where
  len f := f.len
  check _ := .ok ()
  splitAt f k := f.splitAt k
  compare v a i b j := do
    let x ← a.index i
    let y ← b.index j
    let p ← v.readCell x.1
    let q ← v.readCell y.1
    .ok (cmp p q, x.2, y.2)
  swap v a i b j := do
    let x ← a.index i
    let y ← b.index j
    let v ← v.swapCells x.1 y.1
    .ok (v, x.2, y.2)

/-- The operations of `do_dual_sort`: everything is done with the pair of foci, but only the items of
the first are compared. The assertions are those of `src/sort.rs:264-265`, `:314`, `:321-322`. -/
def dual (cmp : α → α → Ordering) : SortFocus (RVec α × RVec β) (FMut Cell × FMut Cell) where
  len f := f.1.len
  check f := massert (f.1.len == f.2.len)
  splitAt f k := do
    let a ← f.1.splitAt k
    let b ← f.2.splitAt k
    .ok ((a.1, b.1), (a.2, b.2))
  compare s a i b j := do
    let x ← a.1.index i
    let y ← b.1.index j
    let p ← s.1.readCell x.1
    let q ← s.1.readCell y.1
    .ok (cmp p q, (x.2, a.2), (y.2, b.2))
  swap s a i b j := do
    let x ← a.1.index i
    let y ← b.1.index j
    let v ← s.1.swapCells x.1 y.1
    let p ← a.2.index i
    let q ← b.2.index j
    let w ← s.2.swapCells p.1 q.1
    .ok ((v, w), (x.2, p.2), (y.2, q.2))

variable (o : SortFocus σ φ)

/-- The counting loop, `src/sort.rs:93-104` and `:275-282`: `n` steps to go, the next one is `index`.
Returns `less_count`, `equal_count` and the foci `first`, `rest`. -/
def countLoop (s : σ) : Nat → Nat → φ → φ → Nat → Nat → M (Nat × Nat × φ × φ)
  | 0, _, first, rest, less, equal => .ok (less, equal, first, rest)
  | n + 1, index, first, rest, less, equal => do
    let r ← o.compare s rest index first 0
    match r.1 with
    | .lt => countLoop s n (index + 1) r.2.2 r.2.1 (less + 1) equal
    | .eq => countLoop s n (index + 1) r.2.2 r.2.1 less (equal + 1)
    | .gt => countLoop s n (index + 1) r.2.2 r.2.1 less equal

/-- The loop that moves the minimum to the front, `src/sort.rs:118-128` and `:297-308`: `n` steps to
go, the next one is `index`. -/
def minLoop (lessCount : Nat) : Nat → Nat → σ → φ → φ → M (σ × φ × φ)
  | 0, _, s, first, rest => .ok (s, first, rest)
  | n + 1, index, s, first, rest =>
    if index == lessCount then minLoop lessCount n (index + 1) s first rest
    else do
      let r ← o.compare s rest index first 0
      if r.1 == .lt then do
        let q ← o.swap s r.2.2 0 r.2.1 index
        minLoop lessCount n (index + 1) q.1 q.2.1 q.2.2
      else minLoop lessCount n (index + 1) s r.2.2 r.2.1

/-- The variables of the partition loop, `src/sort.rs:130-134` and `:310-326`. -/
structure Parts (φ : Type) where
  less : φ
  equal : φ
  greater : φ
  lp : Nat
  ep : Nat
  gp : Nat

/-- First inner loop, `src/sort.rs:141-156` and `:333-348`: is the item it stops at `Equal`? The first
argument bounds the number of steps. -/
def advanceLess (s : σ) : Nat → Parts φ → M (Bool × Parts φ)
  | 0, _ => .error .diverge
  | fuel + 1, p =>
    if p.lp != o.len p.less then do
      let r ← o.compare s p.less p.lp p.equal p.ep
      match r.1 with
      | .eq => .ok (true, { p with less := r.2.1, equal := r.2.2 })
      | .gt => .ok (false, { p with less := r.2.1, equal := r.2.2 })
      | .lt => advanceLess s fuel { p with less := r.2.1, equal := r.2.2, lp := p.lp + 1 }
    else .ok (false, p)

/-- Second inner loop, `src/sort.rs:159-172` and `:351-364`: is the item it stops at `Equal`? The first
argument bounds the number of steps. -/
def advanceGreater (s : σ) : Nat → Parts φ → M (Bool × Parts φ)
  | 0, _ => .error .diverge
  | fuel + 1, p =>
    if p.gp != o.len p.greater then do
      let r ← o.compare s p.greater p.gp p.equal p.ep
      match r.1 with
      | .lt => .ok (false, { p with greater := r.2.1, equal := r.2.2 })
      | .eq => .ok (true, { p with greater := r.2.1, equal := r.2.2 })
      | .gt => advanceGreater s fuel { p with greater := r.2.1, equal := r.2.2, gp := p.gp + 1 }
    else .ok (false, p)

/-- The loop that advances `equal_position` while the item at `i` of the side is `Equal` to the one
there, `src/sort.rs:177-183`, `:192-198` and `:369-375`, `:388-394`. Returns the position and the foci
of the side and of the equal part. The first argument bounds the number of steps. -/
def advanceEqual (s : σ) (i : Nat) : Nat → φ → φ → Nat → M (Nat × φ × φ)
  | 0, _, _, _ => .error .diverge
  | fuel + 1, side, equal, ep => do
    let r ← o.compare s side i equal ep
    if r.1 == .eq then advanceEqual s i fuel r.2.1 r.2.2 (ep + 1)
    else .ok (ep, r.2.1, r.2.2)

/-- The body of the partition loop, `src/sort.rs:137-231` and `:329-435`. -/
def partStep (s : σ) (p : Parts φ) : M (σ × Parts φ) := do
  let a ← advanceLess o s (o.len p.less - p.lp + 1) p
  let b ← advanceGreater o s (o.len p.greater - p.gp + 1) a.2
  let p := b.2
  if b.1 then do
    let r ← advanceEqual o s p.gp (o.len p.equal - p.ep + 1) p.greater p.equal p.ep
    let q ← o.swap s r.2.1 p.gp r.2.2 r.1
    .ok (q.1, { p with greater := q.2.1, equal := q.2.2, ep := r.1 })
  else if a.1 then do
    let r ← advanceEqual o s p.lp (o.len p.equal - p.ep + 1) p.less p.equal p.ep
    let q ← o.swap s r.2.1 p.lp r.2.2 r.1
    .ok (q.1, { p with less := q.2.1, equal := q.2.2, ep := r.1 })
  else if p.lp ≠ o.len p.less ∧ p.gp ≠ o.len p.greater then do
    let c ← o.compare s p.less p.lp p.equal p.ep
    massert (c.1 != .eq)
    let d ← o.compare s p.greater p.gp c.2.2 p.ep
    massert (d.1 != .eq)
    let q ← o.swap s c.2.1 p.lp d.2.1 p.gp
    .ok (q.1, { p with less := q.2.1, equal := d.2.2, greater := q.2.2, lp := p.lp + 1, gp := p.gp + 1 })
  else .ok (s, p)

/-- The partition loop, `src/sort.rs:136-232` and `:328-436`. The first argument bounds the number of
steps. -/
def partLoop : Nat → σ → Parts φ → M (σ × Parts φ)
  | 0, _, _ => .error .diverge
  | fuel + 1, s, p =>
    if p.lp ≠ o.len p.less ∨ p.gp ≠ o.len p.greater then do
      let r ← partStep o s p
      partLoop fuel r.1 r.2
    else .ok (s, p)

/-- `do_single_sort`, `src/sort.rs:68-239`, and `do_dual_sort`, `:241-449`, with a generator `next` for
`rng.next_u64()`. The first argument bounds the depth of the recursion. The partition loop gets as
many steps as there are positions to advance, and two more: a step that advances nothing will do so
forever. -/
def sort (next : ρ → Nat × ρ) : Nat → σ → ρ → φ → M (σ × ρ)
  | 0, _, _, _ => .error .diverge
  | fuel + 1, s, rng, focus =>
    if o.len focus ≤ 1 then .ok (s, rng)
    else do
      let u := next rng
      let pivotIndex := u.1 % o.len focus
      let p ← o.splitAt focus 1
      o.check p.1
      o.check p.2
      let q ← (if pivotIndex > 0 then o.swap s p.2 (pivotIndex - 1) p.1 0 else .ok (s, p.2, p.1))
      let c ← countLoop o q.1 (o.len q.2.1) 0 q.2.2 q.2.1 0 0
      if c.1 == 0 then sort next fuel q.1 u.2 c.2.2.2
      else do
        let lessCount ← usub c.1 1
        let equalCount := c.2.1 + 1
        let w ← o.swap q.1 c.2.2.1 0 c.2.2.2 lessCount
        let m ← minLoop o lessCount (o.len w.2.2) 0 w.1 w.2.1 w.2.2
        let g ← o.splitAt m.2.2 (lessCount + equalCount)
        o.check g.2
        let e ← o.splitAt g.1 lessCount
        o.check e.2
        o.check e.1
        let r ← partLoop o (o.len e.1 + o.len e.2 + o.len g.2 + 2) m.1 ⟨e.1, e.2, g.2, 0, 0, 0⟩
        let x ← sort next fuel r.1 u.2 r.2.less
        if o.len r.2.greater != 0 then sort next fuel x.1 x.2 r.2.greater
        else .ok x

end SortFocus

namespace RVec

/-- `sort_range_by`, `src/vector.rs:1808-1832`, for any generator instead of the one seeded there. -/
def sortRangeBy (v : RVec α) (cmp : α → α → Ordering) (startBound endBound : Bound) (next : ρ → Nat × ρ) (rng : ρ) :
    M (RVec α) := do
  let start ← rangeStart startBound
  let stop ← rangeEnd v.len endBound
  let focus ← v.window start stop
  let r ← (SortFocus.single cmp).sort next (focus.len + 1) v rng focus
  .ok r.1

/-- `dual_sort_range_by`, `src/vector.rs:1851-1884`, for any generator. -/
def dualSortRangeBy (v : RVec α) (w : RVec β) (cmp : α → α → Ordering) (startBound endBound : Bound)
    (next : ρ → Nat × ρ) (rng : ρ) : M (RVec α × RVec β) := do
  let start ← rangeStart startBound
  let stop ← rangeEnd v.len endBound
  let focus ← v.window start stop
  let dual ← w.window start stop
  let r ← (SortFocus.dual cmp).sort next (focus.len + 1) (v, w) rng (focus, dual)
  .ok r.1

/-- `sort_range_by_key`, `src/vector.rs:1899-1927`. -/
def sortRangeByKey [Ord K] (v : RVec α) (key : α → K) (startBound endBound : Bound) (next : ρ → Nat × ρ) (rng : ρ) :
    M (RVec α) :=
  v.sortRangeBy (fun x y => compare (key x) (key y)) startBound endBound next rng

/-- `dual_sort_range_by_key`, `src/vector.rs:1945-1978`. -/
def dualSortRangeByKey [Ord K] (v : RVec α) (w : RVec β) (key : α → K) (startBound endBound : Bound)
    (next : ρ → Nat × ρ) (rng : ρ) : M (RVec α × RVec β) :=
  v.dualSortRangeBy w (fun x y => compare (key x) (key y)) startBound endBound next rng

/-- `sort_by`, `src/vector.rs:1993-2003`. -/
def sortBy (v : RVec α) (cmp : α → α → Ordering) (next : ρ → Nat × ρ) (rng : ρ) : M (RVec α) :=
  v.sortRangeBy cmp .unbounded .unbounded next rng

/-- `dual_sort_by`, `src/vector.rs:2020-2029`. -/
def dualSortBy (v : RVec α) (w : RVec β) (cmp : α → α → Ordering) (next : ρ → Nat × ρ) (rng : ρ) :
    M (RVec α × RVec β) :=
  v.dualSortRangeBy w cmp .unbounded .unbounded next rng

/-- `sort`, `src/vector.rs:2256-2258`; `sort_range`, `:2292-2297`, is the same with a range. -/
def sort [Ord α] (v : RVec α) (next : ρ → Nat × ρ) (rng : ρ) : M (RVec α) := v.sortBy compare next rng

/-- `dual_sort`, `src/vector.rs:2274-2279`. -/
def dualSort [Ord α] (v : RVec α) (w : RVec β) (next : ρ → Nat × ρ) (rng : ρ) : M (RVec α × RVec β) :=
  v.dualSortBy w compare next rng

end RVec
end Librrb
