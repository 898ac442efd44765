import Verif.Model.Sort

/-!
# Model of `src/sort.rs` with what a sort leaves behind when the comparator panics

The same code as in `Verif/Model/Sort.lean`, for comparators that may have a state of their own and may
panic, in a monad that keeps the state when a computation fails. Unwinding drops the foci, which for the
nodes of `src/node_impls/basic.rs` does nothing to the vector, so the vector that the caller finds after the
panic is the one in the state. `mem::swap` is not interrupted.
-/
namespace Librrb

/-- Computations on a state that is kept when they fail. -/
abbrev U (σ τ : Type) := ExceptT Fault (StateM σ) τ

/-- A comparator with a state `γ`, for instance that of a `Cell` that it captures; `none` is a panic. -/
abbrev Callback (γ α : Type) := γ → α → α → Option Ordering × γ

/-- What the algorithm does with foci `φ`; see `SortFocus`. -/
structure USortFocus (σ φ : Type) where
  len : φ → Nat
  check : φ → M Unit
  splitAt : φ → Nat → M (φ × φ)
  compare : φ → Nat → φ → Nat → U σ (Ordering × φ × φ)
  swap : φ → Nat → φ → Nat → U σ (φ × φ)

/-- Calling the comparator. -/
def Callback.ask (cmp : Callback γ α) (x y : α) : U (σ × γ) Ordering := fun s =>
  match cmp s.2 x y with
  | (some c, g) => (.ok c, (s.1, g))
  | (none, g) => (.error .panic, (s.1, g))

namespace USortFocus

/-- The operations of `do_single_sort`; see `SortFocus.single`. -/
def single (cmp : Callback γ α) : USortFocus (RVec α × γ) (FMut Cell) where
  len f := f.len
  check _ := .ok ()
  splitAt f k := f.splitAt k
  compare a i b j := do
    let x ← a.index i
    let y ← b.index j
    let s ← get
    let p ← s.1.readCell x.1
    let q ← s.1.readCell y.1
    let c ← cmp.ask p q
    pure (c, x.2, y.2)
  swap a i b j := do
    let x ← a.index i
    let y ← b.index j
    let s ← get
    let v ← s.1.swapCells x.1 y.1
    set (v, s.2)
    pure (x.2, y.2)

/-- The operations of `do_dual_sort`; see `SortFocus.dual`. -/
def dual (cmp : Callback γ α) : USortFocus ((RVec α × RVec β) × γ) (FMut Cell × FMut Cell) where
  len f := f.1.len
  check f := massert (f.1.len == f.2.len)
  splitAt f k := do
    let a ← f.1.splitAt k
    let b ← f.2.splitAt k
    .ok ((a.1, b.1), (a.2, b.2))
  compare a i b j := do
    let x ← a.1.index i
    let y ← b.1.index j
    let s ← get
    let p ← s.1.1.readCell x.1
    let q ← s.1.1.readCell y.1
    let c ← cmp.ask p q
    pure (c, (x.2, a.2), (y.2, b.2))
  swap a i b j := do
    let x ← a.1.index i
    let y ← b.1.index j
    let s ← get
    let v ← s.1.1.swapCells x.1 y.1
    set ((v, s.1.2), s.2)
    let p ← a.2.index i
    let q ← b.2.index j
    let w ← s.1.2.swapCells p.1 q.1
    set ((v, w), s.2)
    pure ((x.2, p.2), (y.2, q.2))

variable (o : USortFocus σ φ)

/-- The counting loop, `src/sort.rs:93-104` and `:275-282`; see `SortFocus.countLoop`. -/
def countLoop : Nat → Nat → φ → φ → Nat → Nat → U σ (Nat × Nat × φ × φ)
  | 0, _, first, rest, less, equal => pure (less, equal, first, rest)
  | n + 1, index, first, rest, less, equal => do
    let r ← o.compare rest index first 0
    match r.1 with
    | .lt => countLoop n (index + 1) r.2.2 r.2.1 (less + 1) equal
    | .eq => countLoop n (index + 1) r.2.2 r.2.1 less (equal + 1)
    | .gt => countLoop n (index + 1) r.2.2 r.2.1 less equal

/-- The loop that moves the minimum to the front, `src/sort.rs:118-128` and `:297-308`; see
`SortFocus.minLoop`. -/
def minLoop (lessCount : Nat) : Nat → Nat → φ → φ → U σ (φ × φ)
  | 0, _, first, rest => pure (first, rest)
  | n + 1, index, first, rest =>
    if index == lessCount then minLoop lessCount n (index + 1) first rest
    else do
      let r ← o.compare rest index first 0
      if r.1 == .lt then do
        let q ← o.swap r.2.2 0 r.2.1 index
        minLoop lessCount n (index + 1) q.1 q.2
      else minLoop lessCount n (index + 1) r.2.2 r.2.1

/-- First inner loop, `src/sort.rs:141-156` and `:333-348`; see `SortFocus.advanceLess`. -/
def advanceLess : Nat → SortFocus.Parts φ → U σ (Bool × SortFocus.Parts φ)
  | 0, _ => throw .diverge
  | fuel + 1, p =>
    if p.lp != o.len p.less then do
      let r ← o.compare p.less p.lp p.equal p.ep
      match r.1 with
      | .eq => pure (true, { p with less := r.2.1, equal := r.2.2 })
      | .gt => pure (false, { p with less := r.2.1, equal := r.2.2 })
      | .lt => advanceLess fuel { p with less := r.2.1, equal := r.2.2, lp := p.lp + 1 }
    else pure (false, p)

/-- Second inner loop, `src/sort.rs:159-172` and `:351-364`; see `SortFocus.advanceGreater`. -/
def advanceGreater : Nat → SortFocus.Parts φ → U σ (Bool × SortFocus.Parts φ)
  | 0, _ => throw .diverge
  | fuel + 1, p =>
    if p.gp != o.len p.greater then do
      let r ← o.compare p.greater p.gp p.equal p.ep
      match r.1 with
      | .lt => pure (false, { p with greater := r.2.1, equal := r.2.2 })
      | .eq => pure (true, { p with greater := r.2.1, equal := r.2.2 })
      | .gt => advanceGreater fuel { p with greater := r.2.1, equal := r.2.2, gp := p.gp + 1 }
    else pure (false, p)

/-- The loops `src/sort.rs:177-183`, `:192-198` and `:369-375`, `:388-394`; see `SortFocus.advanceEqual`. -/
def advanceEqual (i : Nat) : Nat → φ → φ → Nat → U σ (Nat × φ × φ)
  | 0, _, _, _ => throw .diverge
  | fuel + 1, side, equal, ep => do
    let r ← o.compare side i equal ep
    if r.1 == .eq then advanceEqual i fuel r.2.1 r.2.2 (ep + 1)
    else pure (ep, r.2.1, r.2.2)

/-- The body of the partition loop, `src/sort.rs:137-231` and `:329-435`; see `SortFocus.partStep`. -/
def partStep (p : SortFocus.Parts φ) : U σ (SortFocus.Parts φ) := do
  let a ← advanceLess o (o.len p.less - p.lp + 1) p
  let b ← advanceGreater o (o.len p.greater - p.gp + 1) a.2
  let p := b.2
  if b.1 then do
    let r ← advanceEqual o p.gp (o.len p.equal - p.ep + 1) p.greater p.equal p.ep
    let q ← o.swap r.2.1 p.gp r.2.2 r.1
    pure { p with greater := q.1, equal := q.2, ep := r.1 }
  else if a.1 then do
    let r ← advanceEqual o p.lp (o.len p.equal - p.ep + 1) p.less p.equal p.ep
    let q ← o.swap r.2.1 p.lp r.2.2 r.1
    pure { p with less := q.1, equal := q.2, ep := r.1 }
  else if p.lp ≠ o.len p.less ∧ p.gp ≠ o.len p.greater then do
    let c ← o.compare p.less p.lp p.equal p.ep
    massert (c.1 != .eq)
    let d ← o.compare p.greater p.gp c.2.2 p.ep
    massert (d.1 != .eq)
    let q ← o.swap c.2.1 p.lp d.2.1 p.gp
    pure { p with less := q.1, equal := d.2.2, greater := q.2, lp := p.lp + 1, gp := p.gp + 1 }
  else pure p

/-- The partition loop, `src/sort.rs:136-232` and `:328-436`; see `SortFocus.partLoop`. Unlike there, the
comparator may answer the same question differently, so a step that advances nothing may be followed by one
that does; the first argument is the number of steps that are looked at. -/
def partLoop : Nat → SortFocus.Parts φ → U σ (SortFocus.Parts φ)
  | 0, _ => throw .diverge
  | fuel + 1, p =>
    if p.lp ≠ o.len p.less ∨ p.gp ≠ o.len p.greater then do
      let r ← partStep o p
      partLoop fuel r
    else pure p

/-- `do_single_sort`, `src/sort.rs:68-239`, and `do_dual_sort`, `:241-449`; see `SortFocus.sort`. The
partition loop gets `budget` steps more than there. -/
def sort (next : ρ → Nat × ρ) (budget : Nat) : Nat → ρ → φ → U σ ρ
  | 0, _, _ => throw .diverge
  | fuel + 1, rng, focus =>
    if o.len focus ≤ 1 then pure rng
    else do
      let u := next rng
      let pivotIndex := u.1 % o.len focus
      let p ← o.splitAt focus 1
      o.check p.1
      o.check p.2
      let q ← (if pivotIndex > 0 then o.swap p.2 (pivotIndex - 1) p.1 0 else pure (p.2, p.1))
      let c ← countLoop o (o.len q.1) 0 q.2 q.1 0 0
      if c.1 == 0 then sort next budget fuel u.2 c.2.2.2
      else do
        let lessCount ← usub c.1 1
        let equalCount := c.2.1 + 1
        let w ← o.swap c.2.2.1 0 c.2.2.2 lessCount
        let m ← minLoop o lessCount (o.len w.2) 0 w.1 w.2
        let g ← o.splitAt m.2 (lessCount + equalCount)
        o.check g.2
        let e ← o.splitAt g.1 lessCount
        o.check e.2
        o.check e.1
        let r ← partLoop o (o.len e.1 + o.len e.2 + o.len g.2 + 2 + budget) ⟨e.1, e.2, g.2, 0, 0, 0⟩
        let x ← sort next budget fuel u.2 r.less
        if o.len r.greater != 0 then sort next budget fuel x r.greater
        else pure x

end USortFocus

namespace RVec

/-- The body of `sort_range_by`, `src/vector.rs:1808-1832`, for any generator. -/
def sortRangeByU (v : RVec α) (cmp : Callback γ α) (startBound endBound : Bound) (next : ρ → Nat × ρ)
    (budget : Nat) (rng : ρ) : U (RVec α × γ) Unit := do
  let start ← rangeStart startBound
  let stop ← rangeEnd v.len endBound
  let focus ← v.window start stop
  let _ ← (USortFocus.single cmp).sort next budget (focus.len + 1) rng focus
  pure ()

/-- `sort_range_by`: how it ends, the vector that it leaves, and the state of the comparator. -/
def sortRangeByLeaving (v : RVec α) (cmp : Callback γ α) (startBound endBound : Bound) (next : ρ → Nat × ρ)
    (budget : Nat) (rng : ρ) (state : γ) : M Unit × RVec α × γ :=
  v.sortRangeByU cmp startBound endBound next budget rng (v, state)

/-- The body of `dual_sort_range_by`, `src/vector.rs:1851-1884`, for any generator. -/
def dualSortRangeByU (v : RVec α) (w : RVec β) (cmp : Callback γ α) (startBound endBound : Bound)
    (next : ρ → Nat × ρ) (budget : Nat) (rng : ρ) : U ((RVec α × RVec β) × γ) Unit := do
  let start ← rangeStart startBound
  let stop ← rangeEnd v.len endBound
  let focus ← v.window start stop
  let dual ← w.window start stop
  let _ ← (USortFocus.dual cmp).sort next budget (focus.len + 1) rng (focus, dual)
  pure ()

/-- `dual_sort_range_by`: how it ends, the vectors that it leaves, and the state of the comparator. -/
def dualSortRangeByLeaving (v : RVec α) (w : RVec β) (cmp : Callback γ α) (startBound endBound : Bound)
    (next : ρ → Nat × ρ) (budget : Nat) (rng : ρ) (state : γ) : M Unit × (RVec α × RVec β) × γ :=
  v.dualSortRangeByU w cmp startBound endBound next budget rng ((v, w), state)

end RVec
end Librrb
