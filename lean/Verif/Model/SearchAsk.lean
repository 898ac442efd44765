import Verif.Model.Search
import Verif.Model.SortUnwind

/-!
# Model of the searches of `src/vector.rs` with comparisons that have a state and may panic

The same code as in `Verif/Model/Search.lean`. The comparison is a closure `Fn(&K) -> Ordering`, which may keep
a state in a `Cell`, answer the same question differently, and panic. The vector is only read.
-/
namespace Librrb

/-- A comparison with a state `γ`; `none` is a panic. -/
abbrev Probe (γ α : Type) := γ → α → Option Ordering × γ

/-- Calling the comparison. -/
def Probe.ask (f : Probe γ α) (x : α) : U γ Ordering := fun g =>
  match f g x with
  | (some c, g') => (.ok c, g')
  | (none, g') => (.error .panic, g')

namespace RVec

/-- First loop of `equal_range_for_index_in_range_by`, `src/vector.rs:1479-1496`; see `expandStart`. -/
def expandStartU (f : Probe γ α) : Nat → Focus α → Nat → Nat → U γ (Nat × Focus α)
  | 0, _, _, _ => throw .diverge
  | fuel + 1, focus, start, equalsStart => do
    let s ← uadd start 1
    if s == equalsStart then do
      let r ← focus.index start
      let c ← f.ask r.1
      pure (if c == .eq then start else equalsStart, r.2)
    else do
      let mid := avg start equalsStart
      let r ← focus.index mid
      let c ← f.ask r.1
      if c == .eq then expandStartU f fuel r.2 start mid
      else expandStartU f fuel r.2 mid equalsStart

/-- Second loop of `equal_range_for_index_in_range_by`, `src/vector.rs:1500-1512`; see `expandEnd`. -/
def expandEndU (f : Probe γ α) : Nat → Focus α → Nat → Nat → U γ Nat
  | 0, _, _, _ => throw .diverge
  | fuel + 1, focus, equalsEnd, stop => do
    let e ← uadd equalsEnd 1
    if e == stop then pure equalsEnd
    else do
      let mid := avg equalsEnd stop
      let r ← focus.index mid
      let c ← f.ask r.1
      if c == .eq then expandEndU f fuel r.2 mid stop
      else expandEndU f fuel r.2 equalsEnd mid

/-- `equal_range_for_index_in_range_by`, `src/vector.rs:1439-1516`; see `equalRangeForIndexInRangeBy`. -/
def equalRangeForIndexInRangeByU (v : RVec α) (index : Nat) (f : Probe γ α) (startBound endBound : Bound) :
    U γ (Nat × Nat) := do
  let start ← rangeStart startBound
  let stop ← searchEnd v.len endBound
  if index < start ∨ index ≥ stop then pure (0, 0)
  else do
    let focus ← Focus.new v
    let r ← focus.index index
    let c ← f.ask r.1
    if c != .eq then pure (0, 0)
    else do
      let p ← (if index != start then expandStartU f (index - start + 1) r.2 start index else pure (index, r.2))
      let e ← expandEndU f (stop - index + 1) p.2 index stop
      let e ← uadd e 1
      pure (p.1, e)

/-- The loop of `equal_range_in_range_by`, `src/vector.rs:1601-1632`; see `searchLoop`. -/
def searchLoopU (v : RVec α) (f : Probe γ α) : Nat → Focus α → Nat → Nat → U γ Hit
  | 0, _, _, _ => throw .diverge
  | fuel + 1, focus, start, stop => do
    let s ← uadd start 1
    if s == stop then do
      let r ← focus.index start
      let c ← f.ask r.1
      match c with
      | .lt => pure (.missing s)
      | .gt => pure (.missing start)
      | .eq => pure (.found start stop)
    else do
      let mid := avg start stop
      let r ← focus.index mid
      let c ← f.ask r.1
      match c with
      | .lt => searchLoopU v f fuel r.2 mid stop
      | .gt => searchLoopU v f fuel r.2 start mid
      | .eq => do
        let p ← v.equalRangeForIndexInRangeByU mid f (.included start) (.excluded stop)
        pure (.found p.1 p.2)

/-- `equal_range_in_range_by`, `src/vector.rs:1576-1634`; see `equalRangeInRangeBy`. A comparison with a state may
end the loop over an empty range after any number of steps; `budget` is for those. -/
def equalRangeInRangeByU (v : RVec α) (f : Probe γ α) (startBound endBound : Bound) (budget : Nat) : U γ Hit := do
  let start ← rangeStart startBound
  let stop ← searchEnd v.len endBound
  let focus ← Focus.new v
  searchLoopU v f (searchFuel start stop + budget) focus start stop

/-- `equal_range_in_range_by`: how it ends, and the state of the comparison. -/
def equalRangeInRangeByAsking (v : RVec α) (f : Probe γ α) (startBound endBound : Bound) (budget : Nat) (state : γ) :
    M Hit × γ :=
  v.equalRangeInRangeByU f startBound endBound budget state

/-- `equal_range_by`, `src/vector.rs:1660-1667`: how it ends, and the state of the comparison. -/
def equalRangeByAsking (v : RVec α) (f : Probe γ α) (budget : Nat) (state : γ) : M Hit × γ :=
  v.equalRangeInRangeByAsking f .unbounded .unbounded budget state

/-- `equal_range_for_index_in_range_by`: how it ends, and the state of the comparison. -/
def equalRangeForIndexInRangeByAsking (v : RVec α) (index : Nat) (f : Probe γ α) (startBound endBound : Bound)
    (state : γ) : M (Nat × Nat) × γ :=
  v.equalRangeForIndexInRangeByU index f startBound endBound state

end RVec
end Librrb
