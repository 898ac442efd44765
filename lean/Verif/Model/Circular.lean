import Verif.Model.Basic

/-!
# Model of `src/circular.rs`

A node buffer is a ring of 64 `MaybeUninit` slots.  A slot is `some x` while it holds a live
item and `none` while it is uninitialised or moved out.
-/
namespace Librrb

/-- `src/circular.rs:153-157` `CircularBuffer { front, len, data: [MaybeUninit<A>; RRB_WIDTH] }`.
The array type of fixed length is a list here; its length is part of the invariant. -/
structure CB (α : Type u) where
  front : Nat
  len : Nat
  data : List (Option α)
  deriving DecidableEq, Repr

/-- Reading a slot through its pointer (`assume_init`, `&*ptr`); used by all readers in
`src/circular.rs`. Index outside of the array: panic. Nothing in the slot: undefined behaviour. -/
def readSlot (data : List (Option α)) (i : Nat) : M α :=
  match data[i]? with
  | none => .error .panic
  | some none => .error .ub
  | some (some x) => .ok x

/-- `self.data[i] = MaybeUninit::new(item)`. Does not drop what was in the slot, so a live slot
would be leaked. -/
def initSlot (data : List (Option α)) (i : Nat) (x : α) : M (List (Option α)) :=
  match data[i]? with
  | none => .error .panic
  | some (some _) => .error .leak
  | some none => .ok (data.set i (some x))

/-- `mem::replace(&mut self.data[i], MaybeUninit::uninit()).assume_init()`. -/
def takeSlot (data : List (Option α)) (i : Nat) : M (α × List (Option α)) :=
  match data[i]? with
  | none => .error .panic
  | some none => .error .ub
  | some (some x) => .ok (x, data.set i none)

/-- Assignment `*ptr = x` through a `&mut A` to a live slot (drops the old item). -/
def assignSlot (data : List (Option α)) (i : Nat) (x : α) : M (List (Option α)) :=
  match data[i]? with
  | none => .error .panic
  | some none => .error .ub
  | some (some _) => .ok (data.set i (some x))

namespace CB

/-- `src/circular.rs:161-169` `CircularBuffer::new`. -/
def new : CB α := { front := 0, len := 0, data := List.replicate RRB_WIDTH none }

/-- `src/circular.rs:185-187` `is_empty`. -/
def isEmpty (b : CB α) : Bool := b.len == 0

/-- `src/circular.rs:190-192` `free_space`. -/
def freeSpace (b : CB α) : M Nat := usub RRB_WIDTH b.len

/-- `src/circular.rs:195-197` `is_full`. -/
def isFull (b : CB α) : Bool := b.len == RRB_WIDTH

/-- `src/circular.rs:200-202` `index_for`. -/
def indexFor (b : CB α) (idx : Nat) : Nat := (b.front + idx) % RRB_WIDTH

/-- `src/circular.rs:207-216` `try_push_back`; `none` is `None` (buffer unchanged). -/
def tryPushBack (b : CB α) (item : α) : M (Option (CB α)) :=
  if b.isFull then .ok none
  else do
    let back := (b.front + b.len) % RRB_WIDTH
    let data ← initSlot b.data back item
    .ok (some { b with data := data, len := b.len + 1 })

/-- `src/circular.rs:221-223` `push_back`. -/
def pushBack (b : CB α) (item : α) : M (CB α) := do
  unwrap (← b.tryPushBack item)

/-- `src/circular.rs:228-239` `try_pop_back`. -/
def tryPopBack (b : CB α) : M (Option (α × CB α)) :=
  if b.isEmpty then .ok none
  else do
    let len ← usub b.len 1
    let back := (b.front + len) % RRB_WIDTH
    let r ← takeSlot b.data back
    .ok (some (r.1, { b with data := r.2, len := len }))

/-- `src/circular.rs:244-246` `pop_back`. -/
def popBack (b : CB α) : M (α × CB α) := do
  unwrap (← b.tryPopBack)

/-- `src/circular.rs:251-260` `try_push_front`. -/
def tryPushFront (b : CB α) (item : α) : M (Option (CB α)) :=
  if b.isFull then .ok none
  else do
    let front := (b.front + RRB_WIDTH - 1) % RRB_WIDTH
    let data ← initSlot b.data front item
    .ok (some { front := front, len := b.len + 1, data := data })

/-- `src/circular.rs:265-267` `push_front`. -/
def pushFront (b : CB α) (item : α) : M (CB α) := do
  unwrap (← b.tryPushFront item)

/-- `src/circular.rs:272-283` `try_pop_front`. -/
def tryPopFront (b : CB α) : M (Option (α × CB α)) :=
  if b.isEmpty then .ok none
  else do
    let r ← takeSlot b.data b.front
    let len ← usub b.len 1
    .ok (some (r.1, { front := (b.front + 1) % RRB_WIDTH, len := len, data := r.2 }))

/-- `src/circular.rs:288-290` `pop_front`. -/
def popFront (b : CB α) : M (α × CB α) := do
  unwrap (← b.tryPopFront)

/-- `src/circular.rs:172-176` `with_item`. -/
def withItem (item : α) : M (CB α) := (new : CB α).pushBack item

/-- `src/circular.rs:295-300` `push`. -/
def push (b : CB α) (side : Side) (item : α) : M (CB α) :=
  match side with
  | .back => b.pushBack item
  | .front => b.pushFront item

/-- `src/circular.rs:305-310` `try_pop`. -/
def tryPop (b : CB α) (side : Side) : M (Option (α × CB α)) :=
  match side with
  | .back => b.tryPopBack
  | .front => b.tryPopFront

/-- `src/circular.rs:315-317` `pop`. -/
def pop (b : CB α) (side : Side) : M (α × CB α) := do
  unwrap (← b.tryPop side)

/-- `src/circular.rs:319-333` `get_ptr` and `get`: the pointer is followed at once. -/
def get (b : CB α) (idx : Nat) : M (Option α) :=
  if idx < b.len then do
    let x ← readSlot b.data (b.indexFor idx)
    .ok (some x)
  else .ok none

/-- `src/circular.rs:335-349` `get_mut_ptr`/`get_mut` followed by an assignment of `x` through
the returned reference; `none` when `get_mut` gives `None`. -/
def set (b : CB α) (idx : Nat) (x : α) : M (Option (CB α)) :=
  if idx < b.len then do
    let data ← assignSlot b.data (b.indexFor idx) x
    .ok (some { b with data := data })
  else .ok none

/-- `src/circular.rs:365-371` `back`. -/
def back (b : CB α) : M (Option α) :=
  if !b.isEmpty then do
    let i ← usub b.len 1
    b.get i
  else .ok none

/-- `src/circular.rs:483-489` `Index::index`. -/
def index (b : CB α) (idx : Nat) : M α := do
  unwrap (← b.get idx)

/-- `src/circular.rs:436-453` `pair_mut`: the two physical slots whose references are handed out,
in the order of the arguments. The recursive call with swapped arguments is written as a branch:
it is taken at most once, as the second time `first_idx < second_idx`.
`split_at_mut(mid)` panics for `mid > 64`; `first_slice[first_idx]` panics if
`first_idx >= second_idx`. -/
def pairMut (b : CB α) (first second : Nat) : M (Nat × Nat) := do
  massert (first != second)
  massert (decide (first < b.len))
  massert (decide (second < b.len))
  let firstIdx := b.indexFor first
  let secondIdx := b.indexFor second
  if firstIdx > secondIdx then do
    massert (decide (firstIdx < b.data.length) && decide (secondIdx < firstIdx))
    .ok (firstIdx, secondIdx)
  else do
    massert (decide (secondIdx < b.data.length) && decide (firstIdx < secondIdx))
    .ok (firstIdx, secondIdx)

/-- `src/circular.rs:464-467`, the loop of `decant_into`: move `n` items. -/
def decantLoop (src dst : CB α) (shareSide : Side) : Nat → M (CB α × CB α)
  | 0 => .ok (src, dst)
  | n + 1 => do
    let r ← src.pop shareSide
    let dst ← dst.push shareSide.negate r.1
    decantLoop r.2 dst shareSide n

/-- `src/circular.rs:458-470` `decant_into`: returns the number moved, the new `self` and the
new `destination`. -/
def decantInto (src dst : CB α) (shareSide : Side) (len : Nat) : M (Nat × CB α × CB α) :=
  if dst.isEmpty && decide (len ≥ RRB_WIDTH) then
    .ok (src.len, dst, src)
  else do
    let free ← dst.freeSpace
    let result := min (min len src.len) free
    let r ← decantLoop src dst shareSide result
    .ok (result, r.1, r.2)

/-! ### Iterators -/

/-- `src/circular.rs:612-617` `Iter` (the buffer is passed separately). -/
structure Iter where
  consumed : Nat
  front : Nat
  back : Nat
  deriving DecidableEq, Repr

/-- `src/circular.rs:412-419` `iter`. -/
def iter (b : CB α) : Iter :=
  { consumed := 0, front := b.front, back := (b.front + b.len) % RRB_WIDTH }

/-- `src/circular.rs:622-631` `Iter::next`. -/
def Iter.next (b : CB α) (it : Iter) : M (Option α × Iter) :=
  if it.consumed == b.len then .ok (none, it)
  else do
    let x ← readSlot b.data it.front
    .ok (some x, { it with front := (it.front + 1) % RRB_WIDTH, consumed := it.consumed + 1 })

/-- `src/circular.rs:640-649` `Iter::next_back`. -/
def Iter.nextBack (b : CB α) (it : Iter) : M (Option α × Iter) :=
  if it.consumed == b.len then .ok (none, it)
  else do
    let bk := (it.back + RRB_WIDTH - 1) % RRB_WIDTH
    let x ← readSlot b.data bk
    .ok (some x, { it with back := bk, consumed := it.consumed + 1 })

/-- `src/circular.rs:633-636` `Iter::size_hint`. -/
def Iter.sizeHint (b : CB α) (it : Iter) : M Nat := usub b.len it.consumed

/-- A loop `for x in &buffer { … }` (`IntoIterator for &CircularBuffer`, `src/circular.rs:756-763`)
threading a state; the first argument bounds the number of steps. -/
def foldIterLoop (f : σ → α → M σ) (b : CB α) : Nat → Iter → σ → M σ
  | 0, _, _ => .error .diverge
  | n + 1, it, st => do
    let r ← it.next b
    match r.1 with
    | none => .ok st
    | some x => do
      let st ← f st x
      foldIterLoop f b n r.2 st

/-- See `foldIterLoop`. -/
def foldIter (f : σ → α → M σ) (b : CB α) (st : σ) : M σ := foldIterLoop f b (b.len + 1) b.iter st

/-- `src/circular.rs:657-661` `IterMut` (the buffer is passed separately). -/
structure IterMut where
  front : Nat
  len : Nat
  deriving DecidableEq, Repr

/-- `src/circular.rs:422-428` `iter_mut`. -/
def iterMut (b : CB α) : IterMut := { len := b.len, front := b.front }

/-- `src/circular.rs:666-675` `IterMut::next`: the physical slot handed out. Handing out a
reference to a slot that holds nothing is `ub`. -/
def IterMut.next (b : CB α) (it : IterMut) : M (Option Nat × IterMut) :=
  if it.len == 0 then .ok (none, it)
  else do
    let len ← usub it.len 1
    let _ ← readSlot b.data it.front
    .ok (some it.front, { front := (it.front + 1) % RRB_WIDTH, len := len })

/-- `src/circular.rs:683-692` `IterMut::next_back`. -/
def IterMut.nextBack (b : CB α) (it : IterMut) : M (Option Nat × IterMut) :=
  if it.len == 0 then .ok (none, it)
  else do
    let len ← usub it.len 1
    let index := (it.front + len + RRB_WIDTH) % RRB_WIDTH
    let _ ← readSlot b.data index
    .ok (some index, { it with len := len })

/-- A `for item in self.buffer.iter_mut() { *item = f(*item) }` loop, as used in
`src/size_table.rs:129-131` and `:149-151`: `n` is the number of steps left, which is
the `len` of the `IterMut`. -/
def forEachMut (f : α → M α) : Nat → IterMut → CB α → M (CB α)
  | 0, it, b => do
    let r ← it.next b
    match r.1 with
    | none => .ok b
    | some _ => .error .diverge
  | n + 1, it, b => do
    let r ← it.next b
    match r.1 with
    | none => .ok b
    | some slot => do
      let x ← readSlot b.data slot
      let y ← f x
      let data ← assignSlot b.data slot y
      forEachMut f n r.2 { b with data := data }

/-- See `forEachMut`. -/
def mapMut (f : α → M α) (b : CB α) : M (CB α) := forEachMut f b.len b.iterMut b

/-- `src/circular.rs:700-705` `IntoIter`. -/
structure IntoIter (α : Type u) where
  consumed : Nat
  front : Nat
  back : Nat
  buffer : CB α
  deriving DecidableEq, Repr

/-- `src/circular.rs:778-786` `into_iter`. -/
def intoIter (b : CB α) : IntoIter α :=
  { consumed := 0, front := b.front, back := (b.front + b.len) % RRB_WIDTH, buffer := b }

/-- `src/circular.rs:710-725` `IntoIter::next`. -/
def IntoIter.next (it : IntoIter α) : M (Option α × IntoIter α) :=
  if it.consumed == it.buffer.len then .ok (none, it)
  else do
    let r ← takeSlot it.buffer.data it.front
    .ok (some r.1, { it with
      buffer := { it.buffer with data := r.2 }
      front := (it.front + 1) % RRB_WIDTH
      consumed := it.consumed + 1 })

/-- `src/circular.rs:734-749` `IntoIter::next_back`. As in the code, the slot read is
`self.front`, not the decremented `self.back`. -/
def IntoIter.nextBack (it : IntoIter α) : M (Option α × IntoIter α) :=
  if it.consumed == it.buffer.len then .ok (none, it)
  else do
    let bk := (it.back + RRB_WIDTH - 1) % RRB_WIDTH
    let r ← takeSlot it.buffer.data it.front
    .ok (some r.1, { it with
      buffer := { it.buffer with data := r.2 }
      back := bk
      consumed := it.consumed + 1 })

/-- One call of `next` (`front`) or `next_back` (`back`) of `Iter`. -/
def Iter.step (b : CB α) : Side → Iter → M (Option α × Iter)
  | .front, it => it.next b
  | .back, it => it.nextBack b

/-- One call of `next` or `next_back` of `IterMut`. -/
def IterMut.step (b : CB α) : Side → IterMut → M (Option Nat × IterMut)
  | .front, it => it.next b
  | .back, it => it.nextBack b

/-- One call of `next` or `next_back` of `IntoIter`. -/
def IntoIter.step : Side → IntoIter α → M (Option α × IntoIter α)
  | .front, it => it.next
  | .back, it => it.nextBack

/-! ### Clone and drop -/

/-- A loop over the slots `lo, lo+1, …, lo+n-1` that clones each into the same slot of `data'`
(`src/circular.rs:521-535`). Returns the new array and the log of cloned items. `clone` of an
item is the item. -/
def cloneLoop (data : List (Option α)) : Nat → Nat → List (Option α) → M (List (Option α) × List α)
  | _, 0, data' => .ok (data', [])
  | lo, n + 1, data' => do
    let x ← readSlot data lo
    let data' ← initSlot data' lo x
    let r ← cloneLoop data (lo + 1) n data'
    .ok (r.1, x :: r.2)

/-- `src/circular.rs:509-544` `Clone::clone`: the new buffer and the items whose `clone` was
called, in the order of the calls. `iter().enumerate().skip(f).take(n)` visits the slots
`f .. min (f+n) 64`. -/
def clone (b : CB α) : M (CB α × List α) := do
  let empty : List (Option α) := List.replicate RRB_WIDTH none
  let bk := (b.front + b.len) % RRB_WIDTH
  let r ←
    (if b.isFull then cloneLoop b.data 0 b.data.length empty
    else if bk ≥ b.front then
      cloneLoop b.data b.front (min b.len (b.data.length - b.front)) empty
    else do
      let r1 ← cloneLoop b.data 0 (min bk b.data.length) empty
      let r2 ← cloneLoop b.data b.front (b.data.length - b.front) r1.1
      .ok (r2.1, r1.2 ++ r2.2))
  .ok ({ front := b.front, len := b.len, data := r.1 }, r.2)

/-- A loop over the slots `lo … lo+n-1` that moves each item out and drops it
(`src/circular.rs:551-572`). Returns the array and the log of dropped items. -/
def dropLoop : Nat → Nat → List (Option α) → M (List (Option α) × List α)
  | _, 0, data => .ok (data, [])
  | lo, n + 1, data => do
    let r ← takeSlot data lo
    let s ← dropLoop (lo + 1) n r.2
    .ok (s.1, r.1 :: s.2)

/-- `src/circular.rs:546-575` `Drop::drop`: the array afterwards and the dropped items. Slicing
`data[front..back]` panics when out of bounds. -/
def drop (b : CB α) : M (List (Option α) × List α) :=
  let bk := (b.front + b.len) % RRB_WIDTH
  if b.isFull then dropLoop 0 b.data.length b.data
  else if bk ≥ b.front then do
    massert (decide (bk ≤ b.data.length))
    dropLoop b.front (bk - b.front) b.data
  else do
    massert (decide (bk ≤ b.data.length) && decide (b.front ≤ b.data.length))
    let r1 ← dropLoop 0 bk b.data
    let r2 ← dropLoop b.front (b.data.length - b.front) r1.1
    .ok (r2.1, r1.2 ++ r2.2)

/-- Dropping an `IntoIter`. The struct has no `Drop` of its own (`src/circular.rs:700-705`), so what
runs is the `Drop` of its buffer, whose `front` and `len` the iteration never changed. -/
def IntoIter.drop (it : IntoIter α) : M (List (Option α) × List α) := it.buffer.drop

/-! ### Abstraction -/

/-- The sequence a buffer holds: the live items from `front` on. Not part of the code; this is
the meaning given to a buffer. -/
def toList (b : CB α) : List α :=
  (List.range b.len).filterMap fun i => (b.data[(b.front + i) % RRB_WIDTH]?).join

end CB

end Librrb
