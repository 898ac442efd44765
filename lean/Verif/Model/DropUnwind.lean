import Verif.HeapHistory
import Verif.HeapSpec

/-!
# Model of dropping vectors whose items panic when they are dropped

`Drop::drop` of an item may panic. The panic unwinds out of the loop of `CircularBuffer::drop` (`src/circular.rs:546-575`) or of
its twin with `may_dangle` (`:578-607`), so what is in later slots is forgotten: an array of `MaybeUninit` drops nothing. So it goes
on in the nodes above. The drop of the vector itself is that of its fields: the compiler drops the other entries of the spines and the
root also if one of them panics, and aborts the program if another one does then.

The slices (`src/vector.rs:1130-1165`) drop a part of a vector. `slice_from_start` drops it when the vector is cut already; the
assignment at the end of `slice_to_end` puts the new vector there also if the drop of the old one panics.

Simplifications. The memory of a node that was being freed when the panic passed through counts as freed, as no pointer to it is left. Items panic only when a
variable with a vector or an iterator (`IntoIter`, `src/vector.rs:2639-2684`) is dropped, and in the slices; the other calls drop no items.
-/
namespace Librrb

/-- The memory, the state of the items' destructors, and which items were dropped, with those that panicked marked. -/
structure DropState (γ α : Type) where
  heap : Heap α
  env : γ
  dropped : List (α × Bool)

/-- Dropping one thing after another, until the first panic: the loops of `src/circular.rs:549-573`. -/
def untilPanic (f : β → σ → M (Bool × σ)) : List β → σ → M (Bool × σ)
  | [], s => .ok (false, s)
  | x :: xs, s => do
    let r ← f x s
    if r.1 then .ok (true, r.2) else untilPanic f xs r.2

/-- Dropping an item. `quits` says whether it panics; the item is gone in either case. -/
def dropItem (quits : γ → α → Bool × γ) (x : α) (s : DropState γ α) : M (Bool × DropState γ α) :=
  .ok ((quits s.env x).1, { s with env := (quits s.env x).2, dropped := s.dropped ++ [(x, (quits s.env x).1)] })

/-- Dropping an entry (`SharedPointer`): one owner less; without owners the node is dropped, which is its ring (`src/circular.rs:546-575`)
of items or of entries, in the order of the array. The result says whether there was a panic. The first argument bounds the depth. -/
def dropEntryU (quits : γ → α → Bool × γ) : Nat → Addr → DropState γ α → M (Bool × DropState γ α)
  | 0, _, _ => .error .diverge
  | fuel + 1, a, s =>
    match s.heap.cell a with
    | none => .error .ub
    | some c =>
      if c.count ≤ 1 then
        match c.node with
        | .leaf b => untilPanic (dropItem quits) (b.data.filterMap id) { s with heap := s.heap.put a none }
        | .internal _ _ k => untilPanic (dropEntryU quits fuel) (k.data.filterMap id) { s with heap := s.heap.put a none }
      else .ok (false, { s with heap := s.heap.put a (some { c with count := c.count - 1 }) })

/-- The entries of a vector, `src/vector.rs:388-396`, are dropped also after a panic (`late`). `none`: there was another panic then, and
the program is aborted. -/
def dropFields (quits : γ → α → Bool × γ) : Bool → List Addr → DropState γ α → M (Option Bool × DropState γ α)
  | late, [], s => .ok (some late, s)
  | late, a :: as, s => do
    let r ← dropEntryU quits (s.heap.total + 1) a s
    if r.1 && late then .ok (none, r.2) else dropFields quits (r.1 || late) as r.2

/-- What a program does: a call, or the drop of a variable, in which items may panic, or that of a part of one: `slice` keeps the first `n` items
(`slice_from_start`), or those after them (`slice_to_end`), and `intoIter` takes items off the ends and then drops the iterator. A panic
is caught; the variable, or the part, is gone. -/
inductive DCall (α : Type) where
  | call (c : Call α)
  | drop (v : Nat)
  | slice (kept : Side) (v n : Nat)
  | intoIter (v : Nat) (script : List Side)

/-- The same, if no item panics. -/
def DCall.plain : DCall α → Call α
  | .call c => c
  | .drop v => .drop v
  | .slice .front v n => .act v (.sliceFromStart n)
  | .slice .back v n => .act v (.sliceToEnd n)
  | .intoIter v script => .intoIter v script

/-- The part that is kept, and the other one. -/
def keeping (kept : Side) (parts : β × β) : β × β :=
  match kept with
  | .front => parts
  | .back => (parts.2, parts.1)

/-- One call. `none`: the program is aborted. -/
def DCall.exec (quits : γ → α → Bool × γ) (st : List HVec) (s : DropState γ α) : DCall α → M (Option (Answer α × List HVec) × DropState γ α)
  | .call c => do
    let r ← (c.hrun st).run s.heap
    .ok (some r.1, { s with heap := r.2 })
  | .drop v =>
    match st[v]? with
    | none => .ok (some (.none, st), s)
    | some x => do
      let r ← dropFields quits false x.entries s
      .ok (r.1.map fun _ => (.none, st.eraseIdx v), r.2)
  | .slice kept v n =>
    match st[v]? with
    | none => .ok (some (.none, st), s)
    | some x => do
      let r ← (x.splitOff n).run s.heap
      let q ← dropFields quits false (keeping kept r.1).2.entries { s with heap := r.2 }
      .ok (q.1.map fun _ => (.none, st.set v (keeping kept r.1).1), q.2)
  | .intoIter v script =>
    match st[v]? with
    | none => .ok (some (.none, st), s)
    | some x => do
      let r ← (hrunAll HVec.intoIterStep script x).run s.heap
      let q ← dropFields quits false r.1.2.entries { s with heap := r.2 }
      .ok (q.1.map fun _ => (.items r.1.1, st.eraseIdx v), q.2)

/-- A program, from given variables. -/
def runDrops (quits : γ → α → Bool × γ) : List (DCall α) → List HVec → DropState γ α →
    M (Option (List (Answer α) × List HVec) × DropState γ α)
  | [], st, s => .ok (some ([], st), s)
  | c :: cs, st, s => do
    let r ← c.exec quits st s
    match r.1 with
    | none => .ok (none, r.2)
    | some (a, st) => do
      let q ← runDrops quits cs st r.2
      .ok (q.1.map fun p => (a :: p.1, p.2), q.2)

end Librrb
