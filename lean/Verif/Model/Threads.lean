import Verif.Model.Heap

/-!
# Model of threads that share nodes

`ThreadSafeVector` (`src/lib.rs:90-98`) keeps its nodes behind `Arc`s, so that vectors in different threads may
share nodes. Here a thread is a call on the heap (`HM`), and the threads take steps in any order.

Simplifications. A step is atomic, and all threads see the steps in one order: reading a count, changing it, and
reading or writing a node. The memory orderings that `Arc` uses are not modelled. `Arc::make_mut` is the
question whether the count is one, and otherwise a copy and a drop, as in `loadMut`; there are no weak
pointers in the code. A thread that panics stops there; what unwinding would drop is not dropped.
-/
namespace Librrb

namespace HM

/-- One step of a thread. A thread that has ended stays as it is. To drop entries takes a step for each of them, and for
each entry of a node that is freed by that. -/
def step : HM α γ → Heap α → M (HM α γ × Heap α)
  | .ret g, h => .ok (.ret g, h)
  | .fail e, h => .ok (.fail e, h)
  | .load a k, h =>
    match h.cell a with
    | some c => .ok (k c.node, h)
    | none => .error .ub
  | .isOne a k, h =>
    match h.cell a with
    | some c => .ok (k (c.count == 1), h)
    | none => .error .ub
  | .incr a x, h =>
    match h.cell a with
    | some c => .ok (x, h.put a (some { c with count := c.count + 1 }))
    | none => .error .ub
  | .alloc n k, h => .ok (k h.cells.length, { cells := h.cells ++ [some { count := 1, node := n }] })
  | .drop [] x, h => .ok (x, h)
  | .drop (a :: as) x, h => do
    let r ← h.release a
    .ok (.drop (r.1 ++ as) x, r.2)
  | .poke a f k, h =>
    match h.cell a with
    | some c => .ok (k c.node, h.put a (some { c with node := f c.node }))
    | none => .error .ub

/-- How a thread has ended, if it has. -/
def ended : HM α γ → Option (M γ)
  | .ret g => some (.ok g)
  | .fail e => some (.error e)
  | _ => none

end HM

/-- Threads and the memory that they share. -/
structure Pool (α γ : Type) where
  threads : List (HM α γ)
  heap : Heap α

namespace Pool

/-- A step of the thread `i`. Undefined behaviour in one thread is undefined behaviour of all. -/
def step (p : Pool α γ) (i : Nat) : M (Pool α γ) :=
  match p.threads[i]? with
  | none => .ok p
  | some x => do
    let r ← x.step p.heap
    .ok { threads := p.threads.set i r.1, heap := r.2 }

/-- Steps of threads, in the given order. -/
def run (p : Pool α γ) : List Nat → M (Pool α γ)
  | [] => .ok p
  | i :: is => do
    let p ← p.step i
    p.run is

end Pool
end Librrb
