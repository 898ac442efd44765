import Verif.Model.Threads

/-!
# Model of threads that share nodes behind `Rc`

`Vector` (`src/lib.rs:76-87`) keeps its nodes behind `Rc`s, whose counts are plain numbers: to change one is to read it and
then to write it, and another thread may take steps in between. The compiler keeps vectors with `Rc`s in one thread, but not their
mutable foci: `unsafe impl Send for FocusMut` (`src/focus.rs:402-407`) asks only that items may be sent.

Simplifications, beside those of `Verif/Model/Threads.lean`. That two threads use one count at a time without order is undefined
behaviour already; here the steps have some order, and undefined behaviour is only what comes of that. Whether the count has come to
zero is decided by the number that is written, where `Rc` reads it again.
-/
namespace Librrb

namespace HM

/-- The node whose count the next step changes: `Rc::clone` and `Rc::drop`. -/
def recounts : HM α γ → Option Addr
  | .incr a _ | .drop (a :: _) _ => some a
  | _ => none

/-- The second half of such a step, after the count was read as `n`. -/
def settle (n : Nat) : HM α γ → Heap α → M (HM α γ × Heap α)
  | .incr a x, h =>
    match h.cell a with
    | some c => .ok (x, h.put a (some { c with count := n + 1 }))
    | none => .error .ub
  | .drop (a :: as) x, h =>
    match h.cell a with
    | some c =>
      if n ≤ 1 then .ok (.drop (c.node.kids ++ as) x, h.put a none)
      else .ok (.drop as x, h.put a (some { c with count := n - 1 }))
    | none => .error .ub
  | x, h => x.step h

end HM

/-- A thread: before a step, or in the middle of one, where it has read the count `n`. -/
inductive RcThread (α γ : Type) where
  | ready (x : HM α γ)
  | half (n : Nat) (x : HM α γ)

/-- A step, or half of a step that changes a count. -/
def RcThread.step : RcThread α γ → Heap α → M (RcThread α γ × Heap α)
  | .ready x, h =>
    match x.recounts with
    | some a =>
      match h.cell a with
      | some c => .ok (.half c.count x, h)
      | none => .error .ub
    | none => do
      let r ← x.step h
      .ok (.ready r.1, r.2)
  | .half n x, h => do
    let r ← x.settle n h
    .ok (.ready r.1, r.2)

/-- Threads and the memory that they share; see `Pool`. -/
structure RcPool (α γ : Type) where
  threads : List (RcThread α γ)
  heap : Heap α

namespace RcPool

/-- A step of the thread `i`. -/
def step (p : RcPool α γ) (i : Nat) : M (RcPool α γ) :=
  match p.threads[i]? with
  | none => .ok p
  | some x => do
    let r ← x.step p.heap
    .ok { threads := p.threads.set i r.1, heap := r.2 }

/-- Steps of threads, in the given order. -/
def run (p : RcPool α γ) : List Nat → M (RcPool α γ)
  | [] => .ok p
  | i :: is => do
    let p ← p.step i
    p.run is

end RcPool

/-- The threads of a `Pool`, with counts that are not atomic. -/
def Pool.rc (p : Pool α γ) : RcPool α γ := { threads := p.threads.map .ready, heap := p.heap }

end Librrb
