import Verif.HeapSpec
import Verif.Model.Threads
import Mathlib.Data.List.Forall2

/-!
# Words for the property about threads
-/
namespace Librrb

/-- Calls that take `&self`. -/
def Act.ReadOnly : Act α → Prop
  | .len | .isEmpty | .get _ | .front | .back | .iterate _ | .focusRead _ => True
  | _ => False

/-- The call does no more to the first `k` variables than can be done through shared references to them: it may read, clone
and compare them. -/
def Call.Borrows (k : Nat) : Call α → Prop
  | .act v a => k ≤ v ∨ a.ReadOnly
  | .append v w | .prepend v w | .dualSort _ _ _ _ _ v w => k ≤ v ∧ k ≤ w
  | .drop v | .intoIter v _ => k ≤ v
  | .new | .singleton _ | .collect _ | .clone _ | .compare _ _ _ | .constant _ _ => True

/-- What a thread has to do: a program, on vectors that were moved to the thread. -/
structure Job (α : Type) where
  vars : List HVec
  prog : List (Call α)

/-- The threads, when none has taken a step. All of them have shared references to the vectors `lent`, as their first
variables. -/
def Pool.start (lent : List HVec) (jobs : List (Job α)) (h : Heap α) : Pool α (List (Answer α) × List HVec) :=
  { threads := jobs.map fun j => runHeap j.prog (lent ++ j.vars), heap := h }

/-- The programs of the threads are such as the compiler accepts. -/
def Legal (lent : List HVec) (jobs : List (Job α)) : Prop := ∀ j ∈ jobs, ∀ c ∈ j.prog, c.Fits ∧ c.Borrows lent.length

/-- The thread has ended as `q` says on sequences: with these answers and these contents of its variables, or with this
panic. -/
def EndsAs (h : Heap α) (r : M (β × List HVec)) (q : M (β × List (List α))) : Prop :=
  match q with
  | .error e => r = .error e
  | .ok (a, ls) => ∃ st, r = .ok (a, st) ∧ HHolding h st ls

/-- The node that the next step of the thread touches: it looks at the node or its count, or changes one of them. -/
def HM.touches : HM α γ → Option Addr
  | .load a _ | .isOne a _ | .incr a _ | .poke a _ _ | .drop (a :: _) _ => some a
  | _ => none

/-- The node that the next step of the thread writes to, or frees. -/
def HM.writesTo (h : Heap α) : HM α γ → Option Addr
  | .poke a _ _ => some a
  | .drop (a :: _) _ => if (h.cell a).any fun c => c.count ≤ 1 then some a else none
  | _ => none

/-- The states between which a program may be, if it splits up at times: it hands all its vectors out to threads, some to one
thread each and some to all of them together, and goes on with what is left when all threads have ended. (A thread
that stands for the rest of the program may have an empty list of calls.) -/
inductive ForkJoin : Heap α → List HVec → Prop where
  | empty : ForkJoin Heap.empty []
  | call {h h' : Heap α} {st st' : List HVec} {c : Call α} {a : Answer α} : ForkJoin h st → c.Fits →
      c.hrun st h = .ok ((a, st'), h') → ForkJoin h' st'
  | threads {h : Heap α} {st : List HVec} {lent : List HVec} {jobs : List (Job α)} {schedule : List Nat}
      {p : Pool α (List (Answer α) × List HVec)} {left : List (List HVec)} {st' : List HVec} : ForkJoin h st →
      (lent ++ jobs.flatMap Job.vars).Perm st → Legal lent jobs → (Pool.start lent jobs h).run schedule = .ok p →
      List.Forall₂ (fun x st => ∃ as, x.ended = some (.ok (as, lent ++ st))) p.threads left → (lent ++ left.flatten).Perm st' →
      ForkJoin p.heap st'

end Librrb
