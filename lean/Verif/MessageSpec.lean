import Verif.ThreadSpec
import Mathlib.Logic.Relation

/-!
# Threads that send each other vectors

`Vector` is `Send` if its pointers are (`ThreadSafeVector`, `src/lib.rs:90-98`), so vectors may be sent through channels, and a
thread may go on with a vector whose nodes another thread shares. Here each thread follows a plan: what it does next depends on
all answers it has got. The steps of the threads are those of `Model/Threads.lean`, in any order.
-/
namespace Librrb

/-- What a thread does next: a call, to send one of its vectors away, or to wait for a vector. -/
inductive Cmd (α : Type) where
  | call (c : Call α)
  | send (channel v : Nat)
  | recv (channel : Nat)

/-- The first message of a channel, and the others. -/
def takeMail (channel : Nat) : List (Nat × β) → Option (β × List (Nat × β))
  | [] => none
  | m :: ms => if m.1 = channel then some (m.2, ms) else (takeMail channel ms).map fun r => (r.1, m :: r.2)

/-- Between calls a thread has variables; else it is at some place in a call, or it has panicked. -/
inductive Phase (α : Type) where
  | idle (vars : List HVec)
  | busy (x : HM α (Answer α × List HVec))
  | dead (e : Fault)

/-- The variables of a thread between calls. -/
def Phase.vars : Phase α → List HVec
  | .idle vars => vars
  | _ => []

/-- A thread: its plan, the answers it has got, and where it is. -/
structure Worker (α : Type) where
  plan : List (Answer α) → Option (Cmd α)
  log : List (Answer α)
  phase : Phase α

/-- The threads, the messages on the way, and the memory. -/
structure Team (α : Type) where
  workers : List (Worker α)
  mail : List (Nat × HVec)
  heap : Heap α

/-- A step of a thread, which has the messages and the memory at hand. A thread waits if its channel is empty. To send a vector
that it does not have does nothing. -/
def Worker.step (w : Worker α) (mail : List (Nat × HVec)) (h : Heap α) : M (Worker α × List (Nat × HVec) × Heap α) :=
  match w.phase with
  | .dead _ => .ok (w, mail, h)
  | .busy x =>
    match x.ended with
    | some (.ok (a, vars)) => .ok ({ w with log := w.log ++ [a], phase := .idle vars }, mail, h)
    | some (.error e) => .ok ({ w with phase := .dead e }, mail, h)
    | none => do
      let r ← x.step h
      .ok ({ w with phase := .busy r.1 }, mail, r.2)
  | .idle vars =>
    match w.plan w.log with
    | none => .ok (w, mail, h)
    | some (.call c) => .ok ({ w with phase := .busy (c.hrun vars) }, mail, h)
    | some (.send channel v) =>
      match vars[v]? with
      | none => .ok ({ w with log := w.log ++ [.none] }, mail, h)
      | some x => .ok ({ w with log := w.log ++ [.none], phase := .idle (vars.eraseIdx v) }, mail ++ [(channel, x)], h)
    | some (.recv channel) =>
      match takeMail channel mail with
      | none => .ok (w, mail, h)
      | some (x, mail) => .ok ({ w with log := w.log ++ [.none], phase := .idle (vars ++ [x]) }, mail, h)

namespace Team

/-- A step of the thread `i`. Undefined behaviour in one thread is undefined behaviour of all. -/
def step (p : Team α) (i : Nat) : M (Team α) :=
  match p.workers[i]? with
  | none => .ok p
  | some w => do
    let r ← w.step p.mail p.heap
    .ok { workers := p.workers.set i r.1, mail := r.2.1, heap := r.2.2 }

/-- Steps of threads, in the given order. -/
def run (p : Team α) : List Nat → M (Team α)
  | [] => .ok p
  | i :: is => do
    let p ← p.step i
    p.run is

/-- The threads, when none has taken a step; there are no messages yet. -/
def start (jobs : List ((List (Answer α) → Option (Cmd α)) × List HVec)) (h : Heap α) : Team α :=
  { workers := jobs.map fun j => { plan := j.1, log := [], phase := .idle j.2 }, mail := [], heap := h }

/-- All vectors that are in variables or messages. -/
def vectors (p : Team α) : List HVec :=
  (p.workers.flatMap fun w => w.phase.vars) ++ p.mail.map Prod.snd

end Team

/-! ### The same on plain sequences -/

/-- A thread that has plain sequences in place of vectors. -/
structure Actor (α : Type) where
  plan : List (Answer α) → Option (Cmd α)
  log : List (Answer α)
  vars : List (List α)
  dead : Option Fault

structure Stage (α : Type) where
  actors : List (Actor α)
  mail : List (Nat × List α)

/-- What a call leaves of a thread, if the call may come to `q` on its sequences. -/
def Actor.after (a : Actor α) : M (Answer α × List (List α)) → Actor α
  | .ok (r, ls) => { a with log := a.log ++ [r], vars := ls }
  | .error e => { a with dead := some e }

/-- Some thread does a whole call at once, or sends or receives a sequence. -/
inductive Stage.Step : Stage α → Stage α → Prop where
  | call {s : Stage α} {i : Nat} {a : Actor α} {c : Call α} {q : M (Answer α × List (List α))} (ha : s.actors[i]? = some a)
      (hd : a.dead = none) (hp : a.plan a.log = some (.call c)) (hq : c.Means a.vars q) :
      Step s { s with actors := s.actors.set i (a.after q) }
  | send {s : Stage α} {i : Nat} {a : Actor α} {channel v : Nat} (ha : s.actors[i]? = some a) (hd : a.dead = none)
      (hp : a.plan a.log = some (.send channel v)) :
      Step s { actors := s.actors.set i { a with log := a.log ++ [.none], vars := a.vars.eraseIdx v },
               mail := s.mail ++ (a.vars[v]?.map fun l => (channel, l)).toList }
  | recv {s : Stage α} {i : Nat} {a : Actor α} {channel : Nat} {l : List α} {before later : List (Nat × List α)}
      (ha : s.actors[i]? = some a) (hd : a.dead = none) (hp : a.plan a.log = some (.recv channel))
      (hm : s.mail = before ++ (channel, l) :: later) (hf : ∀ m ∈ before, m.1 ≠ channel) :
      Step s { actors := s.actors.set i { a with log := a.log ++ [.none], vars := a.vars ++ [l] }, mail := before ++ later }

/-- The thread is where the one on sequences is: it has the same answers, and its vectors have the contents that the other one
has. In a call it is still before that call on sequences. -/
def Worker.Matches (h : Heap α) (w : Worker α) (a : Actor α) : Prop :=
  w.plan = a.plan ∧ w.log = a.log ∧
  match w.phase with
  | .idle vars => a.dead = none ∧ HHolding h vars a.vars
  | .busy _ => a.dead = none ∧ ∃ c, a.plan a.log = some (.call c)
  | .dead e => a.dead = some e

/-- So are all threads, and the messages have the same contents. -/
def Team.Matches (p : Team α) (s : Stage α) : Prop :=
  List.Forall₂ (Worker.Matches p.heap) p.workers s.actors ∧ p.mail.map Prod.fst = s.mail.map Prod.fst ∧
    HHolding p.heap (p.mail.map Prod.snd) (s.mail.map Prod.snd)

end Librrb
