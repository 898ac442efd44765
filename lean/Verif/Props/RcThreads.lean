import Verif.Proof.RcThreads
import Verif.Props.Threads

/-! # Mutable foci that are sent to other threads

The property theorems of C64. -/
namespace Librrb

/-- C64, for nodes behind `Rc`, if no thread takes a step while another one is in the middle of changing a count: then every
thread comes to the answers and contents that it may come to on sequences, as with `Arc` (C56). Without this the claim is false, see
`C64_race`. -/
theorem C64_orderly_partial {h : Heap α} {st : List HVec} (f : ForkJoin h st) {jobs : List (Job α)}
    (hj : (jobs.flatMap Job.vars).Perm st) (hf : Legal [] jobs) :
    ∃ qs, List.Forall₂ (fun (j : Job α) q => ∃ ls, HHolding h j.vars ls ∧ ProgramMeans j.prog ls q) jobs qs ∧
      ∀ schedule, (Pool.start [] jobs h).rc.Orderly schedule → ∃ p, (Pool.start [] jobs h).rc.run schedule = .ok p ∧
        List.Forall₂ (fun x q => ∀ y r, x = .ready y → y.ended = some r → EndsAs p.heap r q) p.threads qs := by
  obtain ⟨lls, qs, -, h2, h3⟩ := C56_threads f (lent := []) hj hf
  refine ⟨qs, h2.imp fun a b ⟨ls, h4, h5, _⟩ => ⟨ls, h4, h5⟩, fun schedule ho => ?_⟩
  have fresh : (Pool.start [] jobs h).rc.Fresh := by
    intro i n x hx
    simp only [Pool.rc, List.getElem?_map, Option.map_eq_some_iff] at hx
    obtain ⟨y, -, e⟩ := hx
    cases e
  obtain ⟨s, e⟩ := RcPool.run_flat schedule fresh ho
  have e0 : (Pool.start [] jobs h).rc.flat = Pool.start [] jobs h := by
    simp [Pool.rc, RcPool.flat, Function.comp_def, RcThread.flat]
  obtain ⟨p, h4, -, h5⟩ := h3 s
  rw [e0, h4] at e
  cases e1 : (Pool.start [] jobs h).rc.run schedule with
  | error f => rw [e1] at e; cases e
  | ok q =>
    rw [e1] at e
    obtain rfl : q.flat = p := Except.ok.inj e
    refine ⟨q, rfl, ?_⟩
    have h6 : List.Forall₂ (fun x q' => ∀ r, x.ended = some r → EndsAs q.heap r q' ∧ ∀ as st, r = .ok (as, st) → [] <+: st)
      (q.threads.map RcThread.flat) qs := h5
    rw [List.forall₂_map_left_iff] at h6
    refine h6.imp fun x q' hx y r ey er => ?_
    subst ey
    exact (hx r er).1

/-- A vector of 300 items and its clone. -/
def twins : List (Call Nat) := [.collect (List.range 300), .clone 0]

/-- One thread writes to the item 100 of the vector, through a mutable focus. The other one goes on with the clone: it clones it once
more, writes to the item 150, drops the second clone, and reads the item 100. -/
def twinJobs (st : List HVec) : List (Job Nat) :=
  [⟨st.take 1, [.act 0 (.editFocus [.write 100 1000])]⟩,
    ⟨st.drop 1, [.clone 0, .act 0 (.set 150 2000), .drop 1, .act 0 (.get 100)]⟩]

/-- The threads with these jobs, and counts that are not atomic, take steps. -/
def twinRun (schedule : List Nat) (start : M ((List (Answer Nat) × List HVec) × Heap Nat)) :
    M (RcPool Nat (List (Answer Nat) × List HVec)) := do
  let r ← start
  (Pool.start [] (twinJobs r.1.2) r.2).rc.run schedule

/-- The focus is made (31 steps) and used; the other thread starts when the copy of the leaf was made, and the count of the shared leaf was read. It
gets 31 steps, in which it adds an owner to this leaf. -/
def twinSchedule : List Nat := List.replicate 36 0 ++ List.replicate 31 1 ++ List.replicate 5 0 ++ List.replicate 100 1

/-- C64: the claim is false for nodes behind `Rc`. A mutable focus is made, then it is used in another thread, while this thread goes on with
a clone of the vector. A count comes to one though there are two owners, a leaf is freed that the clone has still, and reading the clone
is undefined behaviour. By C56 the same programs are fine with atomic counts, in all orders of steps. -/
theorem C64_race : ∃ as st h, runHeap twins [] Heap.empty = .ok ((as, st), h) ∧ ForkJoin h st ∧
    ((twinJobs st).flatMap Job.vars).Perm st ∧ Legal [] (twinJobs st) ∧
    (∃ schedule, (Pool.start [] (twinJobs st) h).rc.run schedule = .error .ub) ∧
    ∀ schedule, ∃ p, (Pool.start [] (twinJobs st) h).run schedule = .ok p := by
  have e0 : (runHeap twins [] Heap.empty).map (fun r => r.1.2.length) = .ok 2 := by decide +kernel
  have e2 : (twinRun twinSchedule (runHeap twins [] Heap.empty)).map (fun p => p.heap.cells.length) = .error .ub := by decide +kernel
  cases e : runHeap twins [] Heap.empty with
  | error f => rw [e] at e0; cases e0
  | ok r =>
    have f : ForkJoin r.2 r.1.2 := ForkJoin.empty.program (by simp [twins, Call.Fits]) e
    have h1 : ((twinJobs r.1.2).flatMap Job.vars).Perm r.1.2 := by
      simp only [twinJobs, List.flatMap_cons, List.flatMap_nil, List.append_nil, List.take_append_drop]
      exact .refl _
    have h2 : Legal [] (twinJobs r.1.2) := by
      simp [Legal, twinJobs, Call.Fits, Act.Fits, Call.Borrows]
    refine ⟨r.1.1, r.1.2, r.2, rfl, f, h1, h2, ⟨twinSchedule, ?_⟩, fun schedule => ?_⟩
    · rw [e] at e2
      simp only [twinRun, bind, Except.bind] at e2
      cases e3 : (Pool.start [] (twinJobs r.1.2) r.2).rc.run twinSchedule with
      | error f => rw [e3] at e2; cases e2; rfl
      | ok q => rw [e3] at e2; cases e2
    · obtain ⟨_, _, -, -, h3⟩ := C56_threads (lent := []) (jobs := twinJobs r.1.2) f h1 h2
      obtain ⟨p, h4, -⟩ := h3 schedule
      exact ⟨p, h4⟩

/-- The same jobs, with steps that do not come in the middle of others: all is well, and the clone has its item 100. -/
example : ∃ as st h, runHeap twins [] Heap.empty = .ok ((as, st), h) ∧
    (Pool.start [] (twinJobs st) h).rc.Orderly (List.replicate 7 0 ++ List.replicate 8 1 ++ List.replicate 50 0 ++ List.replicate 50 1) := by
  have e2 : (runHeap twins [] Heap.empty).map (fun r => (Pool.start [] (twinJobs r.1.2) r.2).rc.isOrderly
      (List.replicate 7 0 ++ List.replicate 8 1 ++ List.replicate 50 0 ++ List.replicate 50 1)) = .ok true := by decide +kernel
  cases e : runHeap twins [] Heap.empty with
  | error f => rw [e] at e2; cases e2
  | ok r =>
    rw [e] at e2
    exact ⟨r.1.1, r.1.2, r.2, rfl, RcPool.orderly_of (Except.ok.inj e2)⟩

example : (twinRun (List.replicate 7 0 ++ List.replicate 8 1 ++ List.replicate 50 0 ++ List.replicate 50 1) (runHeap twins [] Heap.empty)).map
      (fun p => p.threads.map fun x => x.flat.ended.map fun r => r.toOption.map Prod.fst) =
    .ok [some (some [.items [some 100]]), some (some [.none, .flag true, .none, .item (some 100)])] := by
  decide +kernel

end Librrb
