import Verif.Proof.Messages

/-!
# C62: threads that send each other vectors
-/
namespace Librrb
open RVec

/-- C62. Vectors that share nodes are handed out to threads, which send each other vectors through channels. Each thread follows a
plan: what it does next depends on all answers it has got. Whatever the order of their steps, inside of calls too, the threads
get answers that they may get if they have plain sequences, send each other plain sequences, and do each call at once; and no
thread gets at a node that is freed. -/
theorem C62_messages {h : Heap α} {st : List HVec} (f : ForkJoin h st) {jobs : List ((List (Answer α) → Option (Cmd α)) × List HVec)}
    (hj : (jobs.flatMap Prod.snd).Perm st) (hf : ∀ j ∈ jobs, ∀ log c, j.1 log = some (.call c) → c.Fits) :
    ∃ s, (Team.start jobs h).Matches s ∧ ∀ schedule, ∃ p s', (Team.start jobs h).run schedule = .ok p ∧
      Relation.ReflTransGen Stage.Step s s' ∧ p.Matches s' := by
  obtain ⟨ls, r⟩ := f.ready
  obtain ⟨ts, s, k⟩ := r.crew hj hf
  refine ⟨s, k.matches, fun schedule => ?_⟩
  obtain ⟨ts', ms', p, s', e, k', g⟩ := k.run schedule
  exact ⟨p, s', e, g, k'.matches⟩

/-- C62. When a thread is about to write to a node or to free it, then no other thread is about to touch it. -/
theorem C62_no_race {h : Heap α} {st : List HVec} (f : ForkJoin h st) {jobs : List ((List (Answer α) → Option (Cmd α)) × List HVec)}
    (hj : (jobs.flatMap Prod.snd).Perm st) (hf : ∀ j ∈ jobs, ∀ log c, j.1 log = some (.call c) → c.Fits) {schedule : List Nat}
    {p : Team α} (e : (Team.start jobs h).run schedule = .ok p) {i j : Nat} (hij : i ≠ j) {v w : Worker α} (hv : p.workers[i]? = some v)
    (hw : p.workers[j]? = some w) {x y : HM α (Answer α × List HVec)} (hx : v.phase = .busy x) (hy : w.phase = .busy y) {a : Addr}
    (ha : x.writesTo p.heap = some a) : y.touches ≠ some a := by
  obtain ⟨ls, r⟩ := f.ready
  obtain ⟨ts, s, k⟩ := r.crew hj hf
  obtain ⟨ts', ms', p', s', e', k, -⟩ := k.run schedule
  rw [e] at e'
  cases e'
  rw [k.workers, List.getElem?_map] at hv hw
  obtain ⟨t, et, rfl⟩ := Option.map_eq_some_iff.1 hv
  obtain ⟨u, eu, rfl⟩ := Option.map_eq_some_iff.1 hw
  have ft := (k.fit t (List.mem_of_getElem? et)).phase
  have fu := (k.fit u (List.mem_of_getElem? eu)).phase
  rw [hx] at ft
  rw [hy] at fu
  obtain ⟨-, rfl, -⟩ := ft
  obtain ⟨-, rfl, -⟩ := fu
  have at' : ∀ {i : Nat} {t : Member α}, ts'[i]? = some t → ((ts'.map fun t => t.2.2) ++ [lettersTask ms'])[i]? = some t.2.2 := by
    intro i t et
    rw [List.getElem?_append_left (by simpa using (List.getElem?_eq_some_iff.1 et).1), List.getElem?_map, et]
    rfl
  exact k.tasks.no_race hij (at' et) (at' eu) ha

/-- C62. No call waits for another thread: if a thread is in a call and gets a step again and again, then the call comes to an
end, whatever steps the others take. -/
theorem C62_calls_end {h : Heap α} {st : List HVec} (f : ForkJoin h st) {jobs : List ((List (Answer α) → Option (Cmd α)) × List HVec)}
    (hj : (jobs.flatMap Prod.snd).Perm st) (hf : ∀ j ∈ jobs, ∀ log c, j.1 log = some (.call c) → c.Fits) {before : List Nat}
    {p : Team α} (e : (Team.start jobs h).run before = .ok p) {i : Nat} {v : Worker α} (hv : p.workers[i]? = some v)
    {x : HM α (Answer α × List HVec)} (hx : v.phase = .busy x) (schedule : Nat → Nat) (fair : ∀ n, ∃ m, n ≤ m ∧ schedule m = i) :
    ∃ n q w, p.run ((List.range n).map schedule) = .ok q ∧ q.workers[i]? = some w ∧
      ((∃ a vars, w.log = v.log ++ [a] ∧ w.phase = .idle vars) ∨ ∃ e, w.phase = .dead e) := by
  obtain ⟨ls, r⟩ := f.ready
  obtain ⟨ts, s, k⟩ := r.crew hj hf
  obtain ⟨ts', ms', p', s', e', k, -⟩ := k.run before
  rw [e] at e'
  cases e'
  rw [k.workers, List.getElem?_map] at hv
  obtain ⟨⟨⟨plan, log, phase⟩, a, c⟩, et, rfl⟩ := Option.map_eq_some_iff.1 hv
  dsimp only at hx
  subst hx
  have ft := (k.fit _ (List.mem_of_getElem? et)).phase
  dsimp only at ft
  obtain ⟨-, hc, -⟩ := ft
  subst hc
  obtain ⟨n, q, w, e1, e2, e3⟩ := Crew.comes fair (k.runs _ (List.mem_of_getElem? et)) 0 k et (.refl _ _)
  refine ⟨n, q, w, ?_, e2, e3⟩
  simpa [window] using e1

/-- C62. When all threads are between calls, and none has panicked, then a node is in memory exactly if a vector in a variable or in a
message refers to it or to a node above it, and its count is the number of references to it. -/
theorem C62_memory {h : Heap α} {st : List HVec} (f : ForkJoin h st) {jobs : List ((List (Answer α) → Option (Cmd α)) × List HVec)}
    (hj : (jobs.flatMap Prod.snd).Perm st) (hf : ∀ j ∈ jobs, ∀ log c, j.1 log = some (.call c) → c.Fits) {schedule : List Nat}
    {p : Team α} (e : (Team.start jobs h).run schedule = .ok p) (hi : ∀ w ∈ p.workers, ∃ vars, w.phase = .idle vars) (a : Addr) :
    ((∃ c, p.heap.cell a = some c) ↔ Reached p.heap p.vectors a) ∧
      ∀ c, p.heap.cell a = some c → c.count = references p.heap p.vectors a ∧ 1 ≤ c.count := by
  obtain ⟨ls, r⟩ := f.ready
  obtain ⟨ts, s, k⟩ := r.crew hj hf
  obtain ⟨ts', ms', p', s', e', k, -⟩ := k.run schedule
  rw [e] at e'
  cases e'
  obtain ⟨ls, r⟩ := k.ready hi
  exact r.memory a

/-- The first thread sends its copy of the vector away, writes to the vector, waits for an answer, and joins both. -/
def asker (log : List (Answer Nat)) : Option (Cmd Nat) :=
  [.send 1 1, .call (.act 0 (.set 100 7)), .recv 2, .call (.act 0 (.get 100)), .call (.act 1 (.get 100)), .call (.append 0 1)][log.length]?

/-- The second one waits for a vector and looks at an item; it writes there if the item is what it should be, pushes if not, and
sends the vector back. -/
def answerer (log : List (Answer Nat)) : Option (Cmd Nat) :=
  match log with
  | [] => some (.recv 1)
  | [_] => some (.call (.act 0 (.get 100)))
  | [_, .item (some 100)] => some (.call (.act 0 (.set 100 8)))
  | [_, _] => some (.call (.act 0 (.pushBack 9)))
  | [_, _, _] => some (.send 2 0)
  | _ => none

/-- What the threads do after `sharing`, which leaves a vector of 200 items and a copy. -/
def meeting (schedule : List Nat) : M (Team Nat) := do
  let r ← runHeap sharing [] Heap.empty
  (Team.start [(asker, r.1.2), (answerer, [])] r.2).run schedule

/-- The answers each thread has got and the lengths of its vectors, with no vectors for a thread in the midst of a call. -/
def report (p : Team Nat) : List (List (Answer Nat)) × List (List Nat) :=
  (p.workers.map fun w => w.log, p.workers.map fun w => match w.phase with | .idle vars => vars.map VecOf.len | _ => [])

theorem asker_fits : ∀ log c, asker log = some (.call c) → c.Fits := by
  intro log c e
  have := List.mem_of_getElem? e
  simp only [List.mem_cons, List.not_mem_nil, or_false, Cmd.call.injEq, reduceCtorEq, false_or] at this
  rcases this with rfl | rfl | rfl | rfl <;> simp [Call.Fits, Act.Fits]

theorem answerer_fits : ∀ log c, answerer log = some (.call c) → c.Fits := by
  intro log c e
  unfold answerer at e
  split at e <;> cases e <;> simp [Call.Fits, Act.Fits]

/-- The plans meet the hypotheses. -/
example : ∀ j ∈ [(asker, [(⟨[], [], 0, 0⟩ : HVec)]), (answerer, [])], ∀ log c, j.1 log = some (.call c) → c.Fits := by
  intro j hj
  simp only [List.mem_cons, List.not_mem_nil, or_false] at hj
  rcases hj with rfl | rfl
  · exact asker_fits
  · exact answerer_fits

/-- In the midst of their calls the threads look at the same node, or write to nodes of their own. -/
example : [28, 38].map (fun n => (meeting ((List.range n).map (· % 2))).map fun p =>
      p.workers.map fun w => match w.phase with | .busy x => (x.touches, x.writesTo p.heap) | _ => (none, none)) =
    [.ok [(some 0, none), (some 0, none)], .ok [(some 6, some 6), (some 7, some 7)]] := by
  decide +kernel

/-- For two orders of the steps they come to the same in the end: the writes of the one are not seen by the other. -/
example : [(List.range 400).map (· % 2), (List.range 600).map fun i => if i % 7 < 5 then 1 else 0].map (fun s => (meeting s).map report) =
    List.replicate 2 (.ok ([[.none, .flag true, .none, .item (some 7), .item (some 8), .none],
      [.none, .item (some 100), .flag true, .none]], [[400, 0], []])) := by
  decide +kernel

end Librrb
