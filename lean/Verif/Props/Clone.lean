import Verif.HeapSpec
import Verif.Proof.HeapGarbage
import Verif.Props.Safety

/-!
# Programs whose vectors share reference-counted nodes
-/
namespace Librrb
open RVec

/-- The heap holds vectors of the API that present the given sequences. -/
def Ready (h : Heap α) (st : List HVec) (ls : List (List α)) : Prop := ∃ vs, Mirrors h st vs ∧ Holding vs ls

theorem Ready.empty : Ready (Heap.empty : Heap α) [] [] := by
  refine ⟨[], ⟨[], rfl, rfl, ?_⟩, .nil⟩
  refine ⟨fun a => rfl, fun a c e => (by cases e), fun a n e => (by cases e), fun a nd hm => ?_, fun a hm => ?_⟩
  · simp at hm
  · simp at hm

theorem Ready.holding {h : Heap α} {st : List HVec} {ls : List (List α)} (r : Ready h st ls) : HHolding h st ls := by
  obtain ⟨vs, ⟨ps, rfl, rfl, w⟩, hl, hv⟩ := r
  refine ⟨by simpa using hl, fun i v e => ?_⟩
  rw [List.getElem?_map] at e
  obtain ⟨p, ep, rfl⟩ := Option.map_eq_some_iff.1 e
  obtain ⟨-, l, el, s⟩ := hv i p.nodes (by rw [List.getElem?_map, ep]; rfl)
  have hs : SameVec h p.addrs p.nodes := by
    refine w.sameVec ?_
    rw [(sum_at (f := VecOf.owned) ep).1]
    exact fun x hx => Multiset.mem_add.2 (.inl hx)
  refine ⟨l, el, s.1, fun j => ?_⟩
  obtain ⟨g, eg, rfl⟩ := (HVec.get_reads hs j).ok _ (s.2 j)
  exact eg

theorem Built.focusMut {v : RVec α} (b : Built v) : ∃ d, v.cells.focusMut = .ok d := by
  obtain ⟨k, i⟩ := b.inv
  obtain ⟨f, e, -⟩ := C32_focus_mut_any b (l := v.toList) ((shows_iff i).2 rfl) []
  exact ⟨f, e⟩

/-- The result of a call, on the heap and on sequences. -/
def SameReady (r : Except Fault ((β × List HVec) × Heap α)) (q : M (β × List (List α))) : Prop :=
  match q with
  | .error e => r = .error e
  | .ok (a, ls) => ∃ st h, r = .ok ((a, st), h) ∧ Ready h st ls

theorem Ready.call {h : Heap α} {st : List HVec} {ls : List (List α)} (r : Ready h st ls) (c : Call α) (hf : c.Fits) :
    ∃ q, c.Means ls q ∧ SameReady (c.hrun st h) q := by
  obtain ⟨vs, m, hv⟩ := r
  obtain ⟨q, hq, s⟩ := call_ok hv c hf
  have hfm : ∀ v ∈ vs, ∃ d, v.cells.focusMut = .ok d := by
    intro v hm
    obtain ⟨i, hi, rfl⟩ := List.getElem_of_mem hm
    exact (hv.2 i _ (List.getElem?_eq_getElem hi)).1.focusMut
  refine ⟨q, hq, ?_⟩
  cases q with
  | error e => exact call_fails m hfm c s fun he => (Call.means_safe hq).1 (by rw [he])
  | ok q =>
    obtain ⟨ws, e, hw⟩ := s
    obtain ⟨st', h', e', m'⟩ := call_mirrors m hfm c e
    exact ⟨st', h', e', ws, m', hw⟩

theorem Ready.program {h : Heap α} {st : List HVec} {ls : List (List α)} (r : Ready h st ls) (prog : List (Call α))
    (hf : ∀ c ∈ prog, c.Fits) : ∃ q, ProgramMeans prog ls q ∧ SameReady (runHeap prog st h) q := by
  induction prog generalizing h st ls with
  | nil => exact ⟨_, rfl, st, h, rfl, r⟩
  | cons c cs ih =>
    obtain ⟨q, m, s⟩ := r.call c (hf c (by simp))
    simp only [runHeap, hrunAll]
    cases q with
    | error e => exact ⟨.error e, ⟨_, m, rfl⟩, hm_error s⟩
    | ok q =>
      obtain ⟨st', h', er, hw⟩ := s
      obtain ⟨q', m', s'⟩ := ih hw (fun c hc => hf c (by simp [hc]))
      refine ⟨_, ⟨_, m, q', m', rfl⟩, ?_⟩
      rw [hm_bind er]
      cases q' with
      | error e => exact hm_error s'
      | ok q' =>
        obtain ⟨st2, h2, e2, r2⟩ := s'
        simp only [runHeap] at e2
        rw [hm_bind e2]
        exact ⟨st2, h2, rfl, r2⟩

/-- What holds of the variables after a program. -/
theorem Ready.of_run {prog : List (Call α)} (hf : ∀ c ∈ prog, c.Fits) {answers : List (Answer α)} {st : List HVec}
    {h : Heap α} (e : runHeap prog [] Heap.empty = .ok ((answers, st), h)) : ∃ ls, Ready h st ls := by
  obtain ⟨q, -, s⟩ := Ready.empty.program prog hf
  cases q with
  | error f => rw [SameReady, e] at s; cases s
  | ok q =>
    obtain ⟨st', h', e', r⟩ := s
    rw [e] at e'
    cases e'
    exact ⟨_, r⟩

/-! ### C28 -/

/-- A program whose vectors share nodes behind reference-counted pointers, and copy them before they write to them, has the
results that it may have on plain sequences; there, `clone` makes a copy that has nothing to do with the original. It also
fails just as on sequences: no pointer dangles. -/
theorem C28_programs (prog : List (Call α)) (hf : ∀ c ∈ prog, c.Fits) :
    ∃ q, ProgramMeans prog [] q ∧ SameOnHeap (runHeap prog [] Heap.empty) q := by
  obtain ⟨q, m, s⟩ := Ready.empty.program prog hf
  refine ⟨q, m, ?_⟩
  cases q with
  | error e => exact s
  | ok q =>
    obtain ⟨st, h, e, r⟩ := s
    exact ⟨st, h, e, r.holding⟩

/-- The program of the other machine does here what it does there; vectors share nodes on the way. -/
example : (runHeap sampleProgram [] Heap.empty).map (fun r => (r.1.1, r.1.2.length)) =
      .ok ([.none, .none, .none, .none, .none, .none, .none, .item (some 8), .size 399, .size 0, .none,
        .items [some 2, some 122], .item (some 3),
        .items [some 122, some 2], .items [some 123, some 1], .items [some 3, some 77, none],
        .items [none, some 124, some 123, none, some 55],
        .none, .none, .items [some 9, some 9, some 9, none]], 3) ∧
    (runHeap (sampleProgram.take 5) [] Heap.empty).map (fun r => r.2.cells.any fun c => (c.map fun c => decide (2 ≤ c.count)).getD false) =
      .ok true := by decide +kernel

/-- Where a variable is after a call that does not mention it. -/
theorem hrun_follow {h h' : Heap α} {st st' : List HVec} {c : Call α} {a : Answer α} (e : c.hrun st h = .ok ((a, st'), h'))
    {u u' : Nat} (hu : c.follow u = some u') {v : HVec} (hv : st[u]? = some v) : st'[u']? = some v := by
  have hlt : u < st.length := (List.getElem?_eq_some_iff.1 hv).1
  have app : ∀ x : List HVec, (st ++ x)[u]? = some v := fun x => by rw [List.getElem?_append_left hlt, hv]
  have era : ∀ (i : Nat), (if i = u then none else if i < u then some (u - 1) else some u) = some u' →
      (st.eraseIdx i)[u']? = some v := by
    intro i hi
    rw [List.getElem?_eraseIdx]
    split at hi
    · cases hi
    next h1 =>
      split at hi
      next h2 =>
        cases hi
        rw [if_neg (by omega), show u - 1 + 1 = u by omega, hv]
      next h2 =>
        cases hi
        rw [if_pos (by omega), hv]
  cases c with
  | new | singleton x | collect l | constant x n =>
    cases hu
    obtain ⟨g, h1, -, e⟩ := hm_bind_inv e
    cases e
    exact app _
  | clone i =>
    cases hu
    cases hi : st[i]? with
    | none => simp only [Call.hrun, hi] at e; cases e; exact hv
    | some x =>
      simp only [Call.hrun, hi] at e
      obtain ⟨g, h1, -, e⟩ := hm_bind_inv e
      cases e
      exact app _
  | act i b =>
    simp only [Call.follow] at hu
    split at hu
    · cases hu
    next hn =>
      cases hu
      cases hi : st[i]? with
      | none => simp only [Call.hrun, hi] at e; cases e; exact hv
      | some x =>
        simp only [Call.hrun, hi] at e
        obtain ⟨g, h1, -, e⟩ := hm_bind_inv e
        cases e
        rw [List.getElem?_append_left (by simpa using hlt), List.getElem?_set_ne hn, hv]
  | append i j =>
    simp only [Call.follow] at hu
    split at hu
    · cases hu
    next hn =>
      cases hu
      cases hi : st[i]? with
      | none => simp only [Call.hrun, hi] at e; cases e; exact hv
      | some x =>
        cases hj : st[j]? with
        | none => simp only [Call.hrun, hi, hj] at e; cases e; exact hv
        | some y =>
          simp only [Call.hrun, hi, hj] at e
          obtain ⟨g, h1, -, e⟩ := hm_bind_inv e
          obtain ⟨g, h1, -, e⟩ := hm_bind_inv e
          cases e
          rw [List.getElem?_set_ne (by omega), List.getElem?_set_ne (by omega), hv]
  | prepend i j =>
    simp only [Call.follow] at hu
    split at hu
    · cases hu
    next hn =>
      cases hu
      cases hi : st[i]? with
      | none => simp only [Call.hrun, hi] at e; cases e; exact hv
      | some x =>
        cases hj : st[j]? with
        | none => simp only [Call.hrun, hi, hj] at e; cases e; exact hv
        | some y =>
          simp only [Call.hrun, hi, hj] at e
          obtain ⟨g, h1, -, e⟩ := hm_bind_inv e
          obtain ⟨g, h1, -, e⟩ := hm_bind_inv e
          cases e
          rw [List.getElem?_set_ne (by omega), List.getElem?_set_ne (by omega), hv]
  | compare cmp i j =>
    cases hu
    cases hi : st[i]? with
    | none => simp only [Call.hrun, hi] at e; cases e; exact hv
    | some x =>
      cases hj : st[j]? with
      | none => simp only [Call.hrun, hi, hj] at e; cases e; exact hv
      | some y =>
        simp only [Call.hrun, hi, hj] at e
        obtain ⟨g, h1, -, e⟩ := hm_bind_inv e
        cases e
        exact hv
  | drop i =>
    have er := era i hu
    cases hi : st[i]? with
    | none =>
      simp only [Call.hrun, hi] at e
      cases e
      rwa [List.eraseIdx_of_length_le (by simpa using hi)] at er
    | some x =>
      simp only [Call.hrun, hi] at e
      obtain ⟨g, h1, -, e⟩ := hm_bind_inv e
      cases e
      exact er
  | intoIter i script =>
    have er := era i hu
    cases hi : st[i]? with
    | none =>
      simp only [Call.hrun, hi] at e
      cases e
      rwa [List.eraseIdx_of_length_le (by simpa using hi)] at er
    | some x =>
      simp only [Call.hrun, hi] at e
      obtain ⟨g, h1, -, e⟩ := hm_bind_inv e
      obtain ⟨g, h1, -, e⟩ := hm_bind_inv e
      cases e
      exact er
  | dualSort cmp t d sb eb i j =>
    simp only [Call.follow] at hu
    split at hu
    · cases hu
    next hn =>
      cases hu
      by_cases hij : i = j
      · simp only [Call.hrun, hij, if_true] at e; cases e; exact hv
      cases hi : st[i]? with
      | none => simp only [Call.hrun, if_neg hij, hi] at e; cases e; exact hv
      | some x =>
        cases hj : st[j]? with
        | none => simp only [Call.hrun, if_neg hij, hi, hj] at e; cases e; exact hv
        | some y =>
          simp only [Call.hrun, if_neg hij, hi, hj] at e
          obtain ⟨g, h1, -, e⟩ := hm_bind_inv e
          cases e
          rw [List.getElem?_set_ne (by omega), List.getElem?_set_ne (by omega), hv]

/-- What a variable holds after a call that does not mention it. -/
theorem means_follow {ls ls' : List (List α)} {c : Call α} {a : Answer α} (e : c.Means ls (.ok (a, ls')))
    {u u' : Nat} (hu : c.follow u = some u') {l : List α} (hl : ls[u]? = some l) : ls'[u']? = some l := by
  have hlt : u < ls.length := (List.getElem?_eq_some_iff.1 hl).1
  have app : ∀ x : List (List α), (ls ++ x)[u]? = some l := fun x => by rw [List.getElem?_append_left hlt, hl]
  have fit : ∀ {x : List α} {γ : Type} {r r' : γ}, Except.ok r = fitting x r' → r = r' := by
    intro x γ r r' h
    unfold fitting at h
    split at h
    · cases h; rfl
    · cases h
  have era : ∀ (i : Nat), (if i = u then none else if i < u then some (u - 1) else some u) = some u' →
      (ls.eraseIdx i)[u']? = some l := by
    intro i hi
    rw [List.getElem?_eraseIdx]
    split at hi
    · cases hi
    next h1 =>
      split at hi
      next h2 =>
        cases hi
        rw [if_neg (by omega), show u - 1 + 1 = u by omega, hl]
      next h2 =>
        cases hi
        rw [if_pos (by omega), hl]
  cases c with
  | new | singleton x | clone x =>
    cases hu
    cases e
    exact app _
  | collect x =>
    cases hu
    cases fit e
    exact app _
  | constant x n =>
    cases hu
    simp only [Call.Means] at e
    split at e
    · cases e; exact app _
    · cases e
  | act i b =>
    simp only [Call.follow] at hu
    split at hu
    · cases hu
    next hi =>
      cases hu
      simp only [Call.Means] at e
      split at e
      · cases e; exact hl
      · obtain ⟨q, -, e⟩ := e
        obtain ⟨q, -, e⟩ := RVec.bind_ok e.symm
        cases e
        rw [List.getElem?_append_left (by simpa using hlt), List.getElem?_set_ne hi, hl]
  | append i j =>
    simp only [Call.follow] at hu
    split at hu
    · cases hu
    next hi =>
      cases hu
      simp only [Call.Means] at e
      split at e
      · cases fit e
        rw [List.getElem?_set_ne (by omega), List.getElem?_set_ne (by omega), hl]
      · cases e; exact hl
  | prepend i j =>
    simp only [Call.follow] at hu
    split at hu
    · cases hu
    next hi =>
      cases hu
      simp only [Call.Means] at e
      split at e
      · cases fit e
        rw [List.getElem?_set_ne (by omega), List.getElem?_set_ne (by omega), hl]
      · cases e; exact hl
  | compare cmp i j =>
    cases hu
    simp only [Call.Means] at e
    split at e
    · cases e; exact hl
    · cases e; exact hl
  | drop i =>
    cases e
    exact era i hu
  | intoIter i script =>
    simp only [Call.Means] at e
    split at e
    next hi =>
      cases e
      have := era i hu
      rwa [List.eraseIdx_of_length_le (by simpa using hi)] at this
    · cases e
      exact era i hu
  | dualSort cmp t d sb eb i j =>
    simp only [Call.follow] at hu
    split at hu
    · cases hu
    next hi =>
      cases hu
      simp only [Call.Means] at e
      split at e
      · cases e; exact hl
      · split at e
        · obtain ⟨z, -, e⟩ := e
          obtain ⟨q, -, e⟩ := RVec.bind_ok e.symm
          split at e
          · cases e
            rw [List.getElem?_set_ne (by omega), List.getElem?_set_ne (by omega), hl]
          · cases e
        · cases e; exact hl

/-- The same for a program, with what is read of the variable. -/
theorem Ready.follow {h h' : Heap α} {st st' : List HVec} {ls : List (List α)} (r : Ready h st ls) {prog : List (Call α)}
    (hf : ∀ c ∈ prog, c.Fits) {as : List (Answer α)} (e : runHeap prog st h = .ok ((as, st'), h')) {u u' : Nat}
    (hu : followAll u prog = some u') {v : HVec} {l : List α} (hv : st[u]? = some v) (hl : ls[u]? = some l) :
    ∃ ls', Ready h' st' ls' ∧ st'[u']? = some v ∧ ls'[u']? = some l := by
  induction prog generalizing h st ls u as with
  | nil => cases e; cases hu; exact ⟨ls, r, hv, hl⟩
  | cons c cs ih =>
    simp only [runHeap, hrunAll] at e
    obtain ⟨g, h1, e1, e⟩ := hm_bind_inv e
    obtain ⟨g', h2, e2, e⟩ := hm_bind_inv e
    cases e
    simp only [followAll] at hu
    split at hu
    · cases hu
    next u1 hu1 =>
      obtain ⟨q, m, s⟩ := r.call c (hf c (by simp))
      cases q with
      | error f => rw [SameReady, e1] at s; cases s
      | ok q =>
        obtain ⟨st1, h1', e1', r1⟩ := s
        rw [e1] at e1'
        cases e1'
        exact ih r1 (fun c hc => hf c (by simp [hc])) e2 hu (hrun_follow e1 hu1 hv) (means_follow m hu1 hl)

/-- In a state that a program leaves, let any further program run that does not mention a variable. The variable refers to
the same nodes as before, and reads as before. -/
theorem C28_untouched {before after : List (Call α)} (hb : ∀ c ∈ before, c.Fits) (ha : ∀ c ∈ after, c.Fits)
    {as as' : List (Answer α)} {st st' : List HVec} {h h' : Heap α}
    (e : runHeap before [] Heap.empty = .ok ((as, st), h)) (e' : runHeap after st h = .ok ((as', st'), h'))
    {u u' : Nat} (hu : followAll u after = some u') {v : HVec} (hv : st[u]? = some v) :
    st'[u']? = some v ∧ ∃ l, HShows h v l ∧ HShows h' v l := by
  obtain ⟨ls, r⟩ := Ready.of_run hb e
  obtain ⟨l, hl, s⟩ := r.holding.2 u v hv
  obtain ⟨ls', r', k, k'⟩ := r.follow ha e' hu hv hl
  obtain ⟨l', hl', s'⟩ := r'.holding.2 u' v k
  rw [k'] at hl'
  cases hl'
  exact ⟨k, l, s, s'⟩

/-- A vector and its copy: each node of either is one of the other. -/
def sharing : List (Call Nat) := [.collect (List.range 200), .clone 0]

/-- A program that writes to the original through a cursor, cuts it, joins it again, and ends it. -/
def havoc : List (Call Nat) :=
  [.act 0 (.editFocus [.write 5 999]), .act 0 (.shareFocus [.split 0 70, .use 1 (.write 0 1)]),
    .act 0 (.splitOff 100), .append 0 2, .act 2 (.insert 0 5), .drop 0]

/-- The copy is the variable 0 in the end, and has its nodes for itself. -/
example : (∀ c ∈ sharing, c.Fits) ∧ (∀ c ∈ havoc, c.Fits) ∧ followAll 1 havoc = some 0 ∧
    (runHeap sharing [] Heap.empty).map (fun r => (r.1.2.map VecOf.entries, r.2.cells.map (·.map RcBox.count))) =
      .ok ([[2, 4, 1], [2, 4, 1]], [some 1, some 2, some 2, some 1, some 2]) ∧
    (runHeap sharing [] Heap.empty >>= fun r => runHeap havoc r.1.2 r.2).map
        (fun r => (r.1.2.map VecOf.entries, (r.2.cells.map (·.map RcBox.count)).take 5)) =
      .ok ([[2, 4, 1], [13]], [some 1, some 1, some 1, some 1, some 1]) :=
  ⟨by simp [sharing, Call.Fits], by simp [havoc, Call.Fits, Act.Fits], by decide, by decide +kernel, by decide +kernel⟩

/-- To copy entries changes nothing but counts. -/
theorem cloneEntries_inv : ∀ {as : List Addr} {h h' : Heap α}, cloneEntries as h = .ok ((), h') →
    h'.cells.length = h.cells.length ∧ ∀ a, h'.node a = h.node a
  | [], h, h', e => by cases e; exact ⟨rfl, fun a => rfl⟩
  | b :: as, h, h', e => by
    simp only [cloneEntries] at e
    obtain ⟨⟨⟩, h1, e1, e⟩ := hm_bind_inv e
    obtain ⟨k1, k2⟩ := cloneEntries_inv e
    obtain ⟨c, hc, rfl⟩ := cloneEntry_inv e1
    refine ⟨k1.trans (by simp [Heap.put]), fun a => (k2 a).trans ?_⟩
    unfold Heap.node
    rw [Heap.cell_put (Heap.cell_lt hc)]
    split
    next h => subst h; rw [hc]; rfl
    · rfl

/-- `clone` makes no node and writes to none: the copy refers to the nodes of the original. Both read alike then, and each
goes on to read so, whatever is done to the other one, and to all others. -/
theorem C28_clone {before : List (Call α)} (hb : ∀ c ∈ before, c.Fits) {as : List (Answer α)} {st : List HVec} {h : Heap α}
    (e : runHeap before [] Heap.empty = .ok ((as, st), h)) {i : Nat} {v : HVec} (hv : st[i]? = some v) :
    ∃ h1 l, (Call.clone i).hrun st h = .ok ((.none, st ++ [v]), h1) ∧ h1.cells.length = h.cells.length ∧
      (∀ a, (h1.cell a).map RcBox.node = (h.cell a).map RcBox.node) ∧ HShows h v l ∧ HShows h1 v l ∧
      ∀ after : List (Call α), (∀ c ∈ after, c.Fits) → ∀ as' st' h', runHeap after (st ++ [v]) h1 = .ok ((as', st'), h') →
        (∀ u, followAll i after = some u → st'[u]? = some v ∧ HShows h' v l) ∧
        ∀ u, followAll st.length after = some u → st'[u]? = some v ∧ HShows h' v l := by
  obtain ⟨ls, r⟩ := Ready.of_run hb e
  obtain ⟨l, hl, s⟩ := r.holding.2 i v hv
  obtain ⟨q, m, k⟩ := r.call (.clone i) trivial
  cases m
  obtain ⟨st1, h1, e1, r1⟩ := k
  have e2 := e1
  simp only [Call.hrun, hv] at e2
  obtain ⟨w, h2, e3, e2⟩ := hm_bind_inv e2
  simp only [HVec.clone] at e3
  obtain ⟨⟨⟩, h3, e4, e3⟩ := hm_bind_inv e3
  cases e3
  cases e2
  obtain ⟨c1, c2⟩ := cloneEntries_inv e4
  have hi1 := List.getElem?_append_left (l₂ := [v]) (List.getElem?_eq_some_iff.1 hv).1
  have hl1 := List.getElem?_append_left (l₂ := (ls[i]?).toList) (List.getElem?_eq_some_iff.1 hl).1
  refine ⟨h1, l, e1, c1, c2, s, ?_, fun after hf as' st' h' e' => ⟨fun u hu => ?_, fun u hu => ?_⟩⟩
  · obtain ⟨l', hl', s'⟩ := r1.holding.2 i v (hi1.trans hv)
    rw [hl1, hl] at hl'
    cases hl'
    exact s'
  · obtain ⟨ls', r', k, k'⟩ := r1.follow hf e' hu (hi1.trans hv) (hl1.trans hl)
    obtain ⟨l', hl', s'⟩ := r'.holding.2 u v k
    rw [k'] at hl'
    cases hl'
    exact ⟨k, s'⟩
  · have hlen := r.holding.1
    obtain ⟨ls', r', k, k'⟩ := r1.follow hf e' hu (v := v) (l := l) (by simp) (by rw [hlen, hl]; simp)
    obtain ⟨l', hl', s'⟩ := r'.holding.2 u v k
    rw [k'] at hl'
    cases hl'
    exact ⟨k, s'⟩

/-! ### C48 -/

theorem refs_sum (ps : List (VecOf (Addr × Node α))) (a : Addr) :
    Ctx.refs (ps.map VecOf.owned).sum a = ((ps.map VecOf.addrs).flatMap VecOf.entries).count a := by
  induction ps with
  | nil => simp [Ctx.refs]
  | cons p ps ih =>
    rw [List.map_cons, List.map_cons, List.sum_cons, refs_add, ih, List.flatMap_cons, List.count_append, ← VecOf.own_entries,
      refs_own, VecOf.entries_addrs]

theorem Ready.memory {h : Heap α} {st : List HVec} {ls : List (List α)} (r : Ready h st ls) (a : Addr) :
    ((∃ c, h.cell a = some c) ↔ Reached h st a) ∧ ∀ c, h.cell a = some c → c.count = references h st a ∧ 1 ≤ c.count := by
  obtain ⟨vs, ⟨ps, rfl, rfl, w⟩, -⟩ := r
  refine ⟨⟨?_, ?_⟩, fun c hc => ⟨?_, w.pos a c hc⟩⟩
  · rintro ⟨c, hc⟩
    refine w.no_garbage (R := Reached h (ps.map VecOf.addrs)) ?_ ?_ hc
    · intro b hb
      rw [refs_sum] at hb
      obtain ⟨v, h1, h2⟩ := List.mem_flatMap.1 (List.one_le_count_iff.1 hb)
      exact .entry h1 h2
    · intro b n k hb hn hk
      obtain ⟨c, hc, rfl⟩ := Heap.exists_cell hn
      exact .child hb hc hk
  · intro hr
    cases hr with
    | entry hv hm =>
      refine w.cell_of_refs ?_
      rw [refs_sum]
      exact List.one_le_count_iff.2 (List.mem_flatMap.2 ⟨_, hv, hm⟩)
    | child hb hc hk => exact w.kid_live (Heap.node_of_cell hc) hk
  · rw [← Heap.count_of_cell hc, w.counts, refs_sum, references, List.count_flatMap (l := h.cells)]
    rfl

/-- Whatever program ran: a node is in memory exactly if a variable refers to it or to a node above it, and its count is the
number of references to it, those inside of nodes included. -/
theorem C48_memory {prog : List (Call α)} (hf : ∀ c ∈ prog, c.Fits) {as : List (Answer α)} {st : List HVec} {h : Heap α}
    (e : runHeap prog [] Heap.empty = .ok ((as, st), h)) (a : Addr) :
    ((∃ c, h.cell a = some c) ↔ Reached h st a) ∧ ∀ c, h.cell a = some c → c.count = references h st a ∧ 1 ≤ c.count := by
  obtain ⟨ls, r⟩ := Ready.of_run hf e
  exact r.memory a

/-- When all variables have ended, all nodes are freed. -/
theorem C48_freed {prog : List (Call α)} (hf : ∀ c ∈ prog, c.Fits) {as : List (Answer α)} {h : Heap α}
    (e : runHeap prog [] Heap.empty = .ok ((as, []), h)) (a : Addr) : h.cell a = none := by
  cases hc : h.cell a with
  | none => rfl
  | some c =>
    have : ∀ {b}, Reached h [] b → False := by
      intro b hb
      induction hb with
      | entry hv => cases hv
      | child _ _ _ ih => exact ih
    exact (this (((C48_memory hf e a).1).1 ⟨c, hc⟩)).elim

/-- Nodes are shared and freed on the way; in the end there is none. -/
example : (∀ c ∈ sharing ++ havoc ++ [.drop 0, .drop 0], c.Fits) ∧
    (runHeap (sharing ++ havoc ++ [.drop 0, .drop 0]) [] Heap.empty).map
        (fun r => (r.1.2.length, r.2.cells.length, r.2.cells.all Option.isNone)) = .ok (0, 14, true) :=
  ⟨by simp [sharing, havoc, Call.Fits, Act.Fits], by decide +kernel⟩

end Librrb
