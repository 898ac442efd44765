import Verif.Proof.DropUnwind

/-! # Dropping vectors whose items panic when they are dropped

The property theorems of C63. -/
namespace Librrb

/-- C63: a program goes on after items have panicked in the drops of its vectors: all other vectors, also those that share nodes
with the dropped ones, have the contents that they have if no item panics, and so do all answers; no pointer dangles. It is aborted only if
two items have panicked. -/
theorem C63_programs (quits : γ → α → Bool × γ) (env : γ) (prog : List (DCall α)) (hf : ∀ c ∈ prog, c.plain.Fits) :
    ∃ q, ProgramMeans (prog.map DCall.plain) [] q ∧
      match runDrops quits prog [] ⟨Heap.empty, env, []⟩ with
      | .error e => q = .error e
      | .ok (some (as, st), s) => ∃ ls, q = .ok (as, ls) ∧ HHolding s.heap st ls
      | .ok (none, s) => 2 ≤ s.dropped.countP Prod.snd := by
  have r : Littered 0 (Heap.empty : Heap α) [] [] := by
    obtain ⟨vs, ⟨ps, e1, rfl, w⟩, hv⟩ := (Ready.empty : Ready (Heap.empty : Heap α) [] [])
    exact ⟨ps, e1, by rwa [add_zero], hv⟩
  obtain ⟨q, m, k⟩ := runDrops_ok quits prog (s := ⟨Heap.empty, env, []⟩) r hf
  refine ⟨q, m, ?_⟩
  cases hq : runDrops quits prog [] ⟨Heap.empty, env, []⟩ with
  | error e => rw [hq] at k; exact k
  | ok x =>
    obtain ⟨o, s⟩ := x
    rw [hq] at k
    cases o with
    | none =>
      obtain ⟨d, e, h2⟩ := k
      simp only [List.nil_append] at e
      dsimp only
      rw [e]
      exact h2
    | some o =>
      obtain ⟨ls, K, d, e, l, -⟩ := k
      exact ⟨ls, e, l.holding⟩

/-- A vector of 300 items is cloned, and one item replaced by 1000. The vector is dropped, and the item 1000 panics. The clone has its items still. It
is dropped too, and its item 10 panics. -/
example :
    let prog : List (DCall Nat) := [.call (.collect (List.range 300)), .call (.clone 0), .call (.act 0 (.set 100 1000)), .drop 0,
      .call (.act 0 (.get 100)), .drop 0]
    let r := runDrops (fun n x => (x == 1000 || x == 10, n + 1)) prog [] ⟨Heap.empty, 0, []⟩
    r.map (fun p => (p.1.map fun p => p.1, p.2.dropped.filter Prod.snd, p.2.dropped.length)) =
      .ok (some [.none, .none, .flag true, .none, .item (some 100), .none], [(1000, true), (10, true)], 157) := by
  decide +kernel

/-- An iterator takes two items, and is dropped; the item 100 panics. -/
example :
    (runDrops (fun n x => (x == 100, n + 1)) [.call (.collect (List.range 300)), .call (.clone 0), .drop 0, .intoIter 0 [.front, .back],
        .call (.collect [7]), .call (.act 0 .front)] [] ⟨Heap.empty, 0, []⟩).map (fun r => (r.1.map Prod.fst, r.2.dropped.filter Prod.snd)) =
      .ok (some [.none, .none, .none, .items [some 0, some 299], .none, .item (some 7)], [(100, true)]) := by
  decide +kernel

/-- What a program has come to. -/
theorem Littered.of_run {quits : γ → α → Bool × γ} {env : γ} {prog : List (DCall α)} (hf : ∀ c ∈ prog, c.plain.Fits)
    {as : List (Answer α)} {st : List HVec} {s : DropState γ α}
    (e : runDrops quits prog [] ⟨Heap.empty, env, []⟩ = .ok (some (as, st), s)) :
    ∃ K ls, Littered K s.heap st ls ∧ (s.dropped.countP Prod.snd = 0 → K = 0) := by
  have r : Littered 0 (Heap.empty : Heap α) [] [] := by
    obtain ⟨vs, ⟨ps, e1, rfl, w⟩, hv⟩ := (Ready.empty : Ready (Heap.empty : Heap α) [] [])
    exact ⟨ps, e1, by rwa [add_zero], hv⟩
  obtain ⟨q, -, k⟩ := runDrops_ok quits prog (s := ⟨Heap.empty, env, []⟩) r hf
  rw [e] at k
  obtain ⟨ls, K, d, -, l, e', h0⟩ := k
  simp only [List.nil_append] at e'
  exact ⟨K, ls, l, by rw [e']; exact h0⟩

/-- C63: whatever items have panicked before, the drop of a vector with the items `l` drops some of them, each at most as often as it is in
memory, and none that a vector still has: those dropped and those in memory afterwards were in memory before. If no item panics, every item that
is not in memory any more was dropped. -/
theorem C63_once {quits : γ → α → Bool × γ} {env : γ} {prog : List (DCall α)} (hf : ∀ c ∈ prog, c.plain.Fits) {as : List (Answer α)}
    {st : List HVec} {s : DropState γ α} (e : runDrops quits prog [] ⟨Heap.empty, env, []⟩ = .ok (some (as, st), s)) {i : Nat} {v : HVec}
    (hv : st[i]? = some v) :
    ∃ l r s' d, HShows s.heap v l ∧ (DCall.drop i).exec quits st s = .ok (r, s') ∧ s'.dropped = s.dropped ++ d ∧
      ((d.map Prod.fst : List α) : Multiset α) ≤ (l : Multiset α) ∧
      ((d.map Prod.fst : List α) : Multiset α) + (s'.heap.items : Multiset α) ≤ (s.heap.items : Multiset α) ∧
      d.countP Prod.snd ≤ 2 ∧ (d.countP Prod.snd = 2 ↔ r = none) ∧
      (d.countP Prod.snd = 0 → ((d.map Prod.fst : List α) : Multiset α) + (s'.heap.items : Multiset α) = (s.heap.items : Multiset α)) ∧
      (r = none ∨ r = some (.none, st.eraseIdx i)) ∧
      ∀ (j : Nat) (w : HVec) (m : List α), j ≠ i → st[j]? = some w → HShows s.heap w m → HShows s'.heap w m := by
  obtain ⟨K, ls, r, -⟩ := Littered.of_run hf e
  obtain ⟨l, hl, hs⟩ := r.holding.2 i v hv
  obtain ⟨q, s', K', l', e1, hl', ⟨F, sh⟩, r'⟩ := r.drop (quits := quits) hv
  obtain rfl : l = l' := by rw [hl] at hl'; exact Option.some.inj hl'
  obtain ⟨d, e2, e3, e4, e5, e6⟩ := sh.log
  refine ⟨l, q.map fun _ => (.none, st.eraseIdx i), s', d, hs, by simp only [DCall.exec, hv, e1, bind, Except.bind], e2, e6, e4, ?_, ?_, ?_, ?_, ?_⟩
  · rw [e3]
    rcases q with _ | _ | _ <;> simp [panics]
  · rw [e3]
    rcases q with _ | _ | _ <;> simp [panics]
  · rw [e3]
    exact e5
  · rcases q with _ | _ <;> simp
  · intro j w m hj hw hm
    obtain ⟨m', hm', hsm⟩ := r.holding.2 j w hw
    obtain rfl : m = m' := by
      refine List.ext_getElem? fun k => ?_
      have h1 := hm.2 k
      rw [hsm.2 k] at h1
      simpa using h1.symm
    have hw' : (st.eraseIdx i)[if j < i then j else j - 1]? = some w := by
      rw [List.getElem?_eraseIdx]
      by_cases h1 : j < i
      · rw [if_pos h1, if_pos h1]; exact hw
      · rw [if_neg h1, if_neg (by omega), show j - 1 + 1 = j by omega]; exact hw
    have hm2 : (ls.eraseIdx i)[if j < i then j else j - 1]? = some m := by
      rw [List.getElem?_eraseIdx]
      by_cases h1 : j < i
      · rw [if_pos h1, if_pos h1]; exact hm'
      · rw [if_neg h1, if_neg (by omega), show j - 1 + 1 = j by omega]; exact hm'
    obtain ⟨m2, e7, e8⟩ := r'.holding.2 _ w hw'
    rw [hm2] at e7
    cases e7
    exact e8

/-- C63: so it is with the part that a slice drops. `p` are the parts of the vector and `h'` is the memory when it is cut; the first of
`keeping kept p` is the new vector. -/
theorem C63_once_slices {quits : γ → α → Bool × γ} {env : γ} {prog : List (DCall α)} (hf : ∀ c ∈ prog, c.plain.Fits) {as : List (Answer α)}
    {st : List HVec} {s : DropState γ α} (e : runDrops quits prog [] ⟨Heap.empty, env, []⟩ = .ok (some (as, st), s)) {i : Nat} {v : HVec}
    (hv : st[i]? = some v) (kept : Side) (n : Nat) :
    ∃ l p h' r s' d, HShows s.heap v l ∧ (v.splitOff n).run s.heap = .ok (p, h') ∧
      (DCall.slice kept i n).exec quits st s = .ok (r, s') ∧ s'.dropped = s.dropped ++ d ∧
      ((d.map Prod.fst : List α) : Multiset α) ≤ ((match kept with | .front => l.drop n | .back => l.take n) : Multiset α) ∧
      ((d.map Prod.fst : List α) : Multiset α) + (s'.heap.items : Multiset α) ≤ (h'.items : Multiset α) ∧
      (d.countP Prod.snd = 2 ↔ r = none) ∧
      (d.countP Prod.snd = 0 → ((d.map Prod.fst : List α) : Multiset α) + (s'.heap.items : Multiset α) = (h'.items : Multiset α)) ∧
      (r = none ∨ r = some (.none, st.set i (keeping kept p).1) ∧
        HShows s'.heap (keeping kept p).1 (match kept with | .front => l.take n | .back => l.drop n)) := by
  obtain ⟨K, ls, r, -⟩ := Littered.of_run hf e
  obtain ⟨l, hl, hs⟩ := r.holding.2 i v hv
  obtain ⟨l', p, h', q, s', K', hl', e0, e1, ⟨F, sh⟩, r'⟩ := r.slice (quits := quits) hv kept n
  obtain rfl : l = l' := by rw [hl] at hl'; exact Option.some.inj hl'
  obtain ⟨d, e2, e3, e4, e5, e6⟩ := sh.log
  refine ⟨l, p, h', q.map fun _ => (.none, st.set i (keeping kept p).1), s', d, hs, e0,
    by simp only [DCall.exec, hv, e0, e1, bind, Except.bind], e2, ?_, e4, ?_, ?_, ?_⟩
  · cases kept <;> exact e6
  · rw [e3]
    rcases q with _ | _ | _ <;> simp [panics]
  · rw [e3]
    exact e5
  · rcases q with _ | q
    · exact .inl rfl
    · refine .inr ⟨rfl, ?_⟩
      obtain ⟨m, em, hm⟩ := r'.holding.2 i (keeping kept p).1 (List.getElem?_set_self (List.getElem?_eq_some_iff.1 hv).1)
      rw [List.getElem?_set_self (List.getElem?_eq_some_iff.1 hl).1] at em
      cases em
      cases kept <;> exact hm

/-- Of a vector and its clone both are cut in a leaf, which each of them copies; the items 130 and 180 panic. Both parts have what they should have. -/
example : (runDrops (fun n x => (x == 130 || x == 180, n + 1)) [.call (.collect (List.range 300)), .call (.clone 0), .slice .back 0 150,
        .slice .front 1 150, .call (.act 0 .front), .call (.act 1 .back), .call (.act 0 .len), .call (.act 1 .len)] [] ⟨Heap.empty, 0, []⟩).map
      (fun r => (r.1.map Prod.fst, r.2.dropped.length)) =
      .ok (some [.none, .none, .none, .none, .item (some 150), .item (some 149), .size 150, .size 150], 35) := by
  decide +kernel

/-- The vector of 300 items and its clone, before the clone is dropped; and a drop in which two items panic, which ends the program. -/
example : (runDrops (fun n x => (x == 1000 || x == 10, n + 1)) [.call (.collect (List.range 300)), .call (.clone 0),
        .call (.act 0 (.set 100 1000)), .drop 0] [] ⟨Heap.empty, 0, []⟩).map (fun r => (r.1.map fun p => p.2.length, r.2.dropped.length)) =
      .ok (some 1, 37) ∧
    (runDrops (fun n x => (x == 100 || x == 10, n + 1)) [.call (.collect (List.range 300)), .drop 0] [] ⟨Heap.empty, 0, []⟩).map
      (fun r => (r.1.isNone, r.2.dropped.length)) = .ok (true, 93) := by
  decide +kernel

/-- C63: as long as no item panics, memory is as without destructors that may panic: a node is in memory exactly if a variable refers to it or to a
node above it, and its count is the number of references to it. -/
theorem C63_quiet {quits : γ → α → Bool × γ} {env : γ} {prog : List (DCall α)} (hf : ∀ c ∈ prog, c.plain.Fits) {as : List (Answer α)}
    {st : List HVec} {s : DropState γ α} (e : runDrops quits prog [] ⟨Heap.empty, env, []⟩ = .ok (some (as, st), s))
    (h0 : ∀ x ∈ s.dropped, x.2 = false) (a : Addr) :
    ((∃ c, s.heap.cell a = some c) ↔ Reached s.heap st a) ∧
      ∀ c, s.heap.cell a = some c → c.count = references s.heap st a ∧ 1 ≤ c.count := by
  obtain ⟨K, ls, l, hK⟩ := Littered.of_run hf e
  rw [hK (by rw [List.countP_eq_zero]; intro x hx; rw [h0 x hx]; simp)] at l
  exact l.ready.memory a

/-- The vector and its clone again: here the item 1000 does not panic. All is freed that the clone does not share. -/
example : (runDrops (fun n x => (x == 10, n + 1)) [.call (.collect (List.range 300)), .call (.clone 0),
        .call (.act 0 (.set 100 1000)), .drop 0] [] ⟨Heap.empty, 0, []⟩).map
      (fun r => (r.1.map fun p => p.2.length, r.2.dropped.length, r.2.dropped.all fun x => !x.2, r.2.heap.items.length)) =
      .ok (some 1, 64, true, 300) := by
  decide +kernel

/-- C63: items are forgotten. All that is left of a leaf, if one of its items panics when it is dropped, is never dropped, and all other children
of the node above it stay in memory although no vector refers to them. -/
theorem C63_forgets :
    (runDrops (fun (n : Nat) (x : Nat) => (x == 0, n)) [.call (.collect [0, 1, 2]), .drop 0] [] ⟨Heap.empty, 0, []⟩).map
      (fun r => (r.2.dropped, r.2.heap.items)) = .ok ([(0, true)], []) ∧
    (runDrops (fun (n : Nat) (x : Nat) => (x == 100, n)) [.call (.collect (List.range 300)), .drop 0] [] ⟨Heap.empty, 0, []⟩).map
      (fun r => (r.2.dropped.length, r.2.heap.items.length)) = .ok (145, 128) := by
  decide +kernel

end Librrb
