import Verif.Proof.Reads

/-!
# Calls that leave everything as it is
-/
namespace Librrb
open RVec

variable {α : Type}

/-- C65. After any program, a call that only looks at vectors – their length, items, both ends, iterators, foci, comparisons – ends,
and leaves all vectors and all of the memory exactly as they were: no node is made, written or freed, and no count changes. -/
theorem C65_reads {prog : List (Call α)} (hf : ∀ c ∈ prog, c.Fits) {answers : List (Answer α)} {st : List HVec} {h : Heap α}
    (e : runHeap prog [] Heap.empty = .ok ((answers, st), h)) (c : Call α) (hl : c.Looks) (hc : c.Fits) :
    ∃ a, c.hrun st h = .ok ((a, st), h) := by
  obtain ⟨ls, r⟩ := Ready.of_run hf e
  obtain ⟨q, m, s⟩ := r.call c hc
  obtain ⟨a, ls', rfl⟩ : ∃ a ls', q = .ok (a, ls') := by
    cases c <;> simp only [Call.Looks] at hl
    case act i x =>
      simp only [Call.Means] at m
      split at m
      · exact ⟨_, _, m⟩
      · obtain ⟨p, hp, rfl⟩ := m
        cases x <;> simp only [Call.Looks] at hl <;> simp only [Act.Means] at hp <;> subst hp <;> exact ⟨_, _, rfl⟩
    case compare cmp i j =>
      simp only [Call.Means] at m
      split at m <;> exact ⟨_, _, m⟩
  obtain ⟨st', h', e', -⟩ := s
  suffices st' = st ∧ h' = h by
    obtain ⟨rfl, rfl⟩ := this
    exact ⟨a, e'⟩
  cases c <;> simp only [Call.Looks] at hl
  case act i x =>
    cases hi : st[i]? with
    | none =>
      simp only [Call.hrun, hi] at e'
      cases e'
      exact ⟨rfl, rfl⟩
    | some v =>
      simp only [Call.hrun, hi] at e'
      obtain ⟨p, h1, e1, e2⟩ := hm_bind_inv e'
      obtain ⟨rfl, hp⟩ := act_looks (i := i) (by cases x <;> exact hl) e1
      cases e2
      rw [hp]
      exact ⟨by rw [set_self hi, List.append_nil], rfl⟩
  case compare cmp i j =>
    simp only [Call.hrun] at e'
    split at e'
    · obtain ⟨rfl, x, hx⟩ := still_end (HVec.cmpVec_still cmp _ _) e'
      cases hx
      exact ⟨rfl, rfl⟩
    · cases e'
      exact ⟨rfl, rfl⟩

/-- Five kinds of looking at two hundred items that two vectors share. -/
example : (∀ c ∈ ([.act 0 (.get 150), .act 1 .back, .act 0 (.iterate [.front, .back]), .act 1 (.focusRead [3, 190]), .compare compare 0 1] :
      List (Call Nat)), c.Looks ∧ c.Fits) ∧
    (((runHeap [.collect (List.range 200), .clone 0] [] (Heap.empty : Heap Nat)).bind fun r =>
      .ok (r.1.2.length, r.2.cells.length)) = (.ok (2, 5) : M (Nat × Nat))) := by
  refine ⟨?_, by decide +kernel⟩
  simp [Call.Looks, Call.Fits, Act.Fits]

/-- C65 (partial). Nor does a call change anything that has nothing to write to or to take: an assignment through `get_mut` and
`remove` beyond the end, and popping from an empty vector. Missing: `front_mut` and `back_mut` of an empty vector, see
`C65_front_mut_copies`. -/
theorem C65_refused_partial {prog : List (Call α)} (hf : ∀ c ∈ prog, c.Fits) {answers : List (Answer α)} {st : List HVec} {h : Heap α}
    (e : runHeap prog [] Heap.empty = .ok ((answers, st), h)) {i : Nat} {v : HVec} (hv : st[i]? = some v) {l : List α}
    (hl : HShows h v l) :
    (∀ k x, l.length ≤ k → (Call.act i (.set k x)).hrun st h = .ok ((.flag false, st), h)) ∧
    (∀ k, l.length ≤ k → (Call.act i (.remove k)).hrun st h = .ok ((.item none, st), h)) ∧
    (l = [] → (Call.act i .popBack).hrun st h = .ok ((.item none, st), h) ∧
      (Call.act i .popFront).hrun st h = .ok ((.item none, st), h)) := by
  obtain ⟨ls, r⟩ := Ready.of_run hf e
  obtain ⟨l', hl', s⟩ := r.holding.2 i v hv
  have same : l' = l := by
    refine List.ext_getElem? fun j => ?_
    have := (s.2 j).symm.trans (hl.2 j)
    injection this with this
    exact (Prod.mk.inj this).1
  subst same
  refine ⟨fun k x hk => ?_, fun k hk => ?_, fun h0 => ?_⟩
  · obtain ⟨q, m, t⟩ := r.call (.act i (.set k x)) trivial
    simp only [Call.Means, hl'] at m
    obtain ⟨p, hp, rfl⟩ := m
    simp only [Act.Means] at hp
    subst hp
    obtain ⟨st', h', e', -⟩ := t
    rw [decide_eq_false (by omega)] at e'
    have e0 := e'
    simp only [Call.hrun, hv] at e'
    obtain ⟨p, h1, e1, e2⟩ := hm_bind_inv e'
    obtain ⟨⟨b, w⟩, h2, e3, e4⟩ := hm_bind_inv e1
    cases e4
    injection e2 with e2
    simp only [Prod.mk.injEq, Answer.flag.injEq] at e2
    obtain ⟨⟨hb, hst⟩, hh⟩ := e2
    obtain ⟨hw, hh2⟩ := set_none e3 hb
    rw [e0, ← hst, ← hh, hh2, show w = v from hw, set_self hv, List.append_nil]
  · have hlen : ¬ k < v.len := by rw [s.1]; omega
    simp only [Call.hrun, hv, Act.hrun, HVec.remove, if_neg hlen]
    show Except.ok ((_, _), h) = _
    rw [set_self hv, List.append_nil]
  · have one : ∀ (sd : Side) (c : Act α), c = (match sd with | .front => .popFront | .back => .popBack) →
        (Call.act i c).hrun st h = .ok ((.item none, st), h) := by
      intro sd c hc
      have hrun : ∀ w : HVec, c.hrun w = (w.popSide sd >>= fun r => pure (.item r.1, r.2, [])) := by
        intro w
        subst hc
        cases sd <;> rfl
      obtain ⟨q, m, t⟩ := r.call (.act i c) (by subst hc; cases sd <;> trivial)
      simp only [Call.Means, hl'] at m
      obtain ⟨p, hp, rfl⟩ := m
      have : p = .ok (.item none, [], []) := by
        subst hc h0
        cases sd <;> exact hp
      subst this
      obtain ⟨st', h', e', -⟩ := t
      have e0 := e'
      simp only [Call.hrun, hv, hrun] at e'
      obtain ⟨p, h1, e1, e2⟩ := hm_bind_inv e'
      obtain ⟨⟨b, w⟩, h2, e3, e4⟩ := hm_bind_inv e1
      cases e4
      injection e2 with e2
      simp only [Prod.mk.injEq, Answer.item.injEq] at e2
      obtain ⟨⟨hb, hst⟩, hh⟩ := e2
      obtain ⟨hw, hh2⟩ := pop_none e3 hb
      rw [e0, ← hst, ← hh, hh2, show w = v from hw, set_self hv, List.append_nil]
    exact ⟨one .back _ rfl, one .front _ rfl⟩

/-- A hundred items that two vectors share, and an empty vector with a clone: the counts stay as they are. -/
example : ((runHeap [.collect (List.range 100), .clone 0, .new, .clone 2] [] (Heap.empty : Heap Nat)).bind fun r =>
      .ok (r.2.cells.map fun c => c.map RcBox.count,
        [Call.act 0 (.set 100 7), .act 1 (.remove 100), .act 2 .popBack, .act 3 .popFront].map fun c =>
          (c.hrun r.1.2 r.2).toOption.map fun q => q.2.cells.map fun c => c.map RcBox.count)) =
    (.ok ([some 2, some 2, some 2, some 2], List.replicate 4 (some [some 2, some 2, some 2, some 2])) :
      M (List (Option Nat) × List (Option (List (Option Nat))))) := by
  decide +kernel

/-- C65. A clone that is dropped leaves no trace: all vectors and all of the memory are exactly as they were before it was made. -/
theorem C65_clone_drop {prog : List (Call α)} (hf : ∀ c ∈ prog, c.Fits) {answers : List (Answer α)} {st : List HVec} {h : Heap α}
    (e : runHeap prog [] Heap.empty = .ok ((answers, st), h)) (i : Nat) :
    runHeap [.clone i, .drop st.length] st h = .ok (([.none, .none], st), h) := by
  obtain ⟨ls, vs, ⟨ps, rfl, rfl, w⟩, -⟩ := Ready.of_run hf e
  suffices ∃ st' h', (Call.clone i).hrun (ps.map VecOf.addrs) h = .ok ((.none, st'), h') ∧
      (Call.drop (ps.map VecOf.addrs).length).hrun st' h' = .ok ((.none, ps.map VecOf.addrs), h) by
    obtain ⟨st', h', e1, e2⟩ := this
    simp only [runHeap, hrunAll]
    rw [hm_bind e1, hm_bind (show _ = Except.ok (([Answer.none], ps.map VecOf.addrs), h) from by rw [hm_bind e2]; rfl)]
    rfl
  cases hi : (ps.map VecOf.addrs)[i]? with
  | none =>
    have hn : (ps.map VecOf.addrs)[(ps.map VecOf.addrs).length]? = none := by simp
    exact ⟨_, _, by simp only [Call.hrun, hi]; rfl, by simp only [Call.hrun, hn]; rfl⟩
  | some v =>
    have hp := hi
    rw [List.getElem?_map] at hp
    obtain ⟨p, ep, rfl⟩ := Option.map_eq_some_iff.1 hp
    obtain ⟨h', e1, e2⟩ := clone_drop (h := h) p.addrs.entries (by
      intro a ha
      rw [VecOf.entries_addrs] at ha
      obtain ⟨⟨b, nd⟩, hq, rfl⟩ := List.mem_map.1 ha
      have hm : (b, some nd) ∈ (ps.map VecOf.owned).sum := by
        rw [(sum_at (f := VecOf.owned) ep).1, ← VecOf.own_entries]
        exact Multiset.mem_add.2 (.inl (mem_own.2 hq))
      obtain ⟨P, eP, -, -⟩ := (w.mem b nd hm).inv
      obtain ⟨c, ec, -⟩ := Heap.exists_cell eP
      exact ⟨c, ec, w.pos _ _ ec⟩)
    have hn : (ps.map VecOf.addrs ++ [p.addrs])[(ps.map VecOf.addrs).length]? = some p.addrs := by simp
    refine ⟨ps.map VecOf.addrs ++ [p.addrs], h', ?_, ?_⟩
    · simp only [Call.hrun, hi, HVec.clone]
      rw [hm_bind (show _ = Except.ok (p.addrs, h') from by rw [hm_bind e1]; rfl)]
      rfl
    · simp only [Call.hrun, hn, HVec.drop]
      rw [hm_bind e2, List.eraseIdx_append_of_length_le (Nat.le_refl _)]
      simp
      rfl

/-- The clone of a vector of three hundred items, that shares some of its nodes with another one. -/
example : ((runHeap [.collect (List.range 300), .clone 0, .act 1 (.pushBack 7)] [] (Heap.empty : Heap Nat)).bind fun r =>
      (runHeap [.clone 0] r.1.2 r.2).bind fun q => (runHeap [.drop 2] q.1.2 q.2).bind fun d =>
        .ok ([r.2, q.2, d.2].map fun h => h.cells.map fun c => c.map RcBox.count)) =
    (.ok [[some 1, some 2, some 2, some 1, some 1, some 1, some 1], [some 1, some 3, some 3, some 1, some 1, some 2, some 1],
      [some 1, some 2, some 2, some 1, some 1, some 1, some 1]] : M (List (List (Option Nat)))) := by
  decide +kernel

/-- C65. A slice that is the whole vector leaves all vectors and nodes as they were: one node is made and freed again. -/
theorem C65_whole_slices {prog : List (Call α)} (hf : ∀ c ∈ prog, c.Fits) {answers : List (Answer α)} {st : List HVec} {h : Heap α}
    (e : runHeap prog [] Heap.empty = .ok ((answers, st), h)) {i : Nat} {v : HVec} (hv : st[i]? = some v) {l : List α}
    (hl : HShows h v l) :
    (∀ k, l.length ≤ k → k ≠ 0 →
      (Call.act i (.sliceFromStart k)).hrun st h = .ok ((.none, st), { cells := h.cells ++ [none] })) ∧
    (Call.act i (.sliceToEnd 0)).hrun st h = .ok ((.none, st), { cells := h.cells ++ [none] }) := by
  obtain ⟨w, h', e1, e2⟩ := new_drop h
  refine ⟨fun k hk h0 => ?_, ?_⟩
  · have hlen : v.len = l.length := hl.1
    have es : HVec.splitOff v k h = .ok ((v, w), h') := by
      unfold HVec.splitOff
      rw [if_neg (by simpa using h0), if_pos (by omega), hm_bind e1]
      rfl
    have er : HVec.sliceFromStart v k h = .ok (v, { cells := h.cells ++ [none] }) := by
      unfold HVec.sliceFromStart
      rw [hm_bind es, hm_bind e2]
      rfl
    simp only [Call.hrun, hv, Act.hrun]
    rw [hm_bind (show _ = Except.ok ((Answer.none, v, []), _) from by rw [hm_bind er]; rfl)]
    show Except.ok ((_, _), _) = _
    rw [set_self hv, List.append_nil]
  · have es : HVec.splitOff v 0 h = .ok ((w, v), h') := by
      unfold HVec.splitOff
      rw [if_pos (by rfl), hm_bind e1]
      rfl
    have er : HVec.sliceToEnd v 0 h = .ok (v, { cells := h.cells ++ [none] }) := by
      unfold HVec.sliceToEnd
      rw [hm_bind es, hm_bind e2]
      rfl
    simp only [Call.hrun, hv, Act.hrun]
    rw [hm_bind (show _ = Except.ok ((Answer.none, v, []), _) from by rw [hm_bind er]; rfl)]
    show Except.ok ((_, _), _) = _
    rw [set_self hv, List.append_nil]

/-- A hundred items that two vectors share. -/
example : ((runHeap [.collect (List.range 100), .clone 0] [] (Heap.empty : Heap Nat)).bind fun r =>
      .ok ([Call.act 0 (.sliceFromStart 100), .act 1 (.sliceToEnd 0)].map fun c =>
          (c.hrun r.1.2 r.2).toOption.map fun q => q.2.cells.map fun c => c.map RcBox.count)) =
    (.ok (List.replicate 2 (some [some 2, some 2, some 2, none])) : M (List (Option (List (Option Nat))))) := by
  decide +kernel

/-- C65 is false for `front_mut` and `back_mut`: after any program, of an empty vector with a clone they return `None`, but copy its
leaf. -/
theorem C65_front_mut_copies {prog : List (Call α)} (hf : ∀ c ∈ prog, c.Fits) {answers : List (Answer α)} {st st1 : List HVec}
    {h h1 : Heap α} (e : runHeap prog [] Heap.empty = .ok ((answers, st), h)) {i : Nat} {v : HVec} (hv : st[i]? = some v)
    (hl : HShows h v []) {b : Answer α} (e1 : (Call.clone i).hrun st h = .ok ((b, st1), h1)) (s : Side) (x : α) :
    ∃ st2 h2, (Call.act i (.setEnd s x)).hrun st1 h1 = .ok ((.flag false, st2), h2) ∧ h1.cells.length < h2.cells.length := by
  obtain ⟨ls, r⟩ := Ready.of_run hf e
  obtain ⟨ls1, r1, hl1, hv1, two⟩ := r.cloned hv hl e1
  obtain ⟨c, ec1, h2c⟩ := two _ (leafNode_mem v s)
  obtain ⟨q, m, t⟩ := r1.call (.act i (.setEnd s x)) trivial
  simp only [Call.Means, hl1] at m
  obtain ⟨p, hp, rfl⟩ := m
  have hp : p = .ok (.flag false, [], []) := by cases s <;> exact hp.trans (by simp)
  subst hp
  obtain ⟨st2, h2, e2, -⟩ := t
  refine ⟨st2, h2, e2, ?_⟩
  simp only [Call.hrun, hv1] at e2
  obtain ⟨y, h3, e3, e4⟩ := hm_bind_inv e2
  obtain ⟨z, h4, e5, e6⟩ := hm_bind_inv e3
  unfold HVec.setFrontBack borrow at e5
  obtain ⟨a, h5, e7, e8⟩ := hm_bind_inv e5
  obtain ⟨d, h6, e9, e10⟩ := hm_bind_inv e7
  have g1 := loadMut_copies ec1 h2c e9
  have g2 := HM.grows _ e10
  have g3 := HM.grows _ e8
  have g4 := HM.grows _ e6
  have g5 := HM.grows _ e4
  omega

/-- A new vector and its clone. -/
example (x : Nat) : ∀ s : Side, ∃ (st st' : List HVec) (h h' : Heap Nat),
    runHeap [.new, .clone 0] [] Heap.empty = .ok (([.none, .none], st), h) ∧
    (Call.act 0 (.setEnd s x)).hrun st h = .ok ((.flag false, st'), h') ∧ h.cells.length = 1 ∧ h'.cells.length = 2 ∧
    st.map (fun v => v.root) = [0, 0] ∧ st'.map (fun v => v.root) = [1, 0] := by
  intro s
  cases s <;> exact ⟨_, _, _, _, rfl, rfl, rfl, rfl, rfl, rfl⟩

/-- Nor is it true of a mutable focus that is not used: after any program, that of every vector that has items and a clone copies
nodes. -/
theorem C65_focus_copies {prog : List (Call α)} (hf : ∀ c ∈ prog, c.Fits) {answers : List (Answer α)} {st st1 : List HVec}
    {h h1 : Heap α} (e : runHeap prog [] Heap.empty = .ok ((answers, st), h)) {i : Nat} {v : HVec} (hv : st[i]? = some v)
    {l : List α} (hl : HShows h v l) (hn : l ≠ []) {b : Answer α} (e1 : (Call.clone i).hrun st h = .ok ((b, st1), h1)) :
    ∃ a st2 h2, (Call.act i (.editFocus [])).hrun st1 h1 = .ok ((a, st2), h2) ∧ h1.cells.length < h2.cells.length := by
  obtain ⟨ls, r⟩ := Ready.of_run hf e
  obtain ⟨ls1, r1, hl1, hv1, two⟩ := r.cloned hv hl e1
  obtain ⟨x, t, rfl⟩ := List.exists_cons_of_ne_nil hn
  obtain ⟨c, ec1, h2c⟩ := two _ (leafNode_mem v .front)
  -- the first leaf
  have ne : Entry.isEmpty (v.leafNode .front) h1 = .ok (false, h1) := by
    obtain ⟨q, m, t2⟩ := r1.call (.act i .front) trivial
    simp only [Call.Means, hl1] at m
    obtain ⟨p, hp, rfl⟩ := m
    simp only [Act.Means] at hp
    subst hp
    obtain ⟨st4, h4, e6, -⟩ := t2
    simp only [Call.hrun, hv1] at e6
    obtain ⟨y, h5, e7, e8⟩ := hm_bind_inv e6
    obtain ⟨o, h6, e9, e10⟩ := hm_bind_inv e7
    cases e10
    injection e8 with e8
    simp only [Prod.mk.injEq, Answer.item.injEq, List.head?_cons] at e8
    obtain ⟨⟨rfl, -⟩, -⟩ := e8
    exact nonempty_of_front e9
  -- the focus
  obtain ⟨q, m, t3⟩ := r1.call (.act i (.editFocus [])) (by simp [Call.Fits, Act.Fits])
  simp only [Call.Means, hl1] at m
  obtain ⟨p, hp, rfl⟩ := m
  simp only [Act.Means] at hp
  rcases hp with rfl | ⟨-, o, ho, -⟩
  · obtain ⟨st4, h4, e6, -⟩ := t3
    refine ⟨_, st4, h4, e6, ?_⟩
    simp only [Call.hrun, hv1] at e6
    obtain ⟨y, h5, e7, e8⟩ := hm_bind_inv e6
    obtain ⟨o, h6, e9, e10⟩ := hm_bind_inv e7
    exact Nat.lt_of_lt_of_le (focusMut_copies ec1 h2c ne e9) (Nat.le_trans (HM.grows _ e10) (HM.grows _ e8))
  · cases ho

/-- Two hundred items with a clone: a mutable focus that is not used, an `iter_mut` that is not asked, and reversing an empty range
make three nodes each. -/
example : ((runHeap [.collect (List.range 200), .clone 0] [] (Heap.empty : Heap Nat)).bind fun r =>
      .ok ([Call.act 0 (.editFocus []), .act 0 (.mapEnds id []), .act 0 (.reverseRange (.included 3) (.excluded 3))].map fun c =>
        (c.hrun r.1.2 r.2).toOption.map fun q => (r.2.cells.length, q.2.cells.length))) =
    (.ok (List.replicate 3 (some (5, 8))) : M (List (Option (Nat × Nat)))) := by
  decide +kernel

end Librrb
