import Verif.Props.Sort
import Verif.Proof.SortUnwind

/-! # Sorting with a comparator that panics, or that changes its mind

The property theorems of C52. The comparator of `sort_range_by` and `dual_sort_range_by` is a closure: it may
carry a state, answer differently when it is asked again, and panic. When it panics, the sort unwinds in the
middle of its work, and whoever catches the panic still has the vector. -/
namespace Librrb
open RVec

/-- What `sort_range_by` keeps, whatever the comparator does. -/
theorem sortRange_kept {v : RVec α} {l : List α} (b : Built v) (h : Shows v l) (cmp : Callback γ α) (state : γ)
    (sb eb : Bound) (h1 : sb.first ≤ eb.afterLast l.length) (h2 : eb.afterLast l.length ≤ l.length)
    (next : ρ → Nat × ρ) (rng : ρ) (budget : Nat) :
    let r := v.sortRangeByLeaving cmp sb eb next budget rng state
    (r.1 = .ok () ∨ r.1 = .error .panic ∨ r.1 = .error .diverge) ∧
    KeepsWithin cmp state v.cells.toList sb.first (eb.afterLast l.length) l
      (USortFocus.questions budget (eb.afterLast l.length - sb.first)) r.2 := by
  have hlt := b.length_lt h
  obtain ⟨f, e, w⟩ := window_ok b h h1 h2
  have hc := b.cells_length h
  have k : Leaves (fun _ s' => KeepsWithin cmp state v.cells.toList sb.first (eb.afterLast l.length) l
        (USortFocus.questions budget (eb.afterLast l.length - sb.first)) s')
      (KeepsWithin cmp state v.cells.toList sb.first (eb.afterLast l.length) l
        (USortFocus.questions budget (eb.afterLast l.length - sb.first)))
      (v.sortRangeByU cmp sb eb next budget rng) (v, state) := by
    refine .lift (rangeStart_first (sb := sb) (by omega)) (.lift (rangeEnd_afterLast (n := v.len) (by rw [h.1]; omega)) ?_)
    rw [h.1]
    refine .lift e ?_
    refine (USortFocus.sort_leaves (single_steady cmp state v.cells.toList sb.first (eb.afterLast l.length) l) next budget _
      (n := 0) ⟨l, ⟨b, h, rfl⟩, .refl _ _ _, .nil⟩ (by omega) ⟨w, Nat.le_refl _, Nat.le_refl _, by rw [hc]; exact h2⟩).bind ?_
    intro _ s' hs'
    rw [Nat.zero_add] at hs'
    exact .pure hs'
  exact k.both rfl

/-- C52: whatever the comparator does and wherever it panics, `sort_range_by` on a valid range returns, or panics,
or does not end, and at that moment the vector shows what it showed, with the positions of the range
rearranged: no item is lost, none is there twice, and none has left the range. -/
theorem C52_sort_range_left {v : RVec α} {l : List α} (b : Built v) (h : Shows v l) (cmp : Callback γ α) (state : γ)
    (sb eb : Bound) (h1 : sb.first ≤ eb.afterLast l.length) (h2 : eb.afterLast l.length ≤ l.length)
    (next : ρ → Nat × ρ) (rng : ρ) (budget : Nat) :
    ∃ (out : M Unit) (v' : RVec α) (state' : γ) (m : List α),
      v.sortRangeByLeaving cmp sb eb next budget rng state = (out, v', state') ∧
      (out = .ok () ∨ out = .error .panic ∨ out = .error .diverge) ∧ Built v' ∧
      Shows v' (l.take sb.first ++ m ++ l.drop (eb.afterLast l.length)) ∧
      m.Perm ((l.take (eb.afterLast l.length)).drop sb.first) := by
  obtain ⟨k, L, hR, hw, -⟩ := sortRange_kept b h cmp state sb eb h1 h2 next rng budget
  exact ⟨_, _, _, _, rfl, k, hR.built, by rw [← hw.around h1]; exact hR.shows', hw.slice_perm h1 h2⟩

/-- A comparator that counts how often it was asked, and panics when it is asked for the `k`-th time. -/
def countdown (k : Nat) : Callback Nat Nat := fun n x y => if n = k then (none, n) else (some (compare x y), n + 1)

/-- The seventh question is not answered: the vector is left half sorted, with all of its items. The thirteenth is
not asked, and the vector is sorted. -/
example : ∃ (v v' v'' : RVec Nat), Built v ∧ Shows v [5, 4, 3, 2, 1, 0] ∧
    v.sortRangeByLeaving (countdown 7) (.included 1) .unbounded (fun s : Nat => (s, s * 5 + 3)) 0 1 0 = (.error .panic, v', 7) ∧
    Built v' ∧ Shows v' [5, 0, 4, 2, 3, 1] ∧
    v.sortRangeByLeaving (countdown 20) (.included 1) .unbounded (fun s : Nat => (s, s * 5 + 3)) 0 1 0 = (.ok (), v'', 13) ∧
    Built v'' ∧ Shows v'' [5, 0, 1, 2, 3, 4] := by
  have k : ∀ (c n : Nat) (out : M Unit) (r : List Nat), ((fromIter [5, 4, 3, 2, 1, 0]).bind fun v => .ok (
      (match (v.sortRangeByLeaving (countdown c) (.included 1) .unbounded (fun s : Nat => (s, s * 5 + 3)) 0 1 0).1, out with
        | .ok _, .ok _ => true
        | .error .panic, .error .panic => true
        | _, _ => false),
      (v.sortRangeByLeaving (countdown c) (.included 1) .unbounded (fun s : Nat => (s, s * 5 + 3)) 0 1 0).2.1.toList,
      (v.sortRangeByLeaving (countdown c) (.included 1) .unbounded (fun s : Nat => (s, s * 5 + 3)) 0 1 0).2.2)) =
      (.ok (true, r, n) : M (Bool × List Nat × Nat)) →
      ∀ v, fromIter [5, 4, 3, 2, 1, 0] = .ok v → Built v → Shows v [5, 4, 3, 2, 1, 0] → ∃ v',
      v.sortRangeByLeaving (countdown c) (.included 1) .unbounded (fun s : Nat => (s, s * 5 + 3)) 0 1 0 = (out, v', n) ∧
      Built v' ∧ Shows v' r := by
    intro c n out r h v e b s
    rw [e] at h
    obtain ⟨o, v', n', m, e', -, b', s', -⟩ := C52_sort_range_left b s (countdown c) 0 (.included 1) .unbounded (by decide)
      (by decide) (fun s : Nat => (s, s * 5 + 3)) 1 0
    have h := Except.ok.inj h
    rw [e'] at h
    obtain ⟨k, iv⟩ := b'.inv
    simp only [Prod.mk.injEq] at h
    refine ⟨v', ?_, b', (shows_iff iv).2 h.2.1⟩
    rw [e', h.2.2]
    have h1 := h.1
    split at h1
    · rfl
    · rfl
    · cases h1
  obtain ⟨v, e, b, s⟩ := exists_built [5, 4, 3, 2, 1, 0] (by decide)
  obtain ⟨v', e1, b1, s1⟩ := k 7 7 (.error .panic) [5, 0, 4, 2, 3, 1] (by decide +kernel) v e b s
  obtain ⟨v'', e2, b2, s2⟩ := k 20 13 (.ok ()) [5, 0, 1, 2, 3, 4] (by decide +kernel) v e b s
  exact ⟨v, v', v'', b, s, e1, b1, s1, e2, b2, s2⟩

/-- C52: when the range is refused, the comparator is not asked and the vector is as it was. -/
theorem C52_sort_range_refused {v : RVec α} {l : List α} (b : Built v) (h : Shows v l) (cmp : Callback γ α) (state : γ)
    (sb eb : Bound) (hs : sb.first < USIZE_LIMIT) (he : eb.afterLast l.length < USIZE_LIMIT)
    (h1 : eb.afterLast l.length < sb.first ∨ l.length < eb.afterLast l.length) (next : ρ → Nat × ρ) (rng : ρ)
    (budget : Nat) :
    v.sortRangeByLeaving cmp sb eb next budget rng state = (.error .panic, v, state) := by
  have e := rangeEnd_afterLast (eb := eb) (n := v.len) (by rw [h.1]; exact he)
  rw [h.1] at e
  rw [sortRangeByLeaving, sortRangeByU, rangeStart_first hs, h.1, e]
  have := window_panic b h h1
  show (show M Unit × RVec α × γ from ((liftM (v.window _ _) : U (RVec α × γ) _) >>= _) (v, state)) = _
  rw [this]
  rfl

/-- A range that ends before it starts, with a comparator that would panic at once. -/
example : ∃ v : RVec Nat, Built v ∧ Shows v (List.range 300) ∧
    v.sortRangeByLeaving (countdown 0) (.included 9) (.excluded 3) (fun s : Nat => (s, s)) 0 1 0 = (.error .panic, v, 0) := by
  obtain ⟨v, -, b, s⟩ := exists_built (List.range 300) (by rw [List.length_range]; decide)
  exact ⟨v, b, s, C52_sort_range_refused b s (countdown 0) 0 (.included 9) (.excluded 3) (show 9 < USIZE_LIMIT by decide)
    (show 3 < USIZE_LIMIT by decide) (.inl (show 3 < 9 by decide)) _ _ _⟩

/-- C52: when the comparator answers like a consistent order, whatever it does with its state, the sort returns and
the range is ordered. -/
theorem C52_sort_range_state {v : RVec α} {l : List α} (b : Built v) (h : Shows v l) (cb : Callback γ α) (state : γ)
    (cmp : α → α → Ordering) [Std.TransCmp cmp] (hc : ∀ g x y, (cb g x y).1 = some (cmp x y))
    (sb eb : Bound) (h1 : sb.first ≤ eb.afterLast l.length) (h2 : eb.afterLast l.length ≤ l.length)
    (next : ρ → Nat × ρ) (rng : ρ) (budget : Nat) :
    ∃ (v' : RVec α) (state' : γ) (m : List α), v.sortRangeByLeaving cb sb eb next budget rng state = (.ok (), v', state') ∧
      Built v' ∧ Shows v' (l.take sb.first ++ m ++ l.drop (eb.afterLast l.length)) ∧
      m.Perm ((l.take (eb.afterLast l.length)).drop sb.first) ∧ m.Pairwise (fun x y => cmp x y ≠ .gt) := by
  obtain ⟨v', m, e, b', s', p, q⟩ := C36_sort_range b h cmp sb eb h1 h2 next rng
  obtain ⟨_, w, g', e', rfl⟩ := (sortRangeBy_follows hc v sb eb next budget rng).of v' e state
  exact ⟨w, g', m, e', b', s', p, q⟩

/-- A comparator that counts, and does not panic. -/
example : ∃ (v v' : RVec Nat) (n : Nat), Built v ∧ Shows v (List.range 5000).reverse ∧
    v.sortRangeByLeaving (fun n x y => (some (compare x y), n + 1)) .unbounded .unbounded (fun s : Nat => (s, s * 5 + 3)) 0 1 0 =
      (.ok (), v', n) ∧ Shows v' (List.range 5000) := by
  obtain ⟨v, -, b, s⟩ := exists_built (List.range 5000).reverse (by rw [List.length_reverse, List.length_range]; decide)
  have k {l : List Nat} (s : Shows v l) := C52_sort_range_state b s (fun n x y => (some (compare x y), n + 1)) 0 compare
    (fun _ _ _ => rfl) .unbounded .unbounded (Nat.zero_le _) (Nat.le_refl _) (fun s : Nat => (s, s * 5 + 3)) 1 0
  obtain ⟨v', n, m, e, -, s', p, q⟩ := k s
  simp only [Bound.first, Bound.afterLast, List.take_zero, List.nil_append, List.drop_length, List.append_nil,
    List.take_length, List.drop_zero] at s' p
  refine ⟨v, v', n, b, s, e, ?_⟩
  rw [← (p.trans (List.reverse_perm _)).eq_of_pairwise (le := fun x y => x ≤ y) (fun _ _ _ _ => Nat.le_antisymm)
    (q.imp fun h => by rw [Nat.compare_ne_gt] at h; exact h) (List.pairwise_lt_range.imp Nat.le_of_lt)]
  exact s'

/-- What `dual_sort_range_by` keeps, whatever the comparator does. -/
theorem dualSortRange_kept {v : RVec α} {w : RVec β} {l : List α} {m : List β} (b : Built v) (h : Shows v l)
    (b' : Built w) (h' : Shows w m) (cmp : Callback γ α) (state : γ) (sb eb : Bound) {hi : Nat} (hhi : eb.afterLast l.length = hi)
    (h1 : sb.first ≤ hi) (h2 : hi ≤ l.length) (h3 : hi ≤ m.length) (next : ρ → Nat × ρ) (rng : ρ) (budget : Nat) :
    let r := v.dualSortRangeByLeaving w cmp sb eb next budget rng state
    (r.1 = .ok () ∨ r.1 = .error .panic ∨ r.1 = .error .diverge) ∧
    PairKeepsWithin cmp state v.cells.toList w.cells.toList hi sb.first hi (l.drop hi) (m.drop hi)
      ((l.take hi).zip (m.take hi)) (USortFocus.questions budget (hi - sb.first)) r.2 := by
  have hlt := b.length_lt h
  have er := rangeEnd_afterLast (eb := eb) (n := v.len) (by rw [h.1]; omega)
  rw [h.1, hhi] at er
  obtain ⟨f, e, vw⟩ := window_ok b h h1 h2
  obtain ⟨g, e', vw'⟩ := window_ok b' h' h1 h3
  have z : PairHolds v.cells.toList w.cells.toList hi (l.drop hi) (m.drop hi) (v, w) ((l.take hi).zip (m.take hi)) := by
    refine ⟨⟨b, ?_, rfl⟩, ⟨b', ?_, rfl⟩, by simp; omega⟩
    · rw [List.map_fst_zip (by simp; omega), List.take_append_drop]; exact h
    · rw [List.map_snd_zip (by simp; omega), List.take_append_drop]; exact h'
  have k : Leaves (fun _ s' => PairKeepsWithin cmp state v.cells.toList w.cells.toList hi sb.first hi (l.drop hi) (m.drop hi)
        ((l.take hi).zip (m.take hi)) (USortFocus.questions budget (hi - sb.first)) s')
      (PairKeepsWithin cmp state v.cells.toList w.cells.toList hi sb.first hi (l.drop hi) (m.drop hi)
        ((l.take hi).zip (m.take hi)) (USortFocus.questions budget (hi - sb.first)))
      (v.dualSortRangeByU w cmp sb eb next budget rng) ((v, w), state) := by
    refine .lift (rangeStart_first (sb := sb) (by omega)) ?_
    rw [h.1]
    refine .lift er (.lift e (.lift e' ?_))
    refine (USortFocus.sort_leaves (dual_steady cmp state v.cells.toList w.cells.toList hi sb.first hi (l.drop hi) (m.drop hi)
      ((l.take hi).zip (m.take hi))) next budget _ (n := 0)
      ⟨_, z, .refl _ _ _, .nil⟩ (by omega) ⟨⟨vw, vw', Nat.le_refl _⟩, Nat.le_refl _, Nat.le_refl _, Nat.le_refl _⟩).bind ?_
    intro _ s' hs'
    rw [Nat.zero_add] at hs'
    exact .pure hs'
  exact k.both rfl

/-- C52 for `dual_sort_range_by`: wherever the comparator panics, both vectors have been rearranged in the same
way. An item of the first is never left without the item of the second that was at its position. -/
theorem C52_dual_sort_range_left {v : RVec α} {w : RVec β} {l : List α} {m : List β} (b : Built v) (h : Shows v l)
    (b' : Built w) (h' : Shows w m) (cmp : Callback γ α) (state : γ) (sb eb : Bound)
    (h1 : sb.first ≤ eb.afterLast l.length) (h2 : eb.afterLast l.length ≤ l.length)
    (h3 : eb.afterLast l.length ≤ m.length) (next : ρ → Nat × ρ) (rng : ρ) (budget : Nat) :
    ∃ (out : M Unit) (v' : RVec α) (w' : RVec β) (state' : γ) (L : List (α × β)),
      v.dualSortRangeByLeaving w cmp sb eb next budget rng state = (out, (v', w'), state') ∧
      (out = .ok () ∨ out = .error .panic ∨ out = .error .diverge) ∧ Built v' ∧ Built w' ∧
      Shows v' (l.take sb.first ++ L.map Prod.fst ++ l.drop (eb.afterLast l.length)) ∧
      Shows w' (m.take sb.first ++ L.map Prod.snd ++ m.drop (eb.afterLast l.length)) ∧
      L.Perm (((l.take (eb.afterLast l.length)).drop sb.first).zip ((m.take (eb.afterLast l.length)).drop sb.first)) := by
  obtain ⟨k, L, hR, w0, -⟩ := dualSortRange_kept b h b' h' cmp state sb eb rfl h1 h2 h3 next rng budget
  generalize eb.afterLast l.length = hi at *
  have sv := hR.fst.shows'
  have sw := hR.snd.shows'
  have hz : ((l.take hi).zip (m.take hi)).length = hi := by simp; omega
  have ar := w0.around h1
  rw [List.drop_of_length_le (by omega), List.append_nil] at ar
  refine ⟨_, _, _, _, slice L sb.first hi, rfl, k, hR.fst.built, hR.snd.built, ?_, ?_, ?_⟩
  · rw [ar, List.map_append, List.map_take, List.map_fst_zip (by simp; omega), List.take_take, Nat.min_eq_left h1] at sv
    exact sv
  · rw [ar, List.map_append, List.map_take, List.map_snd_zip (by simp; omega), List.take_take, Nat.min_eq_left h1] at sw
    exact sw
  · have pz := w0.slice_perm h1 (by omega)
    rwa [slice.eq_def ((l.take hi).zip (m.take hi)), List.take_of_length_le (l := (l.take hi).zip (m.take hi))
      (Nat.le_of_eq hz), List.zip, List.drop_zipWith] at pz

/-- Both vectors after the comparator has panicked: `0` still goes with `0`, `1` with `10`, and so on. -/
example : ∃ (v w v' w' : RVec Nat), Built v ∧ Built w ∧ Shows v [5, 4, 3, 2, 1, 0] ∧ Shows w [50, 40, 30, 20, 10, 0, 7] ∧
    v.dualSortRangeByLeaving w (countdown 7) (.included 1) .unbounded (fun s : Nat => (s, s * 5 + 3)) 0 1 0 =
      (.error .panic, (v', w'), 7) ∧
    Built v' ∧ Built w' ∧ Shows v' [5, 0, 4, 2, 3, 1] ∧ Shows w' [50, 0, 40, 20, 30, 10, 7] := by
  obtain ⟨v, e, b, s⟩ := exists_built [5, 4, 3, 2, 1, 0] (by decide)
  obtain ⟨w, e2, b2, s2⟩ := exists_built [50, 40, 30, 20, 10, 0, 7] (by decide)
  obtain ⟨o, v', w', n', L, e', -, b', b2', -⟩ := C52_dual_sort_range_left b s b2 s2 (countdown 7) 0 (.included 1) .unbounded
    (by decide) (by decide) (by decide) (fun s : Nat => (s, s * 5 + 3)) 1 0
  have h : ((fromIter [5, 4, 3, 2, 1, 0]).bind fun v => (fromIter [50, 40, 30, 20, 10, 0, 7]).bind fun w => .ok (
      (match (v.dualSortRangeByLeaving w (countdown 7) (.included 1) .unbounded (fun s : Nat => (s, s * 5 + 3)) 0 1 0).1 with
        | .error .panic => true
        | _ => false),
      (v.dualSortRangeByLeaving w (countdown 7) (.included 1) .unbounded (fun s : Nat => (s, s * 5 + 3)) 0 1 0).2.1.1.toList,
      (v.dualSortRangeByLeaving w (countdown 7) (.included 1) .unbounded (fun s : Nat => (s, s * 5 + 3)) 0 1 0).2.1.2.toList,
      (v.dualSortRangeByLeaving w (countdown 7) (.included 1) .unbounded (fun s : Nat => (s, s * 5 + 3)) 0 1 0).2.2)) =
      (.ok (true, [5, 0, 4, 2, 3, 1], [50, 0, 40, 20, 30, 10, 7], 7) : M (Bool × List Nat × List Nat × Nat)) := by
    decide +kernel
  rw [e] at h
  simp only [Except.bind] at h
  rw [e2] at h
  have h := Except.ok.inj h
  rw [e'] at h
  obtain ⟨k, iv⟩ := b'.inv
  obtain ⟨k2, iv2⟩ := b2'.inv
  simp only [Prod.mk.injEq] at h
  refine ⟨v, w, v', w', b, b2, s, s2, ?_, b', b2', (shows_iff iv).2 h.2.1, (shows_iff iv2).2 h.2.2.1⟩
  rw [e', h.2.2.2]
  have h1 := h.1
  split at h1
  · rfl
  · cases h1

/-- C52 for `dual_sort_range_by` with a comparator that answers like a consistent order. -/
theorem C52_dual_sort_range_state {v : RVec α} {w : RVec β} {l : List α} {m : List β} (b : Built v) (h : Shows v l)
    (b' : Built w) (h' : Shows w m) (cb : Callback γ α) (state : γ) (cmp : α → α → Ordering) [Std.TransCmp cmp]
    (hc : ∀ g x y, (cb g x y).1 = some (cmp x y)) (sb eb : Bound)
    (h1 : sb.first ≤ eb.afterLast l.length) (h2 : eb.afterLast l.length ≤ l.length)
    (h3 : eb.afterLast l.length ≤ m.length) (next : ρ → Nat × ρ) (rng : ρ) (budget : Nat) :
    ∃ (v' : RVec α) (w' : RVec β) (state' : γ) (L : List (α × β)),
      v.dualSortRangeByLeaving w cb sb eb next budget rng state = (.ok (), (v', w'), state') ∧ Built v' ∧ Built w' ∧
      Shows v' (l.take sb.first ++ L.map Prod.fst ++ l.drop (eb.afterLast l.length)) ∧
      Shows w' (m.take sb.first ++ L.map Prod.snd ++ m.drop (eb.afterLast l.length)) ∧
      L.Perm (((l.take (eb.afterLast l.length)).drop sb.first).zip ((m.take (eb.afterLast l.length)).drop sb.first)) ∧
      L.Pairwise (fun x y => cmp x.1 y.1 ≠ .gt) := by
  obtain ⟨v', w', L, e, r⟩ := C37_dual_sort_range b h b' h' cmp sb eb h1 h2 h3 next rng
  obtain ⟨_, _, g', e', rfl⟩ := (dualSortRangeBy_follows hc v w sb eb next budget rng).of _ e state
  exact ⟨v', w', g', L, e', r⟩

example : ∃ (v w v' w' : RVec Nat) (n : Nat), Built v ∧ Built w ∧ Shows v [2, 1, 0] ∧ Shows w [20, 10, 0, 7] ∧
    v.dualSortRangeByLeaving w (fun n x y => (some (compare x y), n + 1)) .unbounded .unbounded (fun s : Nat => (s, s)) 0 1 0 =
      (.ok (), (v', w'), n) ∧ Shows v' [0, 1, 2] := by
  obtain ⟨v, -, b, s⟩ := exists_built [2, 1, 0] (by decide)
  obtain ⟨w, -, b2, s2⟩ := exists_built [20, 10, 0, 7] (by decide)
  obtain ⟨v', w', n, L, e, -, -, sv, -, p, q⟩ := C52_dual_sort_range_state b s b2 s2 (fun n x y => (some (compare x y), n + 1)) 0
    compare (fun _ _ _ => rfl) .unbounded .unbounded (by decide) (by decide) (by decide) (fun s : Nat => (s, s)) 1 0
  refine ⟨v, w, v', w', n, b, b2, s, s2, e, ?_⟩
  have p1 := p.map Prod.fst
  have q1 : (L.map Prod.fst).Pairwise (fun x y => x ≤ y) := by
    rw [List.pairwise_map]
    exact q.imp fun h => by rw [Nat.compare_ne_gt] at h; exact h
  have : L.map Prod.fst = [0, 1, 2] := (p1.trans (show List.Perm _ [0, 1, 2] by decide)).eq_of_pairwise (le := fun x y => x ≤ y)
    (fun _ _ _ _ => Nat.le_antisymm) q1 (by decide)
  rw [this] at sv
  exact sv

end Librrb
