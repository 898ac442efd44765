import Verif.Props.Vector
import Verif.Proof.Focus

/-!
# Properties of the iterators and of shared foci
-/
namespace Librrb
open RVec

/-! ### C23 -/

/-- C23: `iter` yields the sequence. Under every interleaving of `next` and `next_back` the answers
are those of taking the items off the two ends of the sequence, with `None` when nothing is left;
`size_hint` is then exactly what is left. -/
theorem C23_iter {v : RVec α} {l : List α} (b : Built v) (h : Shows v l) (script : List Side) :
    ∃ it it', VIter.new v = .ok it ∧ it.sizeHint = .ok l.length ∧
      runScript VIter.step script it = .ok ((drain script l).1, it') ∧
      it'.sizeHint = .ok (drain script l).2.length := by
  obtain ⟨k, i⟩ := b.inv
  obtain rfl := (shows_iff i).1 h
  obtain ⟨it, e, hi⟩ := VIter.new_ok i
  have hint : ∀ (it : VIter α) m, VIter.Has v it m → it.sizeHint = .ok m.length := by
    rintro it m ⟨h1, h2, rfl, -⟩
    rw [VIter.sizeHint, usub_ok h1]
    simp
    omega
  obtain ⟨it', e', hi'⟩ := runScript_ok (VIter.Has v) (VIter.step_ok i) script hi
  exact ⟨it, it', e, hint _ _ hi, e', hint _ _ hi'⟩

/-- What `drain` says for the plain script: as many `next` calls as there are items give the items
in order. -/
theorem drain_front (l : List α) (n : Nat) :
    drain (List.replicate (l.length + n) .front) l = (l.map some ++ List.replicate n none, []) := by
  induction l with
  | nil => induction n with
    | zero => rfl
    | succ n ih =>
      simp only [List.length_nil, Nat.zero_add, List.map_nil, List.nil_append] at ih
      simp [List.replicate_succ, drain, takeEnd, ih]
  | cons x l ih =>
    rw [List.length_cons, show l.length + 1 + n = l.length + n + 1 by omega, List.replicate_succ]
    simp [drain, takeEnd, ih]

/-- And backwards. -/
theorem drain_back (l : List α) (n : Nat) :
    drain (List.replicate (l.length + n) .back) l = (l.reverse.map some ++ List.replicate n none, []) := by
  generalize hk : l.length = k
  induction k generalizing l with
  | zero =>
    obtain rfl := List.length_eq_zero_iff.1 hk
    induction n with
    | zero => rfl
    | succ n ih =>
      simp only [Nat.zero_add, List.reverse_nil, List.map_nil, List.nil_append] at ih
      simp [List.replicate_succ, drain, takeEnd, ih]
  | succ k ih =>
    obtain ⟨m, x, rfl⟩ : ∃ m x, l = m ++ [x] :=
      ⟨_, _, (List.dropLast_append_getLast (by rintro rfl; simp at hk)).symm⟩
    simp only [List.length_append, List.length_singleton, Nat.add_right_cancel_iff] at hk
    rw [show k + 1 + n = k + n + 1 by omega, List.replicate_succ]
    simp [drain, takeEnd, ih m hk]

example : ∃ v it it', Built v ∧ VIter.new v = .ok it ∧
    runScript VIter.step [.front, .back, .back, .front] it = .ok ([some 0, some 4999, some 4998, some 1], it') ∧
    it'.sizeHint = .ok 4996 := by
  obtain ⟨v, b, s⟩ := sample
  obtain ⟨it, it', e, -, e', e''⟩ := C23_iter b s [.front, .back, .back, .front]
  refine ⟨v, it, it', b, e, ?_, ?_⟩
  · rw [e']; simp [drain, takeEnd, List.getLast?_eq_getElem?, List.head?_eq_getElem?]
  · rw [e'']; simp [drain, takeEnd]

/-! ### C25 -/

/-- C25: `into_iter` moves every item out once, under every interleaving of `next` and `next_back`,
and `len` (which is its `size_hint`) is exact. -/
theorem C25_into_iter {v : RVec α} {l : List α} (b : Built v) (h : Shows v l) (script : List Side) :
    ∃ v', runScript RVec.intoIterStep script v = .ok ((drain script l).1, v') ∧
      Shows v' (drain script l).2 ∧ v'.len = (drain script l).2.length := by
  obtain ⟨k, i⟩ := b.inv
  obtain rfl := (shows_iff i).1 h
  obtain ⟨v', e, ⟨k', i'⟩, t⟩ := runScript_ok
    (fun (v : RVec α) l => (∃ k, InvH v k) ∧ v.toList = l)
    (by
      rintro s w _ ⟨⟨k, i⟩, rfl⟩
      obtain ⟨w', k', e, i', t⟩ := intoIterStep_ok i s
      exact ⟨w', e, ⟨k', i'⟩, t⟩) script ⟨⟨k, i⟩, rfl⟩
  have s := (shows_iff i').2 t
  exact ⟨v', e, s, s.1⟩

example : ∃ v v', Built v ∧
    runScript RVec.intoIterStep [.back, .front, .back] v = .ok ([some 4999, some 0, some 4998], v') ∧
    v'.len = 4997 := by
  obtain ⟨v, b, s⟩ := sample
  obtain ⟨v', e, -, e'⟩ := C25_into_iter b s [.back, .front, .back]
  refine ⟨v, v', b, ?_, ?_⟩
  · rw [e]; simp [drain, takeEnd, List.getLast?_eq_getElem?, List.head?_eq_getElem?]
  · rw [e']; simp [drain, takeEnd]

/-! ### C26 -/

/-- C26: collecting items and iterating the vector gives the items back, by reference and by
value; the vector emptied this way was its whole content, and collecting what it yields gives a
vector with the same content again. -/
theorem C26_collect_iter (l : List α) (hl : l.length < USIZE_LIMIT) :
    ∃ v it it' v', fromIter l = .ok v ∧ Shows v l ∧ VIter.new v = .ok it ∧
      runScript VIter.step (List.replicate (l.length + 1) .front) it = .ok (l.map some ++ [none], it') ∧
      runScript RVec.intoIterStep (List.replicate (l.length + 1) .front) v = .ok (l.map some ++ [none], v') ∧
      Shows v' [] := by
  obtain ⟨v, e, b, s⟩ := exists_built l hl
  obtain ⟨it, it', e1, -, e2, -⟩ := C23_iter b s (List.replicate (l.length + 1) .front)
  obtain ⟨v', e3, s', -⟩ := C25_into_iter b s (List.replicate (l.length + 1) .front)
  rw [drain_front] at e2 e3 s'
  exact ⟨v, it, it', v', e, s, e1, e2, e3, s'⟩

/-- C26: collecting what `into_iter` yields gives a vector with the same content, whatever the shape
of the first one. -/
theorem C26_collect_into_iter {v : RVec α} {l : List α} (b : Built v) (h : Shows v l) :
    ∃ items v' w, runScript RVec.intoIterStep (List.replicate l.length .front) v = .ok (items, v') ∧
      Shows v' [] ∧ fromIter (items.filterMap id) = .ok w ∧ Built w ∧ Shows w l := by
  obtain ⟨v', e, s', -⟩ := C25_into_iter b h (List.replicate l.length .front)
  have d := drain_front l 0
  simp only [Nat.add_zero, List.replicate_zero, List.append_nil] at d
  rw [d] at e s'
  obtain ⟨k, i⟩ := b.inv
  have hl : l.length < USIZE_LIMIT := by
    have := i.lt
    rwa [h.1] at this
  obtain ⟨w, e', b', s''⟩ := exists_built l hl
  refine ⟨_, v', w, e, s', ?_, b', s''⟩
  rw [show (l.map some).filterMap id = l by simp [List.filterMap_map]]
  exact e'

example : ∃ v it it', fromIter (List.range 5000) = .ok v ∧ VIter.new v = .ok it ∧
    runScript VIter.step (List.replicate 5001 .front) it = .ok ((List.range 5000).map some ++ [none], it') := by
  obtain ⟨v, it, it', v', e, -, e1, e2, -⟩ := C26_collect_iter (List.range 5000) (by rw [List.length_range]; decide)
  rw [List.length_range] at e2
  exact ⟨v, it, it', e, e1, e2⟩

example : ∃ v items v' w, Built v ∧ runScript RVec.intoIterStep (List.replicate 7200 .front) v = .ok (items, v') ∧
    fromIter (items.filterMap id) = .ok w ∧ Shows w ((List.range 300).drop 100 ++ List.range 7000) := by
  obtain ⟨v, b, s⟩ := sample'
  obtain ⟨items, v', w, e, -, e', -, s'⟩ := C26_collect_into_iter b s
  simp only [List.length_append, List.length_drop, List.length_range, Nat.reduceSub, Nat.reduceAdd] at e
  exact ⟨v, items, v', w, b, e, e', s'⟩

/-! ### C29 -/

/-- C29: a focus on a vector reads the sequence, for every index and whatever was read before. -/
theorem C29_focus {v : RVec α} {l : List α} (b : Built v) (h : Shows v l) :
    ∃ f, Focus.new v = .ok f ∧ FReads f USIZE_LIMIT l ∧ f.len = .ok l.length ∧
      f.isEmpty = .ok (l.length == 0) := by
  obtain ⟨k, i⟩ := b.inv
  obtain rfl := (shows_iff i).1 h
  obtain ⟨f, e, ho⟩ := Focus.new_ok i
  have := ho.reads i (bound := USIZE_LIMIT) (by omega)
  simp only [List.take_length, List.drop_zero] at this
  have hlen : f.len = .ok v.toList.length := by
    rw [Focus.len, ho.range.1, ho.range.2, usub_ok (by omega), Nat.sub_zero]
  exact ⟨f, e, this, hlen, by rw [Focus.isEmpty, hlen]; rfl⟩

example : ∃ v f f', Built v ∧ Focus.new v = .ok f ∧
    runAll (fun i f => Focus.get f i) [4999, 0, 5000, 63, 64, 63] f =
      .ok ([some 4999, some 0, none, some 63, some 64, some 63], f') := by
  obtain ⟨v, b, s⟩ := sample
  obtain ⟨f, e, r, -⟩ := C29_focus b s
  obtain ⟨f', e'⟩ := r [4999, 0, 5000, 63, 64, 63] (by decide)
  exact ⟨v, f, f', b, e, by rw [e']; simp⟩

/-- C29: `Index` on a focus: the item, and a panic outside. -/
theorem C29_focus_index {f : Focus α} {l : List α} {bound : Nat} (r : FReads f bound l) (i : Nat) (hi : i < bound) :
    (∀ h : i < l.length, ∃ f', f.index i = .ok (l[i], f')) ∧
    (l.length ≤ i → f.index i = .error .panic) := by
  obtain ⟨f', e⟩ := r [i] (by simpa using hi)
  simp only [runAll] at e
  obtain ⟨q, e0, e⟩ := bind_ok e
  simp only [ok_bind, List.map_cons, List.map_nil, Except.ok.injEq, Prod.mk.injEq, List.cons.injEq, and_true] at e
  refine ⟨fun h => ⟨q.2, ?_⟩, fun h => ?_⟩
  · rw [Focus.index, e0, ok_bind, e.1, List.getElem?_eq_getElem h]; rfl
  · rw [Focus.index, e0, ok_bind, e.1, List.getElem?_eq_none h]; rfl

example : ∃ v f f', Built v ∧ Focus.new v = .ok f ∧ f.index 4999 = .ok (4999, f') ∧
    f.index 5000 = .error .panic := by
  obtain ⟨v, b, s⟩ := sample
  obtain ⟨f, e, r, -⟩ := C29_focus b s
  obtain ⟨f', e'⟩ := (C29_focus_index r 4999 (by decide)).1 (by simp)
  exact ⟨v, f, f', b, e, by simpa using e', (C29_focus_index r 5000 (by decide)).2 (by simp)⟩

/-- C29: every focus, however it was narrowed, split and used, reads some contiguous part of the
vector, and keeps reading the same one. -/
theorem C29_focus_any {v : RVec α} {l : List α} (b : Built v) (h : Shows v l) {f : Focus α} (fb : FBuilt v f) :
    ∃ lo hi, FReads f (USIZE_LIMIT - l.length) ((l.take hi).drop lo) ∧
      ∀ i r, f.get i = .ok r → FReads r.2 (USIZE_LIMIT - l.length) ((l.take hi).drop lo) := by
  obtain ⟨k, i⟩ := b.inv
  obtain rfl := (shows_iff i).1 h
  have hlt := i.lt
  rw [i.len] at hlt
  obtain ⟨lo, hi, ho, hl⟩ := fb.ok i
  refine ⟨lo, hi, ho.reads i (by omega), fun j r e => ?_⟩
  exact (Focus.get_eq i ho e).reads i (by omega)

example : ∃ v f, Built v ∧ Shows v (List.range 5000) ∧ FBuilt v f := by
  obtain ⟨v, b, s⟩ := sample
  obtain ⟨f, e, -⟩ := C29_focus b s
  exact ⟨v, f, b, s, .new e⟩

/-- C29: `narrowed_tree` over a non-empty range of positions reads that part of the vector. -/
theorem C29_narrowed_tree {v : RVec α} {l : List α} (b : Built v) (h : Shows v l) (x y : Nat)
    (hxy : x < y) (hx : x < l.length) :
    ∃ f, Focus.narrowedTree v x y = .ok f ∧ FBuilt v f ∧
      FReads f (USIZE_LIMIT - l.length) ((l.take y).drop x) ∧ f.len = .ok (min y l.length - x) := by
  obtain ⟨k, i⟩ := b.inv
  obtain rfl := (shows_iff i).1 h
  have hlt := i.lt
  rw [i.len] at hlt
  obtain ⟨f', e', -⟩ := Focus.narrowedTree_ok i (lo := x) (hi := min y v.toList.length) (by omega) (by omega)
  have : Focus.narrowedTree v x y = Focus.narrowedTree v x (min y v.toList.length) := by
    unfold Focus.narrowedTree
    have e2 : (if y ≥ v.len then v.len else y) = min y v.toList.length := by rw [i.len]; split <;> omega
    have e4 : (if min y v.toList.length ≥ v.len then v.len else min y v.toList.length) = min y v.toList.length := by
      rw [i.len]; split <;> omega
    simp only [e2, e4]
  rw [← this] at e'
  have ho := Focus.narrowedTree_eq i e'
  rw [show min x v.toList.length = x by omega] at ho
  have r := ho.reads i (bound := USIZE_LIMIT - v.toList.length) (by omega)
  refine ⟨f', e', .narrowedTree e', ?_, ?_⟩
  · rcases Nat.le_total y v.toList.length with hy | hy
    · rwa [Nat.min_eq_left hy] at r
    · rw [Nat.min_eq_right hy, List.take_length] at r
      rwa [List.take_of_length_le hy]
  · rw [Focus.len, ho.range.1, ho.range.2, usub_ok (by omega)]

example : ∃ v f f', Built v ∧ Focus.narrowedTree v 100 200 = .ok f ∧
    runAll (fun i f => Focus.get f i) [0, 99, 100] f = .ok ([some 100, some 199, none], f') := by
  obtain ⟨v, b, s⟩ := sample
  obtain ⟨f, e, -, r, -⟩ := C29_narrowed_tree b s 100 200 (by omega) (by simp)
  obtain ⟨f', e'⟩ := r [0, 99, 100] (by rw [List.length_range]; decide)
  exact ⟨v, f, f', b, e, by
    rw [e']; simp⟩

/-- The exception of C29: the code adds the start of the focus to the index, so an enormous index
on a focus that does not start at 0 makes the addition overflow instead of giving `None`. -/
theorem C29_focus_overflow : ∃ (v : RVec Nat) (f : Focus Nat), Built v ∧ FBuilt v f ∧
    f.len = .ok 2 ∧ f.get (USIZE_LIMIT - 1) = .error .overflow := by
  have h : ((fromIter (List.range 3)).bind fun v => (Focus.narrowedTree v 1 3).bind fun f =>
      .ok (f.len, (f.get (USIZE_LIMIT - 1)).map Prod.fst)) = .ok (.ok 2, .error .overflow) := by
    decide +kernel
  obtain ⟨v, e1, h⟩ := bind_ok h
  obtain ⟨f, e2, h⟩ := bind_ok h
  simp only [Except.ok.injEq, Prod.mk.injEq] at h
  refine ⟨v, f, .collect e1, .narrowedTree e2, h.1, ?_⟩
  have := h.2
  cases e : f.get (USIZE_LIMIT - 1) with
  | error x => rw [e] at this; simpa [Except.map] using this
  | ok r => rw [e] at this; simp [Except.map] at this

/-! ### C30 -/

theorem List.take_min_length (l : List α) (n : Nat) : l.take (min n l.length) = l.take n := by
  rcases Nat.le_total n l.length with h | h
  · rw [Nat.min_eq_left h]
  · rw [Nat.min_eq_right h, List.take_length, List.take_of_length_le h]

theorem List.drop_min_take (l : List α) (m n : Nat) : (l.take m).drop (min n l.length) = (l.take m).drop n := by
  rcases Nat.le_total n l.length with h | h
  · rw [Nat.min_eq_left h]
  · rw [Nat.min_eq_right h, List.drop_of_length_le (by simp; omega), List.drop_of_length_le (by simp; omega)]

/-- C30, what holds of it: narrowing any focus to a non-empty range inside it gives a focus that
reads exactly that part. Missing: the empty range may panic (`C30_narrow_empty_panics`), and a range
that ends beyond a focus is not always refused (`C30_narrow_widens`). The hypothesis on the length
keeps the additions in the code from overflowing. -/
theorem C30_narrow_partial {v : RVec α} {l part : List α} (b : Built v) (h : Shows v l)
    (hl : 3 * l.length < USIZE_LIMIT) {f : Focus α} (fb : FBuilt v f)
    (r : FReads f (USIZE_LIMIT - l.length) part) (s e : Bound)
    (hs : s.first < e.afterLast part.length) (he : e.afterLast part.length ≤ part.length) :
    ∃ f', f.narrow s e = .ok f' ∧ FBuilt v f' ∧
      FReads f' (USIZE_LIMIT - l.length) ((part.take (e.afterLast part.length)).drop s.first) ∧
      f'.len = .ok (e.afterLast part.length - s.first) := by
  obtain ⟨k, i⟩ := b.inv
  obtain rfl := (shows_iff i).1 h
  obtain ⟨lo, hi, ho, hlo⟩ := fb.ok i
  have hhi := ho.hi_le
  have hpl : ((v.toList.take hi).drop lo).length = hi - lo := by simp; omega
  have hp := FReads.unique (ho.reads i (bound := USIZE_LIMIT - v.toList.length) (by omega)) r
    (by omega) (by omega)
  subst hp
  simp only [hpl] at hs he ⊢
  generalize hx : s.first = x at *
  generalize hy : e.afterLast (hi - lo) = y at *
  have e1 : Focus.narrowStart s = .ok x := by
    cases s <;> simp only [Bound.first] at hx <;> subst hx <;> simp only [Focus.narrowStart]
    exact uadd_ok (by omega)
  have e2 : f.narrowEnd e = .ok y := by
    cases e <;> simp only [Bound.afterLast] at hy <;> subst hy <;> simp only [Focus.narrowEnd]
    · rw [Focus.len, ho.range.1, ho.range.2, usub_ok (by omega)]
    · exact uadd_ok (by omega)
  obtain ⟨f', e3, h3⟩ := Focus.narrowedTree_ok i (lo := lo + x) (hi := lo + y) (by omega) (by omega)
  have e4 : f.narrow s e = .ok f' := by
    unfold Focus.narrow
    rw [e1, ok_bind, e2, ok_bind, ho.range.1, ho.range.2, massert_ok (by simp; omega), ok_bind,
      uadd_ok (by omega), ok_bind, uadd_ok (by omega), ok_bind, usub_ok (by omega), ok_bind, ho.tree,
      show lo + x + y - x = lo + y by omega, e3]
  refine ⟨f', e4, .narrow fb e4, ?_, ?_⟩
  · have := h3.reads i (bound := USIZE_LIMIT - v.toList.length) (by omega)
    have e5 : (((v.toList.take hi).drop lo).take y).drop x = (v.toList.take (lo + y)).drop (lo + x) := by
      rw [List.take_drop, List.take_take, List.drop_drop, Nat.min_eq_left (by omega)]
    rwa [e5]
  · rw [Focus.len, h3.range.1, h3.range.2, usub_ok (by omega)]
    congr 1
    omega

example : ∃ v f f' f'', Built v ∧ FBuilt v f ∧ f.narrow (.included 10) (.excluded 20) = .ok f' ∧
    runAll (fun i f => Focus.get f i) [0, 9, 10] f' = .ok ([some 110, some 119, none], f'') := by
  obtain ⟨v, b, s⟩ := sample
  obtain ⟨f, -, fb, r, -⟩ := C29_narrowed_tree b s 100 200 (by omega) (by simp)
  obtain ⟨f', e, -, r', -⟩ := C30_narrow_partial b s (by rw [List.length_range]; decide) fb r
    (.included 10) (.excluded 20) (by simp [Bound.first, Bound.afterLast]) (by simp [Bound.afterLast])
  obtain ⟨f'', e'⟩ := r' [0, 9, 10] (by rw [List.length_range]; decide)
  refine ⟨v, f, f', f'', b, fb, e, ?_⟩
  rw [e']
  simp [Bound.first, Bound.afterLast, List.getElem?_take]

/-- C30, what holds of the refusal: on a focus of the whole vector a range that ends beyond it is
refused with a panic. -/
theorem C30_narrow_refuses_partial {v : RVec α} {l : List α} (b : Built v) (h : Shows v l) {f : Focus α}
    (e : Focus.new v = .ok f) (sb eb : Bound) (hs : sb.first < USIZE_LIMIT)
    (he : l.length < eb.afterLast l.length) (he' : eb.afterLast l.length < USIZE_LIMIT) :
    f.narrow sb eb = .error .panic := by
  obtain ⟨k, i⟩ := b.inv
  obtain rfl := (shows_iff i).1 h
  obtain ⟨f', e', ho⟩ := Focus.new_ok i
  rw [e] at e'
  cases e'
  have e1 : ∃ x, Focus.narrowStart sb = .ok x := by
    cases sb <;> simp only [Focus.narrowStart, Bound.first] at hs ⊢
    · exact ⟨_, rfl⟩
    · exact ⟨_, rfl⟩
    · exact ⟨_, uadd_ok hs⟩
  have e2 : f.narrowEnd eb = .ok (eb.afterLast v.toList.length) := by
    cases eb <;> simp only [Focus.narrowEnd, Bound.afterLast] at he he' ⊢
    · omega
    · exact uadd_ok he'
  obtain ⟨x, e1⟩ := e1
  unfold Focus.narrow
  rw [e1, ok_bind, e2, ok_bind, ho.range.2]
  have : (!decide (eb.afterLast v.toList.length > v.toList.length)) = false := by simp; omega
  rw [this]
  rfl

example : ∃ (v : RVec Nat) (f : Focus Nat), Built v ∧ Focus.new v = .ok f ∧ f.narrow (.included 10) (.included 5000) = .error .panic := by
  obtain ⟨v, b, s⟩ := sample
  obtain ⟨f, e, -⟩ := C29_focus b s
  exact ⟨v, f, b, e, C30_narrow_refuses_partial b s e (.included 10) (.included 5000)
    (by simp [Bound.first]) (by simp [Bound.afterLast]) (by simp [Bound.afterLast])⟩

/-- C30, what holds for empty ranges: when the call returns, the focus reads nothing. -/
theorem C30_narrow_empty_partial {v : RVec α} {l part : List α} (b : Built v) (h : Shows v l)
    (hl : 2 * l.length < USIZE_LIMIT) {f f' : Focus α} (fb : FBuilt v f)
    (r : FReads f (USIZE_LIMIT - l.length) part) (s e : Bound)
    (hs : e.afterLast part.length ≤ s.first) (he : f.narrow s e = .ok f') :
    FReads f' (USIZE_LIMIT - l.length) [] := by
  obtain ⟨k, i⟩ := b.inv
  obtain rfl := (shows_iff i).1 h
  obtain ⟨lo, hi, ho, hlo⟩ := fb.ok i
  have hhi := ho.hi_le
  have hpl : ((v.toList.take hi).drop lo).length = hi - lo := by simp; omega
  have hp := FReads.unique (ho.reads i (bound := USIZE_LIMIT - v.toList.length) (by omega)) r
    (by omega) (by omega)
  subst hp
  rw [hpl] at hs
  unfold Focus.narrow at he
  obtain ⟨x, e1, he⟩ := bind_ok he
  obtain ⟨y, e2, he⟩ := bind_ok he
  obtain ⟨_, -, he⟩ := bind_ok he
  obtain ⟨z, e3, he⟩ := bind_ok he
  obtain ⟨w, e4, he⟩ := bind_ok he
  obtain ⟨u, e5, he⟩ := bind_ok he
  have hx : x = s.first := by
    cases s <;> simp only [Focus.narrowStart] at e1
    · exact (Except.ok.inj e1).symm
    · exact (Except.ok.inj e1).symm
    · have := uadd_lt e1; rw [uadd_ok this] at e1; exact (Except.ok.inj e1).symm
  have hy : y = e.afterLast (hi - lo) := by
    cases e <;> simp only [Focus.narrowEnd] at e2
    · rw [Focus.len, ho.range.1, ho.range.2] at e2
      unfold usub at e2
      split at e2
      · exact (Except.ok.inj e2).symm
      · cases e2
    · have := uadd_lt e2; rw [uadd_ok this] at e2; exact (Except.ok.inj e2).symm
    · exact (Except.ok.inj e2).symm
  rw [ho.range.1, uadd_ok (uadd_lt e3)] at e3
  cases e3
  rw [uadd_ok (uadd_lt e4)] at e4
  cases e4
  rw [usub_ok (by omega)] at e5
  cases e5
  rw [ho.tree] at he
  have h' := Focus.narrowedTree_eq i he
  have := h'.reads i (bound := USIZE_LIMIT - v.toList.length) (by omega)
  rwa [List.drop_of_length_le (by simp; omega)] at this

example : ∃ (v : RVec Nat) (f f' : Focus Nat), Built v ∧ FBuilt v f ∧ Shows v (List.range 20) ∧
    f.narrow (.included 3) (.excluded 3) = .ok f' := by
  have h : ((fromIter (List.range 20)).bind fun v => (Focus.new v).bind fun f =>
      (f.narrow (.included 3) (.excluded 3)).bind fun _ => .ok ()) = .ok () := by decide +kernel
  obtain ⟨v, e1, h⟩ := bind_ok h
  obtain ⟨f, e2, h⟩ := bind_ok h
  obtain ⟨f', e3, -⟩ := bind_ok h
  obtain ⟨v', e', -, s⟩ := exists_built (List.range 20) (by rw [List.length_range]; decide)
  rw [e1] at e'
  cases e'
  exact ⟨v, f, f', .collect e1, .new e2, s, e3⟩

/-- C30, what `narrow` does in all cases in which it returns: it counts from the start of the focus, and what it reads is cut off
only by the end of the vector, not by the end of the focus. (`f.lo..f.hi` are the positions that the focus covers.) -/
theorem C30_narrow_any_partial {v : RVec α} {l : List α} (b : Built v) (h : Shows v l) {f f' : Focus α} (fb : FBuilt v f)
    (s e : Bound) (he : f.narrow s e = .ok f') :
    FReads f (USIZE_LIMIT - l.length) ((l.take f.hi).drop f.lo) ∧
    FReads f' (USIZE_LIMIT - l.length) ((l.take (f.lo + e.afterLast (f.hi - f.lo))).drop (f.lo + s.first)) := by
  obtain ⟨k, i⟩ := b.inv
  obtain rfl := (shows_iff i).1 h
  have hlt := i.lt
  rw [i.len] at hlt
  obtain ⟨lo, hi, ho, hlo⟩ := fb.ok i
  have hhi := ho.hi_le
  rw [ho.range.1, ho.range.2]
  refine ⟨ho.reads i (by omega), ?_⟩
  unfold Focus.narrow at he
  obtain ⟨x, e1, he⟩ := bind_ok he
  obtain ⟨y, e2, he⟩ := bind_ok he
  obtain ⟨_, -, he⟩ := bind_ok he
  obtain ⟨z, e3, he⟩ := bind_ok he
  obtain ⟨w, e4, he⟩ := bind_ok he
  obtain ⟨u, e5, he⟩ := bind_ok he
  have hx : x = s.first := by
    cases s <;> simp only [Focus.narrowStart] at e1
    · exact (Except.ok.inj e1).symm
    · exact (Except.ok.inj e1).symm
    · have := uadd_lt e1; rw [uadd_ok this] at e1; exact (Except.ok.inj e1).symm
  have hy : y = e.afterLast (hi - lo) := by
    cases e <;> simp only [Focus.narrowEnd] at e2
    · rw [Focus.len, ho.range.1, ho.range.2] at e2
      unfold usub at e2
      split at e2
      · exact (Except.ok.inj e2).symm
      · cases e2
    · have := uadd_lt e2; rw [uadd_ok this] at e2; exact (Except.ok.inj e2).symm
    · exact (Except.ok.inj e2).symm
  rw [ho.range.1, uadd_ok (uadd_lt e3)] at e3
  cases e3
  rw [uadd_ok (uadd_lt e4)] at e4
  cases e4
  rw [usub_ok (by omega)] at e5
  cases e5
  rw [ho.tree] at he
  have h' := Focus.narrowedTree_eq i he
  have := h'.reads i (bound := USIZE_LIMIT - v.toList.length) (by omega)
  rw [← hx, ← hy]
  rw [show lo + x + y - x = lo + y by omega] at this
  rw [List.take_min_length, List.drop_min_take] at this
  exact this

/-- The focus of `C30_narrow_widens`. -/
example : ∃ (v : RVec Nat) (f f' : Focus Nat), Built v ∧ Shows v (List.range 20) ∧ FBuilt v f ∧ f.lo = 5 ∧ f.hi = 10 ∧
    f.narrow (.included 0) (.excluded 8) = .ok f' := by
  have h : ((fromIter (List.range 20)).bind fun v => (Focus.narrowedTree v 5 10).bind fun f =>
      (f.narrow (.included 0) (.excluded 8)).bind fun _ => .ok (f.lo, f.hi)) = .ok (5, 10) := by decide +kernel
  obtain ⟨v, e1, h⟩ := bind_ok h
  obtain ⟨f, e2, h⟩ := bind_ok h
  obtain ⟨f', e3, h⟩ := bind_ok h
  obtain ⟨v', e', -, s⟩ := exists_built (List.range 20) (by rw [List.length_range]; decide)
  rw [e1] at e'
  cases e'
  simp only [Except.ok.injEq, Prod.mk.injEq] at h
  exact ⟨v, f, f', .collect e1, s, .narrowedTree e2, h.1, h.2, e3⟩

/-- The code against C30: a focus on positions 5..10 accepts the range 0..8, though it has only five
items, and the result reads items beyond the focus. -/
theorem C30_narrow_widens : ∃ (v : RVec Nat) (f f' f'' : Focus Nat), fromIter (List.range 20) = .ok v ∧
    Focus.narrowedTree v 5 10 = .ok f ∧ f.len = .ok 5 ∧
    f.narrow (.included 0) (.excluded 8) = .ok f' ∧ f'.len = .ok 8 ∧ f'.get 7 = .ok (some 12, f'') := by
  have h : ((fromIter (List.range 20)).bind fun v => (Focus.narrowedTree v 5 10).bind fun f =>
      (f.narrow (.included 0) (.excluded 8)).bind fun f' => (f'.get 7).bind fun r =>
        .ok (f.len, f'.len, r.1)) = .ok (.ok 5, .ok 8, some 12) := by decide +kernel
  obtain ⟨v, e1, h⟩ := bind_ok h
  obtain ⟨f, e2, h⟩ := bind_ok h
  obtain ⟨f', e3, h⟩ := bind_ok h
  obtain ⟨⟨x, f''⟩, e4, h⟩ := bind_ok h
  simp only [Except.ok.injEq, Prod.mk.injEq] at h
  obtain ⟨h1, h2, rfl⟩ := h
  exact ⟨v, f, f', f'', e1, e2, h1, e3, h2, e4⟩

/-- The code against C30: in a vector of 65 collected items, narrowing to the empty range 32..32
panics (the search for the node falls back to the root, which is empty). -/
theorem C30_narrow_empty_panics : ∃ (v : RVec Nat) (f : Focus Nat), fromIter (List.range 65) = .ok v ∧
    Focus.new v = .ok f ∧ f.narrow (.included 32) (.excluded 32) = .error .panic := by
  have h : ((fromIter (List.range 65)).bind fun v => (Focus.new v).bind fun f =>
      .ok ((f.narrow (.included 32) (.excluded 32)).map fun _ => ())) = .ok (.error .panic) := by decide +kernel
  obtain ⟨v, e1, h⟩ := bind_ok h
  obtain ⟨f, e2, h⟩ := bind_ok h
  refine ⟨v, f, e1, e2, ?_⟩
  simp only [Except.ok.injEq] at h
  cases e : f.narrow (.included 32) (.excluded 32) with
  | error x => rw [e] at h; simpa [Except.map] using h
  | ok r => rw [e] at h; simp [Except.map] at h

/-! ### C31 -/

/-- C31, what holds of it: splitting a focus that starts at the first item, at a position strictly
inside, gives the two parts. Missing: foci that start elsewhere (`C31_split_at_narrowed`), and the
two outer positions (`C31_split_at_ends_panic`). -/
theorem C31_split_at_partial {v : RVec α} {l part : List α} (b : Built v) (h : Shows v l)
    (hl : 2 * l.length < USIZE_LIMIT) {f : Focus α} (fb : FBuilt v f) (hf : f.lo = 0)
    (r : FReads f (USIZE_LIMIT - l.length) part) (n : Nat) (h0 : 0 < n) (hn : n < part.length) :
    ∃ f1 f2, f.splitAt n = .ok (f1, f2) ∧ FBuilt v f1 ∧ FBuilt v f2 ∧
      FReads f1 (USIZE_LIMIT - l.length) (part.take n) ∧ f1.len = .ok n ∧
      FReads f2 (USIZE_LIMIT - l.length) (part.drop n) ∧ f2.len = .ok (part.length - n) := by
  obtain ⟨k, i⟩ := b.inv
  obtain rfl := (shows_iff i).1 h
  obtain ⟨lo, hi, ho, hlo⟩ := fb.ok i
  have hhi := ho.hi_le
  obtain rfl : lo = 0 := ho.range.1.symm.trans hf
  have hpl : ((v.toList.take hi).drop 0).length = hi := by simp; omega
  have hp := FReads.unique (ho.reads i (bound := USIZE_LIMIT - v.toList.length) (by omega)) r
    (by omega) (by omega)
  subst hp
  rw [hpl] at hn
  obtain ⟨f1, e1, h1⟩ := Focus.narrowedTree_ok i (lo := 0) (hi := n) (by omega) (by omega)
  obtain ⟨f2, e2, h2⟩ := Focus.narrowedTree_ok i (lo := n) (hi := hi) (by omega) (by omega)
  have e : f.splitAt n = .ok (f1, f2) := by
    unfold Focus.splitAt
    rw [Focus.len, ho.range.1, ho.range.2, usub_ok (by omega), ok_bind, massert_ok (by simp; omega), ok_bind,
      ho.tree, e1, ok_bind, e2, ok_bind]
  refine ⟨f1, f2, e, .splitFirst fb e, .splitSecond fb e, ?_, ?_, ?_, ?_⟩
  · have := h1.reads i (bound := USIZE_LIMIT - v.toList.length) (by omega)
    rw [List.drop_zero] at this ⊢
    rwa [List.take_take, Nat.min_eq_left (by omega)]
  · rw [Focus.len, h1.range.1, h1.range.2, usub_ok (by omega), Nat.sub_zero]
  · have := h2.reads i (bound := USIZE_LIMIT - v.toList.length) (by omega)
    rwa [List.drop_zero]
  · rw [Focus.len, h2.range.1, h2.range.2, usub_ok (by omega), hpl]

example : ∃ v f f1 f2 g1 g2, Built v ∧ Focus.new v = .ok f ∧ f.splitAt 1234 = .ok (f1, f2) ∧
    runAll (fun i f => Focus.get f i) [0, 1233, 1234] f1 = .ok ([some 0, some 1233, none], g1) ∧
    runAll (fun i f => Focus.get f i) [0, 3765, 3766] f2 = .ok ([some 1234, some 4999, none], g2) := by
  obtain ⟨v, b, s⟩ := sample
  obtain ⟨f, e, r, -⟩ := C29_focus b s
  obtain ⟨k, i⟩ := b.inv
  have hf : f.lo = 0 := by
    obtain ⟨f', e', ho⟩ := Focus.new_ok i
    rw [e] at e'
    cases e'
    exact ho.range.1
  obtain ⟨f1, f2, e', -, -, r1, -, r2, -⟩ := C31_split_at_partial b s (by rw [List.length_range]; decide) (.new e) hf
    (fun is his => r is fun j hj => Nat.lt_of_lt_of_le (his j hj) (Nat.sub_le _ _)) 1234 (by omega) (by simp)
  obtain ⟨g1, e1⟩ := r1 [0, 1233, 1234] (by rw [List.length_range]; decide)
  obtain ⟨g2, e2⟩ := r2 [0, 3765, 3766] (by rw [List.length_range]; decide)
  refine ⟨v, f, f1, f2, g1, g2, b, e, e', ?_, ?_⟩
  · rw [e1]; simp
  · rw [e2]; simp

/-- C31, what `split_at` does on every focus: it takes the position as one of the vector, so the first part has what the focus
reads before that position of the vector, and the second part reads from that position of the vector to the end of the focus. It
returns if the position is in the focus and less than its length. (`f.lo..f.hi` are the positions that the focus covers.) -/
theorem C31_split_at_any_partial {v : RVec α} {l : List α} (b : Built v) (h : Shows v l) {f : Focus α} (fb : FBuilt v f) (n : Nat) :
    FReads f (USIZE_LIMIT - l.length) ((l.take f.hi).drop f.lo) ∧
    (∀ f1 f2, f.splitAt n = .ok (f1, f2) → FReads f1 (USIZE_LIMIT - l.length) ((l.take n).drop f.lo) ∧
      FReads f2 (USIZE_LIMIT - l.length) ((l.take f.hi).drop n)) ∧
    (f.lo < n → n < f.hi - f.lo → ∃ f1 f2, f.splitAt n = .ok (f1, f2)) := by
  obtain ⟨k, i⟩ := b.inv
  obtain rfl := (shows_iff i).1 h
  have hlt := i.lt
  rw [i.len] at hlt
  obtain ⟨lo, hi, ho, hlo⟩ := fb.ok i
  have hhi := ho.hi_le
  rw [ho.range.1, ho.range.2]
  refine ⟨ho.reads i (by omega), fun f1 f2 e => ?_, fun h1 h2 => ?_⟩
  · unfold Focus.splitAt at e
    obtain ⟨m, -, e⟩ := bind_ok e
    obtain ⟨_, -, e⟩ := bind_ok e
    obtain ⟨g1, e1, e⟩ := bind_ok e
    obtain ⟨g2, e2, e⟩ := bind_ok e
    cases e
    rw [ho.tree, ho.range.1] at e1
    rw [ho.tree, ho.range.2] at e2
    have r1 := (Focus.narrowedTree_eq i e1).reads i (bound := USIZE_LIMIT - v.toList.length) (by omega)
    have r2 := (Focus.narrowedTree_eq i e2).reads i (bound := USIZE_LIMIT - v.toList.length) (by omega)
    rw [List.take_min_length, List.drop_min_take] at r1 r2
    exact ⟨r1, r2⟩
  · obtain ⟨f1, e1, -⟩ := Focus.narrowedTree_ok i (lo := lo) (hi := n) (by omega) (by omega)
    obtain ⟨f2, e2, -⟩ := Focus.narrowedTree_ok i (lo := n) (hi := hi) (by omega) (by omega)
    refine ⟨f1, f2, ?_⟩
    unfold Focus.splitAt
    rw [Focus.len, ho.range.1, ho.range.2, usub_ok (by omega), ok_bind, massert_ok (by simp; omega), ok_bind,
      ho.tree, e1, ok_bind, e2, ok_bind]

/-- A focus on positions 100..300 of a vector, and the position 150 of the vector. -/
example : ∃ (v : RVec Nat) (f : Focus Nat), Built v ∧ Shows v (List.range 5000) ∧ FBuilt v f ∧ f.lo < 150 ∧ 150 < f.hi - f.lo := by
  obtain ⟨v, b, s⟩ := sample
  obtain ⟨f, e, fb, -⟩ := C29_narrowed_tree b s 100 300 (by omega) (by simp)
  obtain ⟨k, i⟩ := b.inv
  have h := (Focus.narrowedTree_eq i e).range
  have hlen : v.toList.length = 5000 := by rw [(shows_iff i).1 s, List.length_range]
  rw [hlen] at h
  exact ⟨v, f, b, s, fb, by rw [h.1]; decide, by rw [h.1, h.2]; decide⟩

/-- The code against C31: on a focus of the positions 2..6, `split_at(1)` gives a first half that
reads nothing and a second half that begins with an item that is not in the focus at all. -/
theorem C31_split_at_narrowed : ∃ (v : RVec Nat) (f f1 f2 g1 g2 g : Focus Nat),
    fromIter (List.range 20) = .ok v ∧ Focus.narrowedTree v 2 6 = .ok f ∧ f.splitAt 1 = .ok (f1, f2) ∧
    f.get 0 = .ok (some 2, g) ∧ f1.get 0 = .ok (none, g1) ∧ f2.get 0 = .ok (some 1, g2) := by
  have h : ((fromIter (List.range 20)).bind fun v => (Focus.narrowedTree v 2 6).bind fun f =>
      (f.splitAt 1).bind fun p => (f.get 0).bind fun r => (p.1.get 0).bind fun r1 => (p.2.get 0).bind fun r2 =>
        .ok (r.1, r1.1, r2.1)) = .ok (some 2, none, some 1) := by decide +kernel
  obtain ⟨v, e1, h⟩ := bind_ok h
  obtain ⟨f, e2, h⟩ := bind_ok h
  obtain ⟨⟨f1, f2⟩, e3, h⟩ := bind_ok h
  obtain ⟨⟨x, g⟩, e4, h⟩ := bind_ok h
  obtain ⟨⟨x1, g1⟩, e5, h⟩ := bind_ok h
  obtain ⟨⟨x2, g2⟩, e6, h⟩ := bind_ok h
  simp only [Except.ok.injEq, Prod.mk.injEq] at h
  obtain ⟨rfl, rfl, rfl⟩ := h
  exact ⟨v, f, f1, f2, g1, g2, g, e1, e2, e3, e4, e5, e6⟩

/-- The code against C31: splitting a focus at its length always panics, and splitting at 0 panics
for a vector of 65 collected items. -/
theorem C31_split_at_ends_panic :
    (∀ (v : RVec Nat) (f : Focus Nat) (n : Nat), FBuilt v f → f.len = .ok n → f.splitAt n = .error .panic) ∧
    ∃ (v : RVec Nat) (f : Focus Nat), fromIter (List.range 65) = .ok v ∧ Focus.new v = .ok f ∧
      f.splitAt 0 = .error .panic := by
  constructor
  · intro v f n _ e
    unfold Focus.splitAt
    rw [e, ok_bind]
    simp [massert]
  · have h : ((fromIter (List.range 65)).bind fun v => (Focus.new v).bind fun f =>
        .ok ((f.splitAt 0).map fun _ => ())) = .ok (.error .panic) := by decide +kernel
    obtain ⟨v, e1, h⟩ := bind_ok h
    obtain ⟨f, e2, h⟩ := bind_ok h
    refine ⟨v, f, e1, e2, ?_⟩
    simp only [Except.ok.injEq] at h
    cases e : f.splitAt 0 with
    | error x => rw [e] at h; simpa [Except.map] using h
    | ok r => rw [e] at h; simp [Except.map] at h

end Librrb
