import Verif.Proof.Sort
import Verif.Proof.Places

/-! # The sorts and reversals of vectors -/
namespace Librrb
open RVec

/-- The focus is over the positions `a..b` of the places `cs`. -/
structure Views (cs : List Cell) (f : FMut Cell) (a b : Nat) : Prop where
  le : a ≤ b
  le' : b ≤ cs.length
  ok : FMut.Ok f (slice cs a b)
  fresh : FMut.Fresh f

theorem Views.len {cs : List Cell} {f : FMut Cell} {a b : Nat} (h : Views cs f a b) : f.len = b - a := by
  rw [h.ok.len, slice_len _ h.le']

theorem Views.index {cs : List Cell} {f : FMut Cell} {a b : Nat} (h : Views cs f a b) {i : Nat} (hi : a + i < b) :
    ∃ c f', f.index i = .ok (c, f') ∧ cs[a + i]? = some c ∧ Views cs f' a b := by
  have hl : i < (slice cs a b).length := by rw [slice_len _ h.le']; omega
  obtain ⟨f', e, ho, hr⟩ := FMut.get_ok h.ok (idx := i) hl (h.fresh.not_stale i)
  refine ⟨(slice cs a b)[i], f', ?_, ?_, ⟨h.le, h.le', ho, .inl hr⟩⟩
  · rw [FMut.index, e]; rfl
  · rw [← List.getElem?_eq_getElem, slice_get?, if_pos hi]

theorem Views.splitAt {cs : List Cell} {f : FMut Cell} {a b : Nat} (h : Views cs f a b) {k : Nat} (hk : a + k ≤ b) :
    ∃ f1 f2, f.splitAt k = .ok (f1, f2) ∧ Views cs f1 a (a + k) ∧ Views cs f2 (a + k) b := by
  obtain ⟨f1, f2, e, o1, o2, hfr⟩ := FMut.splitAt_ok h.ok (index := k) (by rw [slice_len _ h.le']; omega)
  have h1 := h.le'
  refine ⟨f1, f2, e, ⟨by omega, by omega, ?_, (hfr h.fresh).1⟩, ⟨by omega, by omega, ?_, (hfr h.fresh).2⟩⟩
  · rw [slice, slice_take _ hk] at o1; exact o1
  · rw [slice, slice_drop] at o2; exact o2

theorem swapCells_ok {v : RVec α} {l : List α} (b : Built v) (h : Shows v l) {i j : Nat} {c d : Cell}
    (hc : v.cells.toList[i]? = some c) (hd : v.cells.toList[j]? = some d) :
    ∃ v', v.swapCells c d = .ok v' ∧ Built v' ∧ Shows v' (swapAt l i j) ∧ v'.cells.toList = v.cells.toList := by
  have hl := b.cells_length h
  have hi := (List.getElem?_eq_some_iff.1 hc).1
  have hj := (List.getElem?_eq_some_iff.1 hd).1
  obtain ⟨r1, v1, e1, b1, s1, c1⟩ := b.write h (i := i) (by omega) hc (l[j]'(by omega))
  obtain ⟨r2, -⟩ := b.write h (i := j) (by omega) hd (l[j]'(by omega))
  obtain ⟨-, v2, e2, b2, s2, c2⟩ := b1.write s1 (i := j) (by simp; omega) (by rw [c1]; exact hd) (l[i]'(by omega))
  refine ⟨v2, ?_, b2, ?_, by rw [c2, c1]⟩
  · rw [swapCells, r1, r2]
    simp only [ok_bind, e1]
    exact e2
  · rw [swapAt_eq (by omega) (by omega)]; exact s2

theorem window_ok {v : RVec α} {l : List α} (b : Built v) (h : Shows v l) {lo hi : Nat} (h1 : lo ≤ hi) (h2 : hi ≤ l.length) :
    ∃ f, v.window lo hi = .ok f ∧ Views v.cells.toList f lo hi := by
  have hl := b.cells_length h
  obtain ⟨k, iv⟩ := b.inv
  obtain ⟨f, e, ho, hfr⟩ := focusMut_ok (iv.mapAddr fun c _ => c)
  rw [show v.mapAddr (fun c _ => c) = v.cells from rfl] at e ho
  have w : Views v.cells.toList f 0 l.length := ⟨by omega, by omega, by rw [← hl]; simpa [slice] using ho, hfr⟩
  obtain ⟨f1, f2, e1, w1, -⟩ := w.splitAt (k := hi) (by omega)
  rw [Nat.zero_add] at w1
  obtain ⟨f3, f4, e2, -, w2⟩ := w1.splitAt (k := lo) (by omega)
  rw [Nat.zero_add] at w2
  refine ⟨f4, ?_, w2⟩
  rw [window, e]
  simp only [ok_bind, e1, e2]

theorem window_panic {v : RVec α} {l : List α} (b : Built v) (h : Shows v l) {lo hi : Nat} (h1 : hi < lo ∨ l.length < hi) :
    v.window lo hi = .error .panic := by
  have hl := b.cells_length h
  obtain ⟨k, iv⟩ := b.inv
  obtain ⟨f, e, ho, hfr⟩ := focusMut_ok (iv.mapAddr fun c _ => c)
  rw [show v.mapAddr (fun c _ => c) = v.cells from rfl] at e ho
  have w : Views v.cells.toList f 0 l.length := ⟨by omega, by omega, by rw [← hl]; simpa [slice] using ho, hfr⟩
  rw [window, e]
  simp only [ok_bind]
  by_cases h2 : l.length < hi
  · rw [FMut.splitAt_panic ho (by omega)]; rfl
  · obtain ⟨f1, f2, e1, w1, -⟩ := w.splitAt (k := hi) (by omega)
    rw [Nat.zero_add] at w1
    simp only [e1, ok_bind]
    rw [FMut.splitAt_panic w1.ok (by rw [slice_len _ w1.le']; omega)]; rfl

/-! ### Sorting one vector -/

/-- The vector shows `L`; its places are `cs`. -/
structure Holds (cs : List Cell) (v : RVec α) (L : List α) : Prop where
  built : Built v
  shows' : Shows v L
  cells : v.cells.toList = cs

theorem Holds.length {cs : List Cell} {v : RVec α} {L : List α} (h : Holds cs v L) : L.length = cs.length := by
  rw [← h.cells, h.built.cells_length h.shows']

theorem Holds.read {cs : List Cell} {v : RVec α} {L : List α} (h : Holds cs v L) {i : Nat} {c : Cell} {x : α}
    (hc : cs[i]? = some c) (hx : L[i]? = some x) : v.readCell c = .ok x := by
  obtain ⟨hi, rfl⟩ := List.getElem?_eq_some_iff.1 hx
  exact (h.built.write h.shows' hi (by rw [h.cells]; exact hc) L[i]).1

theorem Holds.swap {cs : List Cell} {v : RVec α} {L : List α} (h : Holds cs v L) {i j : Nat} {c d : Cell}
    (hc : cs[i]? = some c) (hd : cs[j]? = some d) : ∃ v', v.swapCells c d = .ok v' ∧ Holds cs v' (swapAt L i j) := by
  obtain ⟨v', e, b, s, hcs⟩ := swapCells_ok h.built h.shows' (by rw [h.cells]; exact hc) (by rw [h.cells]; exact hd)
  exact ⟨v', e, b, s, by rw [hcs, h.cells]⟩

theorem single_lawful (cmp : α → α → Ordering) (cs : List Cell) :
    (SortFocus.single cmp).Lawful cmp cs.length (Holds cs) (Views cs) where
  length h := h.length
  bound h := ⟨h.le, h.le'⟩
  len h := h.len
  check _ := rfl
  splitAt k h hk := h.splitAt hk
  compare := by
    intro s L f g a b c d i j x y hR h1 h2 hi hj hx hy
    obtain ⟨p, f', e1, hc, v1⟩ := h1.index hi
    obtain ⟨q, g', e2, hd, v2⟩ := h2.index hj
    refine ⟨f', g', ?_, v1, v2⟩
    simp only [SortFocus.single, e1, e2, ok_bind, hR.read hc hx, hR.read hd hy]
  swap := by
    intro s L f g a b c d i j hR h1 h2 hi hj
    obtain ⟨p, f', e1, hc, v1⟩ := h1.index hi
    obtain ⟨q, g', e2, hd, v2⟩ := h2.index hj
    obtain ⟨s', e, hR'⟩ := hR.swap hc hd
    refine ⟨s', f', g', ?_, hR', v1, v2⟩
    simp only [SortFocus.single, e1, e2, ok_bind, e]

theorem sortRangeBy_ok {v : RVec α} {l : List α} (b : Built v) (h : Shows v l) (cmp : α → α → Ordering) [Std.TransCmp cmp]
    {sb eb : Bound} {lo hi : Nat} (hs : rangeStart sb = .ok lo) (he : rangeEnd v.len eb = .ok hi)
    (h1 : lo ≤ hi) (h2 : hi ≤ l.length) (next : ρ → Nat × ρ) (rng : ρ) :
    ∃ v' l', v.sortRangeBy cmp sb eb next rng = .ok v' ∧ Built v' ∧ Shows v' l' ∧ Within lo hi l l' ∧
      (slice l' lo hi).Pairwise (fun x y => cmp x y ≠ .gt) := by
  obtain ⟨f, e, w⟩ := window_ok b h h1 h2
  obtain ⟨v', rng', l', e', hR, hw, hp⟩ := SortFocus.sort_ok (single_lawful cmp v.cells.toList) next (f.len + 1)
    (rng := rng) (⟨b, h, rfl⟩ : Holds v.cells.toList v l) w (by rw [w.len]; omega)
  refine ⟨v', l', ?_, hR.built, hR.shows', hw, hp⟩
  rw [sortRangeBy, hs, he]
  simp only [ok_bind, e, e']

theorem sortRangeBy_panic {v : RVec α} {l : List α} (b : Built v) (h : Shows v l) (cmp : α → α → Ordering)
    {sb eb : Bound} {lo hi : Nat} (hs : rangeStart sb = .ok lo) (he : rangeEnd v.len eb = .ok hi)
    (h1 : hi < lo ∨ l.length < hi) (next : ρ → Nat × ρ) (rng : ρ) :
    v.sortRangeBy cmp sb eb next rng = .error .panic := by
  rw [sortRangeBy, hs, he]
  simp only [ok_bind, window_panic b h h1]
  rfl

/-! ### Sorting two vectors -/

/-- The two vectors begin with the pairs `L`, and go on with `rv` and `rw`. -/
structure PairHolds (cv cw : List Cell) (n : Nat) (rv : List α) (rw : List β) (s : RVec α × RVec β) (L : List (α × β)) : Prop where
  fst : Holds cv s.1 (L.map Prod.fst ++ rv)
  snd : Holds cw s.2 (L.map Prod.snd ++ rw)
  length : L.length = n

/-- The two foci are over the same positions. -/
structure PairViews (cv cw : List Cell) (n : Nat) (f : FMut Cell × FMut Cell) (a b : Nat) : Prop where
  fst : Views cv f.1 a b
  snd : Views cw f.2 a b
  le : b ≤ n

theorem swapAt_map (f : γ → δ) (L : List γ) (i j : Nat) : (swapAt L i j).map f = swapAt (L.map f) i j := by
  unfold swapAt
  rw [List.getElem?_map, List.getElem?_map]
  cases L[i]? <;> cases L[j]? <;> simp [List.map_set]

theorem swapAt_append {L : List γ} (M : List γ) {i j : Nat} (hi : i < L.length) (hj : j < L.length) :
    swapAt (L ++ M) i j = swapAt L i j ++ M := by
  rw [swapAt_eq hi hj, swapAt_eq (by simp; omega) (by simp; omega), List.getElem_append_left hi, List.getElem_append_left hj,
    List.set_append_left _ _ hi, List.set_append_left _ _ (by simpa using hj)]

theorem dual_lawful (cmp : α → α → Ordering) (cv cw : List Cell) (n : Nat) (rv : List α) (rw' : List β) :
    (SortFocus.dual cmp).Lawful (fun (x y : α × β) => cmp x.1 y.1) n (PairHolds cv cw n rv rw') (PairViews cv cw n) where
  length h := h.length
  bound h := ⟨h.fst.le, h.le⟩
  len h := h.fst.len
  check h := massert_ok (by rw [h.fst.len, h.snd.len]; simp)
  splitAt := by
    intro f a b k h hk
    obtain ⟨f1, f2, e1, v1, v2⟩ := h.fst.splitAt hk
    obtain ⟨g1, g2, e2, w1, w2⟩ := h.snd.splitAt hk
    have := h.le
    refine ⟨(f1, g1), (f2, g2), ?_, ⟨v1, w1, by omega⟩, ⟨v2, w2, h.le⟩⟩
    simp only [SortFocus.dual, e1, e2, ok_bind]
  compare := by
    intro s L f g a b c d i j x y hR h1 h2 hi hj hx hy
    obtain ⟨p, f', e1, hc, v1⟩ := h1.fst.index hi
    obtain ⟨q, g', e2, hd, v2⟩ := h2.fst.index hj
    have l1 := (List.getElem?_eq_some_iff.1 hx).1
    have l2 := (List.getElem?_eq_some_iff.1 hy).1
    refine ⟨(f', f.2), (g', g.2), ?_, ⟨v1, h1.snd, h1.le⟩, ⟨v2, h2.snd, h2.le⟩⟩
    simp only [SortFocus.dual, e1, e2, ok_bind,
      hR.fst.read hc (x := x.1) (by rw [List.getElem?_append_left (by simpa using l1), List.getElem?_map, hx]; rfl),
      hR.fst.read hd (x := y.1) (by rw [List.getElem?_append_left (by simpa using l2), List.getElem?_map, hy]; rfl)]
  swap := by
    intro s L f g a b c d i j hR h1 h2 hi hj
    have l0 := hR.length
    have l1 := h1.le
    have l2 := h2.le
    obtain ⟨p, f', e1, hc, v1⟩ := h1.fst.index hi
    obtain ⟨q, g', e2, hd, v2⟩ := h2.fst.index hj
    obtain ⟨p2, f2, e3, hc2, w1⟩ := h1.snd.index hi
    obtain ⟨q2, g2, e4, hd2, w2⟩ := h2.snd.index hj
    obtain ⟨s1, e5, r1⟩ := hR.fst.swap hc hd
    obtain ⟨s2, e6, r2⟩ := hR.snd.swap hc2 hd2
    refine ⟨(s1, s2), (f', f2), (g', g2), ?_, ⟨?_, ?_, by rw [swapAt_length, l0]⟩, ⟨v1, w1, h1.le⟩, ⟨v2, w2, h2.le⟩⟩
    · simp only [SortFocus.dual, e1, e2, e3, e4, e5, e6, ok_bind]
    · rw [swapAt_append _ (by simp; omega) (by simp; omega), ← swapAt_map] at r1; exact r1
    · rw [swapAt_append _ (by simp; omega) (by simp; omega), ← swapAt_map] at r2; exact r2

instance transCmp_fst (cmp : α → α → Ordering) [Std.TransCmp cmp] : Std.TransCmp (fun (x y : α × β) => cmp x.1 y.1) where
  eq_swap := Std.OrientedCmp.eq_swap
  isLE_trans := Std.TransCmp.isLE_trans

theorem dualSortRangeBy_ok {v : RVec α} {w : RVec β} {l : List α} {m : List β} (b : Built v) (h : Shows v l)
    (b' : Built w) (h' : Shows w m) (cmp : α → α → Ordering) [Std.TransCmp cmp]
    {sb eb : Bound} {lo hi : Nat} (hs : rangeStart sb = .ok lo) (he : rangeEnd v.len eb = .ok hi)
    (h1 : lo ≤ hi) (h2 : hi ≤ l.length) (h3 : hi ≤ m.length) (next : ρ → Nat × ρ) (rng : ρ) :
    ∃ v' w' L, v.dualSortRangeBy w cmp sb eb next rng = .ok (v', w') ∧ Built v' ∧ Built w' ∧
      Shows v' (L.map Prod.fst ++ l.drop hi) ∧ Shows w' (L.map Prod.snd ++ m.drop hi) ∧
      Within lo hi ((l.take hi).zip (m.take hi)) L ∧
      (slice L lo hi).Pairwise (fun x y => cmp x.1 y.1 ≠ .gt) := by
  obtain ⟨f, e, vw⟩ := window_ok b h h1 h2
  obtain ⟨g, e', vw'⟩ := window_ok b' h' h1 h3
  have z : PairHolds v.cells.toList w.cells.toList hi (l.drop hi) (m.drop hi) (v, w) ((l.take hi).zip (m.take hi)) := by
    refine ⟨⟨b, ?_, rfl⟩, ⟨b', ?_, rfl⟩, by simp; omega⟩
    · rw [List.map_fst_zip (by simp; omega), List.take_append_drop]; exact h
    · rw [List.map_snd_zip (by simp; omega), List.take_append_drop]; exact h'
  obtain ⟨⟨v', w'⟩, rng', L, e2, hR, hw, hp⟩ := SortFocus.sort_ok
    (dual_lawful cmp v.cells.toList w.cells.toList hi (l.drop hi) (m.drop hi)) next (f.len + 1)
    (rng := rng) z (⟨vw, vw', Nat.le_refl _⟩ : PairViews _ _ hi (f, g) lo hi) (by rw [vw.len]; omega)
  refine ⟨v', w', L, ?_, hR.fst.built, hR.snd.built, hR.fst.shows', hR.snd.shows', hw, hp⟩
  rw [dualSortRangeBy, hs, he]
  simp only [ok_bind, e, e', e2]

theorem dualSortRangeBy_panic {v : RVec α} {w : RVec β} {l : List α} {m : List β} (b : Built v) (h : Shows v l)
    (b' : Built w) (h' : Shows w m) (cmp : α → α → Ordering)
    {sb eb : Bound} {lo hi : Nat} (hs : rangeStart sb = .ok lo) (he : rangeEnd v.len eb = .ok hi)
    (h1 : hi < lo ∨ l.length < hi ∨ m.length < hi) (next : ρ → Nat × ρ) (rng : ρ) :
    v.dualSortRangeBy w cmp sb eb next rng = .error .panic := by
  rw [dualSortRangeBy, hs, he]
  simp only [ok_bind]
  by_cases h2 : hi < lo ∨ l.length < hi
  · rw [window_panic b h h2]; rfl
  · obtain ⟨f, e, -⟩ := window_ok b h (lo := lo) (hi := hi) (by omega) (by omega)
    rw [e]
    simp only [ok_bind, window_panic b' h' (lo := lo) (hi := hi) (by omega)]
    rfl

/-! ### Reversing -/

theorem reverseLoop_ok {cs : List Cell} {lo mid hi : Nat} (h1 : mid - lo ≤ hi - mid) (hmid : mid ≤ hi) :
    ∀ (n i : Nat) {v : RVec α} {L : List α} {left right : FMut Cell}, Holds cs v L → Views cs left lo mid →
    Views cs right mid hi → i + n = mid - lo → ∃ v' L', reverseLoop (hi - mid) n i v left right = .ok v' ∧ Holds cs v' L' ∧
      ∀ k, L'[k]? = if (lo + i ≤ k ∧ k < mid) ∨ (hi - (mid - lo) ≤ k ∧ k < hi - i) then L[lo + hi - 1 - k]? else L[k]? := by
  intro n
  induction n with
  | zero =>
    intro i v L left right hv vl vr hi'
    have := vl.le
    exact ⟨v, L, rfl, hv, fun k => by rw [if_neg (by omega)]⟩
  | succ n ih =>
    intro i v L left right hv vl vr hi'
    have a1 := vl.le
    have a2 := vl.le'
    have a3 := vr.le'
    have hL := hv.length
    obtain ⟨c, left', e1, hc, vl'⟩ := vl.index (i := i) (by omega)
    obtain ⟨d, right', e2, hd, vr'⟩ := vr.index (i := hi - mid - 1 - i) (by omega)
    obtain ⟨v1, e3, hv1⟩ := hv.swap hc hd
    rw [show mid + (hi - mid - 1 - i) = hi - 1 - i by omega] at hv1
    obtain ⟨v2, L2, e4, hv2, hk⟩ := ih (i + 1) hv1 vl' vr' (by omega)
    refine ⟨v2, L2, ?_, hv2, fun k => ?_⟩
    · rw [reverseLoop, e1, usub_ok (by omega)]
      simp only [ok_bind]
      rw [usub_ok (by omega)]
      simp only [ok_bind, e2, e3]
      exact e4
    · rw [hk k, swapAt_get? (by omega) (by omega), swapAt_get? (by omega) (by omega)]
      by_cases q1 : k = lo + i
      · rw [if_neg (by omega), if_neg (by omega), if_pos q1, if_pos (by omega), show lo + hi - 1 - k = hi - 1 - i by omega]
      · by_cases q2 : k = hi - 1 - i
        · rw [if_neg (by omega), if_pos q2, if_pos (by omega), show lo + hi - 1 - k = lo + i by omega]
        · by_cases q3 : (lo + i ≤ k ∧ k < mid) ∨ (hi - (mid - lo) ≤ k ∧ k < hi - i)
          · rw [if_pos (by omega), if_neg (by omega), if_neg (by omega), if_pos q3]
          · rw [if_neg (by omega), if_neg q2, if_neg q1, if_neg q3]

/-- The sequence with the positions `lo..hi` in reverse. -/
theorem reversed_get? (l : List α) {lo hi : Nat} (h1 : lo ≤ hi) (h2 : hi ≤ l.length) (k : Nat) :
    (l.take lo ++ ((l.take hi).drop lo).reverse ++ l.drop hi)[k]? =
      if lo ≤ k ∧ k < hi then l[lo + hi - 1 - k]? else l[k]? := by
  have e1 : (l.take lo).length = lo := by simp; omega
  have e2 : ((l.take hi).drop lo).reverse.length = hi - lo := by simp; omega
  by_cases q1 : k < lo
  · rw [if_neg (by omega), List.append_assoc, List.getElem?_append_left (by omega), List.getElem?_take, if_pos q1]
  · rw [List.append_assoc, List.getElem?_append_right (by omega), e1]
    by_cases q2 : k < hi
    · rw [if_pos (by omega), List.getElem?_append_left (by omega), List.getElem?_reverse (by simpa using by omega)]
      rw [List.getElem?_drop, List.getElem?_take]
      have e3 : ((l.take hi).drop lo).length = hi - lo := by simpa using e2
      rw [e3, if_pos (by omega)]
      congr 1; omega
    · rw [if_neg (by omega), List.getElem?_append_right (by omega), e2, List.getElem?_drop]
      congr 1; omega

theorem reverseRange_ok {v : RVec α} {l : List α} (b : Built v) (h : Shows v l)
    {sb eb : Bound} {lo hi : Nat} (hs : rangeStart sb = .ok lo) (he : rangeEnd v.len eb = .ok hi)
    (h1 : lo ≤ hi) (h2 : hi ≤ l.length) :
    ∃ v', v.reverseRange sb eb = .ok v' ∧ Built v' ∧
      Shows v' (l.take lo ++ ((l.take hi).drop lo).reverse ++ l.drop hi) := by
  obtain ⟨f, e, w⟩ := window_ok b h h1 h2
  have hl := w.len
  obtain ⟨left, right, e1, vl, vr⟩ := w.splitAt (k := f.len / 2) (by omega)
  obtain ⟨v', L', e2, hv, hk⟩ := reverseLoop_ok (lo := lo) (mid := lo + f.len / 2) (hi := hi) (by omega) (by omega)
    (f.len / 2) 0 (⟨b, h, rfl⟩ : Holds v.cells.toList v l) vl vr (by omega)
  refine ⟨v', ?_, hv.built, ?_⟩
  · rw [reverseRange, hs, he]
    simp only [ok_bind, e, e1]
    rw [vr.len]
    exact e2
  · have : L' = l.take lo ++ ((l.take hi).drop lo).reverse ++ l.drop hi := by
      apply List.ext_getElem?
      intro k
      rw [reversed_get? l h1 h2, hk k]
      by_cases q : lo ≤ k ∧ k < hi
      · rw [if_pos q]
        split
        · rfl
        · congr 1; omega
      · rw [if_neg q, if_neg (by omega)]
    rw [← this]
    exact hv.shows'

theorem reverseRange_panic {v : RVec α} {l : List α} (b : Built v) (h : Shows v l)
    {sb eb : Bound} {lo hi : Nat} (hs : rangeStart sb = .ok lo) (he : rangeEnd v.len eb = .ok hi)
    (h1 : hi < lo ∨ l.length < hi) : v.reverseRange sb eb = .error .panic := by
  rw [reverseRange, hs, he]
  simp only [ok_bind, window_panic b h h1]
  rfl

end Librrb
