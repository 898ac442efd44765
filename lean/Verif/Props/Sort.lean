import Verif.Props.FocusMut
import Verif.Proof.SortAny

/-!
# Properties of the sorts and reversals

A comparator is a total preorder when it is `Std.TransCmp`: `cmp y x` is the opposite of `cmp x y`, and
"not greater" is transitive. The generator is any function `next` on any state; the one that the code
seeds is one of them.
-/
namespace Librrb
open RVec

theorem Within.around {L L' : List γ} {a b : Nat} (h : Within a b L L') (hab : a ≤ b) :
    L' = L.take a ++ slice L' a b ++ L.drop b := by
  have e1 : L'.take a = L.take a := by
    have := h.slice_same (c := 0) (d := a) (by omega)
    simpa [slice] using this
  have e2 : L'.drop b = L.drop b := by
    apply List.ext_getElem?
    intro i
    rw [List.getElem?_drop, List.getElem?_drop, h.same _ (by omega)]
  rw [← e1, ← e2, slice, show L'.take a = (L'.take b).take a by rw [List.take_take, Nat.min_eq_left hab],
    List.take_append_drop, List.take_append_drop]

/-! ### C35, C36 -/

/-- C36: `sort_range_by` with a total preorder rearranges the positions of the range so that they are
ordered, and leaves the positions before and after the range alone. It returns, whatever numbers the
generator gives. -/
theorem C36_sort_range {v : RVec α} {l : List α} (b : Built v) (h : Shows v l) (cmp : α → α → Ordering) [Std.TransCmp cmp]
    (sb eb : Bound) (h1 : sb.first ≤ eb.afterLast l.length) (h2 : eb.afterLast l.length ≤ l.length)
    (next : ρ → Nat × ρ) (rng : ρ) :
    ∃ v' m, v.sortRangeBy cmp sb eb next rng = .ok v' ∧ Built v' ∧
      Shows v' (l.take sb.first ++ m ++ l.drop (eb.afterLast l.length)) ∧
      m.Perm ((l.take (eb.afterLast l.length)).drop sb.first) ∧ m.Pairwise (fun x y => cmp x y ≠ .gt) := by
  have hlt := b.length_lt h
  obtain ⟨v', l', e, b', s', w, p⟩ := sortRangeBy_ok b h cmp (rangeStart_first (sb := sb) (by omega))
    (eb := eb) (rangeEnd_afterLast (by rw [h.1]; omega)) (by rw [h.1]; exact h1) (by rw [h.1]; exact h2) next rng
  rw [h.1] at w p
  exact ⟨v', slice l' sb.first (eb.afterLast l.length), e, b', by rw [← w.around h1]; exact s', w.slice_perm h1 h2, p⟩

/-- C36: a range that ends before it starts, or after the end of the vector, is refused by a panic. -/
theorem C36_sort_range_refused {v : RVec α} {l : List α} (b : Built v) (h : Shows v l) (cmp : α → α → Ordering)
    (sb eb : Bound) (hs : sb.first < USIZE_LIMIT) (he : eb.afterLast l.length < USIZE_LIMIT)
    (h1 : eb.afterLast l.length < sb.first ∨ l.length < eb.afterLast l.length) (next : ρ → Nat × ρ) (rng : ρ) :
    v.sortRangeBy cmp sb eb next rng = .error .panic :=
  sortRangeBy_panic b h cmp (rangeStart_first hs) (rangeEnd_afterLast (n := v.len) (by rw [h.1]; exact he))
    (by rw [h.1]; exact h1) next rng

/-- C36: sorting a range by a key orders it by the key. -/
theorem C36_sort_range_by_key [Ord K] [Std.TransOrd K] {v : RVec α} {l : List α} (b : Built v) (h : Shows v l) (key : α → K)
    (sb eb : Bound) (h1 : sb.first ≤ eb.afterLast l.length) (h2 : eb.afterLast l.length ≤ l.length)
    (next : ρ → Nat × ρ) (rng : ρ) :
    ∃ v' m, v.sortRangeByKey key sb eb next rng = .ok v' ∧ Built v' ∧
      Shows v' (l.take sb.first ++ m ++ l.drop (eb.afterLast l.length)) ∧
      m.Perm ((l.take (eb.afterLast l.length)).drop sb.first) ∧
      m.Pairwise (fun x y => compare (key x) (key y) ≠ .gt) := by
  have : Std.TransCmp (fun x y : α => compare (key x) (key y)) :=
    { eq_swap := Std.OrientedCmp.eq_swap, isLE_trans := Std.TransCmp.isLE_trans }
  exact C36_sort_range b h (fun x y => compare (key x) (key y)) sb eb h1 h2 next rng

/-- C35: `sort_by` with a total preorder returns, whatever numbers the generator gives, and the vector
then shows a permutation of what it showed, ordered by the comparator. -/
theorem C35_sort_by {v : RVec α} {l : List α} (b : Built v) (h : Shows v l) (cmp : α → α → Ordering) [Std.TransCmp cmp]
    (next : ρ → Nat × ρ) (rng : ρ) :
    ∃ v' l', v.sortBy cmp next rng = .ok v' ∧ Built v' ∧ Shows v' l' ∧ l'.Perm l ∧
      l'.Pairwise (fun x y => cmp x y ≠ .gt) := by
  obtain ⟨v', m, e, b', s', p, q⟩ := C36_sort_range b h cmp .unbounded .unbounded (Nat.zero_le _) (Nat.le_refl _) next rng
  simp only [Bound.first, Bound.afterLast, List.take_zero, List.nil_append, List.drop_length, List.append_nil,
    List.take_length, List.drop_zero] at s' p
  exact ⟨v', m, e, b', s', p, q⟩

/-- C35, for `sort` with an order in which only equal items compare `Equal`: what the vector shows
afterwards is determined, so that it does not depend on the numbers of the generator. -/
theorem C35_sort [Ord α] [Std.TransOrd α] [Std.LawfulEqOrd α] {v : RVec α} {l l' : List α} (b : Built v) (h : Shows v l)
    (hp : l'.Perm l) (hs : l'.Pairwise (fun x y => compare x y ≠ .gt)) (next : ρ → Nat × ρ) (rng : ρ) :
    ∃ v', v.sort next rng = .ok v' ∧ Built v' ∧ Shows v' l' := by
  obtain ⟨v', m, e, b', s', p, q⟩ := C35_sort_by b h compare next rng
  refine ⟨v', e, b', ?_⟩
  have : m = l' := (p.trans hp.symm).eq_of_pairwise (le := fun x y => compare x y ≠ .gt)
    (fun x y _ _ h1 h2 => Std.LawfulEqOrd.eq_of_compare (by
      cases hc : compare x y with
      | eq => rfl
      | gt => exact absurd hc h1
      | lt => exact absurd (Std.OrientedCmp.gt_iff_lt.2 hc) h2)) q hs
  rw [← this]
  exact s'

/-- The items of `5000`, `4999`, ..., sorted with two generators. -/
example : ∃ (v v' v'' : RVec Nat), Built v ∧ Shows v (List.range 5000).reverse ∧
    v.sort (fun s : Nat => (s * 31 + 7, s + 1)) 5 = .ok v' ∧ v.sort (fun _ : Unit => (0, ())) () = .ok v'' ∧
    Shows v' (List.range 5000) ∧ Shows v'' (List.range 5000) := by
  obtain ⟨v, -, b, s⟩ := exists_built (List.range 5000).reverse (by rw [List.length_reverse, List.length_range]; decide)
  have hs : (List.range 5000).Pairwise (fun x y => compare x y ≠ .gt) :=
    List.pairwise_lt_range.imp fun h => by rw [Nat.compare_eq_lt.2 h]; decide
  obtain ⟨v', e, -, s'⟩ := C35_sort b s (List.reverse_perm _).symm hs (fun s : Nat => (s * 31 + 7, s + 1)) 5
  obtain ⟨v'', e', -, s''⟩ := C35_sort b s (List.reverse_perm _).symm hs (fun _ : Unit => (0, ())) ()
  exact ⟨v, v', v'', b, s, e, e', s', s''⟩

/-- A comparator for which different items are equal. -/
example : ∃ (v v' : RVec Nat) (l' : List Nat), Built v ∧
    v.sortBy (fun x y => compare (x % 10) (y % 10)) (fun s : Nat => (s, s * 3)) 1 = .ok v' ∧ Shows v' l' ∧
    l'.Perm (List.range 5000) ∧ l'.Pairwise (fun x y => x % 10 ≤ y % 10) := by
  obtain ⟨v, b, s⟩ := sample
  have : Std.TransCmp (fun x y : Nat => compare (x % 10) (y % 10)) :=
    { eq_swap := Std.OrientedCmp.eq_swap, isLE_trans := Std.TransCmp.isLE_trans }
  obtain ⟨v', l', e, -, s', p, q⟩ := C35_sort_by b s (fun x y => compare (x % 10) (y % 10)) (fun s : Nat => (s, s * 3)) 1
  exact ⟨v, v', l', b, e, s', p, q.imp fun h => Nat.compare_ne_gt.1 h⟩

example : ∃ (v v' : RVec Nat) (m : List Nat), Built v ∧
    v.sortRangeByKey (fun x => 10000 - x) (.included 100) (.included 4000) (fun s : Nat => (s, s * 3)) 1 = .ok v' ∧
    Shows v' (List.range 100 ++ m ++ (List.range 5000).drop 4001) ∧ m.Perm (((List.range 5000).take 4001).drop 100) ∧
    m.Pairwise (fun x y => 10000 - x ≤ 10000 - y) ∧
    v.sortRangeBy compare (.included 100) (.included 5000) (fun s : Nat => (s, s * 3)) 1 = .error .panic := by
  obtain ⟨v, b, s⟩ := sample
  obtain ⟨v', m, e, -, s', p, q⟩ := C36_sort_range_by_key b s (fun x => 10000 - x) (.included 100) (.included 4000)
    (by decide) (by rw [List.length_range]; decide) (fun s : Nat => (s, s * 3)) 1
  refine ⟨v, v', m, b, e, ?_, p, q.imp fun h => Nat.compare_ne_gt.1 h, ?_⟩
  · rw [show List.range 100 = (List.range 5000).take 100 by rw [List.take_range]; rfl]
    exact s'
  · exact C36_sort_range_refused b s compare _ _ (by decide) (by decide) (.inr (by rw [List.length_range]; decide)) _ _

/-! ### C37 -/

/-- C37: `dual_sort_range_by` rearranges the positions of the range in both vectors in the same way, so
that what was at the same position before is at the same position after. The first is then ordered in
the range, and nothing else has changed in either. -/
theorem C37_dual_sort_range {v : RVec α} {w : RVec β} {l : List α} {m : List β} (b : Built v) (h : Shows v l)
    (b' : Built w) (h' : Shows w m) (cmp : α → α → Ordering) [Std.TransCmp cmp]
    (sb eb : Bound) (h1 : sb.first ≤ eb.afterLast l.length) (h2 : eb.afterLast l.length ≤ l.length)
    (h3 : eb.afterLast l.length ≤ m.length) (next : ρ → Nat × ρ) (rng : ρ) :
    ∃ (v' : RVec α) (w' : RVec β) (L : List (α × β)), v.dualSortRangeBy w cmp sb eb next rng = .ok (v', w') ∧ Built v' ∧ Built w' ∧
      Shows v' (l.take sb.first ++ L.map Prod.fst ++ l.drop (eb.afterLast l.length)) ∧
      Shows w' (m.take sb.first ++ L.map Prod.snd ++ m.drop (eb.afterLast l.length)) ∧
      L.Perm (((l.take (eb.afterLast l.length)).drop sb.first).zip ((m.take (eb.afterLast l.length)).drop sb.first)) ∧
      L.Pairwise (fun x y => cmp x.1 y.1 ≠ .gt) := by
  have hlt := b.length_lt h
  obtain ⟨v', w', L, e, bv, bw, sv, sw, w0, p⟩ := dualSortRangeBy_ok b h b' h' cmp (rangeStart_first (sb := sb) (by omega))
    (eb := eb) (rangeEnd_afterLast (by rw [h.1]; omega)) (by rw [h.1]; exact h1) (by rw [h.1]; exact h2)
    (by rw [h.1]; exact h3) next rng
  rw [h.1] at w0 p sv sw
  generalize eb.afterLast l.length = hi at *
  generalize sb.first = lo at *
  have hlen : ((l.take hi).zip (m.take hi)).length = hi := by simp; omega
  have ar := w0.around h1
  rw [List.drop_of_length_le (Nat.le_of_eq hlen), List.append_nil] at ar
  have pz := w0.slice_perm h1 (by omega)
  rw [slice.eq_def ((l.take hi).zip (m.take hi)), List.take_of_length_le (l := (l.take hi).zip (m.take hi)) (Nat.le_of_eq hlen), List.zip, List.drop_zipWith] at pz
  refine ⟨v', w', slice L lo hi, e, bv, bw, ?_, ?_, pz, p⟩
  · rw [ar, List.map_append, List.map_take, List.map_fst_zip (by simp; omega), List.take_take, Nat.min_eq_left h1] at sv
    exact sv
  · rw [ar, List.map_append, List.map_take, List.map_snd_zip (by simp; omega), List.take_take, Nat.min_eq_left h1] at sw
    exact sw

/-- C37: `dual_sort_by`, when the second vector is at least as long as the first. -/
theorem C37_dual_sort {v : RVec α} {w : RVec β} {l : List α} {m : List β} (b : Built v) (h : Shows v l)
    (b' : Built w) (h' : Shows w m) (cmp : α → α → Ordering) [Std.TransCmp cmp] (hlen : l.length ≤ m.length)
    (next : ρ → Nat × ρ) (rng : ρ) :
    ∃ (v' : RVec α) (w' : RVec β) (L : List (α × β)), v.dualSortBy w cmp next rng = .ok (v', w') ∧ Built v' ∧ Built w' ∧ Shows v' (L.map Prod.fst) ∧
      Shows w' (L.map Prod.snd ++ m.drop l.length) ∧ L.Perm (l.zip m) ∧ L.Pairwise (fun x y => cmp x.1 y.1 ≠ .gt) := by
  obtain ⟨v', w', L, e, bv, bw, sv, sw, p, q⟩ := C37_dual_sort_range b h b' h' cmp .unbounded .unbounded
    (Nat.zero_le _) (Nat.le_refl _) hlen next rng
  simp only [Bound.first, Bound.afterLast, List.take_zero, List.nil_append, List.drop_length, List.append_nil,
    List.take_length, List.drop_zero] at sv sw p
  refine ⟨v', w', L, e, bv, bw, sv, sw, ?_, q⟩
  rwa [show l.zip (m.take l.length) = l.zip m by
    rw [List.zip_eq_zip_take_min (l₁ := l) (l₂ := m), Nat.min_eq_left hlen, List.take_length]] at p

/-- C37: when one of the vectors is too short, or the range ends before it starts, the call panics. -/
theorem C37_dual_sort_refused {v : RVec α} {w : RVec β} {l : List α} {m : List β} (b : Built v) (h : Shows v l)
    (b' : Built w) (h' : Shows w m) (cmp : α → α → Ordering) (sb eb : Bound) (hs : sb.first < USIZE_LIMIT)
    (he : eb.afterLast l.length < USIZE_LIMIT) (h1 : eb.afterLast l.length < sb.first ∨
      l.length < eb.afterLast l.length ∨ m.length < eb.afterLast l.length) (next : ρ → Nat × ρ) (rng : ρ) :
    v.dualSortRangeBy w cmp sb eb next rng = .error .panic :=
  dualSortRangeBy_panic b h b' h' cmp (rangeStart_first hs) (rangeEnd_afterLast (n := v.len) (by rw [h.1]; exact he))
    (by rw [h.1]; exact h1) next rng

/-- The positions `0..5000` in descending order go along with what they are the negatives of. -/
example : ∃ (v w v' w' : RVec Nat), Built v ∧ Built w ∧ v.dualSortBy w compare (fun s : Nat => (s * s, s + 3)) 2 = .ok (v', w') ∧
    Shows v (List.range 5000).reverse ∧ Shows w ((List.range 300).drop 100 ++ List.range 7000) ∧
    Shows v' (List.range 5000) ∧ w.dualSortBy v compare (fun s : Nat => (s * s, s + 3)) 2 = .error .panic := by
  obtain ⟨v, -, b, s⟩ := exists_built (List.range 5000).reverse (by rw [List.length_reverse, List.length_range]; decide)
  obtain ⟨w, b', s'⟩ := sample'
  have hle : (List.range 5000).reverse.length ≤ ((List.range 300).drop 100 ++ List.range 7000).length := by
    simp only [List.length_reverse, List.length_append, List.length_drop, List.length_range]; omega
  obtain ⟨v', w', L, e, -, -, sv, sw, p, q⟩ := C37_dual_sort b s b' s' compare hle (fun s : Nat => (s * s, s + 3)) 2
  refine ⟨v, w, v', w', b, b', e, s, s', ?_, ?_⟩
  · have p1 : (L.map Prod.fst).Perm (List.range 5000) := by
      have := p.map Prod.fst
      rw [List.map_fst_zip hle] at this
      exact this.trans (List.reverse_perm _)
    have q1 : (L.map Prod.fst).Pairwise (fun x y => x ≤ y) := by
      rw [List.pairwise_map]; exact q.imp fun h => Nat.compare_ne_gt.1 h
    rw [← p1.eq_of_pairwise (le := fun x y => x ≤ y) (fun _ _ _ _ => Nat.le_antisymm) q1
      (List.pairwise_lt_range.imp Nat.le_of_lt)]
    exact sv
  · refine C37_dual_sort_refused b' s' b s compare .unbounded .unbounded (by decide) ?_ (.inr (.inr ?_)) _ _
    · simp only [Bound.afterLast, List.length_append, List.length_drop, List.length_range]; omega
    · simp only [Bound.afterLast, List.length_append, List.length_drop, List.length_range, List.length_reverse]; omega

/-! ### C46 -/

theorem bind_pure_error {m : M τ} {e : Fault} (h : (m.bind fun _ => .ok ()) = .error e) : m = .error e := by
  cases m with
  | ok x => cases h
  | error x => exact congrArg _ (by injection h)

/-- C46: with any comparator at all, `sort_range_by` either returns, and then the range is rearranged
and the rest of the vector is as it was, or panics, or does not return. There is no other outcome. -/
theorem C46_any_comparator {v : RVec α} {l : List α} (b : Built v) (h : Shows v l) (cmp : α → α → Ordering)
    (sb eb : Bound) (h1 : sb.first ≤ eb.afterLast l.length) (h2 : eb.afterLast l.length ≤ l.length)
    (next : ρ → Nat × ρ) (rng : ρ) :
    (∃ v' m, v.sortRangeBy cmp sb eb next rng = .ok v' ∧ Built v' ∧
      Shows v' (l.take sb.first ++ m ++ l.drop (eb.afterLast l.length)) ∧
      m.Perm ((l.take (eb.afterLast l.length)).drop sb.first)) ∨
    v.sortRangeBy cmp sb eb next rng = .error .panic ∨ v.sortRangeBy cmp sb eb next rng = .error .diverge := by
  have hlt := b.length_lt h
  have f := sortRangeBy_any b h cmp (rangeStart_first (sb := sb) (by omega))
    (eb := eb) (rangeEnd_afterLast (by rw [h.1]; omega)) (by rw [h.1]; exact h1) (by rw [h.1]; exact h2) next rng
  rw [h.1] at f
  cases e : v.sortRangeBy cmp sb eb next rng with
  | ok v' =>
    rw [e] at f
    obtain ⟨l', b', s', w⟩ := f
    exact .inl ⟨v', _, rfl, b', by rw [← w.around h1]; exact s', w.slice_perm h1 h2⟩
  | error x =>
    rw [e] at f
    rcases f with rfl | rfl
    · exact .inr (.inl rfl)
    · exact .inr (.inr rfl)

/-- C46 for two vectors: the pairs stay together. -/
theorem C46_any_comparator_dual {v : RVec α} {w : RVec β} {l : List α} {m : List β} (b : Built v) (h : Shows v l)
    (b' : Built w) (h' : Shows w m) (cmp : α → α → Ordering) (hlen : l.length ≤ m.length) (next : ρ → Nat × ρ) (rng : ρ) :
    (∃ (v' : RVec α) (w' : RVec β) (L : List (α × β)), v.dualSortBy w cmp next rng = .ok (v', w') ∧ Built v' ∧ Built w' ∧
      Shows v' (L.map Prod.fst) ∧ Shows w' (L.map Prod.snd ++ m.drop l.length) ∧ L.Perm (l.zip m)) ∨
    v.dualSortBy w cmp next rng = .error .panic ∨ v.dualSortBy w cmp next rng = .error .diverge := by
  have f := dualSortRangeBy_any b h b' h' cmp (sb := .unbounded) (eb := .unbounded) rfl (show rangeEnd v.len .unbounded = .ok l.length by
    rw [h.1]; rfl) (Nat.zero_le _) (Nat.le_refl _) hlen next rng
  rw [dualSortBy]
  cases e : v.dualSortRangeBy w cmp .unbounded .unbounded next rng with
  | ok r =>
    rw [e] at f
    obtain ⟨L, b1, b2, s1, s2, w⟩ := f
    refine .inl ⟨r.1, r.2, L, rfl, b1, b2, by simpa using s1, s2, ?_⟩
    have := w.perm
    rwa [List.take_length, show l.zip (m.take l.length) = l.zip m by
      rw [List.zip_eq_zip_take_min (l₁ := l) (l₂ := m), Nat.min_eq_left hlen, List.take_length]] at this
  | error x =>
    rw [e] at f
    rcases f with rfl | rfl
    · exact .inr (.inl rfl)
    · exact .inr (.inr rfl)

/-- Both of the bad outcomes happen: with `9` as an item that is `Equal` to everything, as one may do
with a float that is not a number, the sort can panic, or go round its loop without end. -/
theorem C46_panics : ∃ v : RVec Nat, Built v ∧ Shows v [9, 8, 7, 7] ∧
    v.sortBy (fun x y => if x = 9 ∨ y = 9 then .eq else compare x y) (fun s : Nat => (s, s * 5 + 3)) 1 = .error .panic := by
  obtain ⟨v, e, b, s⟩ := exists_built [9, 8, 7, 7] (by decide)
  refine ⟨v, b, s, ?_⟩
  have h : ((fromIter [9, 8, 7, 7]).bind fun v => (v.sortBy (fun x y => if x = 9 ∨ y = 9 then .eq else compare x y)
    (fun s : Nat => (s, s * 5 + 3)) 1).bind fun _ => .ok ()) = .error .panic := by decide +kernel
  rw [e] at h
  exact bind_pure_error h

example : ∃ v : RVec Nat, Built v ∧ Shows v [9, 9, 8, 7, 6] ∧
    v.sortBy (fun x y => if x = 9 ∨ y = 9 then .eq else compare x y) (fun s : Nat => (s, s * 5 + 3)) 3 = .error .diverge := by
  obtain ⟨v, e, b, s⟩ := exists_built [9, 9, 8, 7, 6] (by decide)
  refine ⟨v, b, s, ?_⟩
  have h : ((fromIter [9, 9, 8, 7, 6]).bind fun v => (v.sortBy (fun x y => if x = 9 ∨ y = 9 then .eq else compare x y)
    (fun s : Nat => (s, s * 5 + 3)) 3).bind fun _ => .ok ()) = .error .diverge := by decide +kernel
  rw [e] at h
  exact bind_pure_error h

example : ∃ (v v' : RVec Nat) (m : List Nat), Built v ∧
    v.sortRangeBy (fun _ _ => .gt) (.included 10) .unbounded (fun s : Nat => (s, s)) 0 = .ok v' ∧ m.Perm ((List.range 20).drop 10) ∧
    Shows v' (List.range 10 ++ m) := by
  have h : ((fromIter (List.range 20)).bind fun v =>
      (v.sortRangeBy (fun _ _ => .gt) (.included 10) .unbounded (fun s : Nat => (s, s)) 0).bind fun _ => .ok ()) = .ok () := by
    decide +kernel
  obtain ⟨v, e, b, s⟩ := exists_built (List.range 20) (by decide)
  rw [e] at h
  obtain ⟨_, e0, h⟩ := bind_ok h
  cases e0
  obtain ⟨v', e', -⟩ := bind_ok h
  rcases C46_any_comparator b s (fun _ _ => .gt) (.included 10) .unbounded (by decide) (by decide)
    (fun s : Nat => (s, s)) 0 with ⟨v'', m, e'', -, s'', p⟩ | h | h
  · exact ⟨v, v'', m, b, e'', p, by
      have h20 : (List.range 20).drop (Bound.afterLast (List.range 20).length .unbounded) = [] := by decide
      have h10 : (List.range 20).take (Bound.first (.included 10)) = List.range 10 := by decide
      rw [h20, h10, List.append_nil] at s''
      exact s''⟩
  · rw [h] at e'; cases e'
  · rw [h] at e'; cases e'

/-! ### C38 -/

/-- C38: `reverse_range` reverses the positions of the range and leaves the others alone; a range that
ends before it starts, or after the end of the vector, is refused by a panic. -/
theorem C38_reverse_range {v : RVec α} {l : List α} (b : Built v) (h : Shows v l) (sb eb : Bound)
    (hs : sb.first < USIZE_LIMIT) (he : eb.afterLast l.length < USIZE_LIMIT) :
    (sb.first ≤ eb.afterLast l.length → eb.afterLast l.length ≤ l.length → ∃ v', v.reverseRange sb eb = .ok v' ∧ Built v' ∧
      Shows v' (l.take sb.first ++ ((l.take (eb.afterLast l.length)).drop sb.first).reverse ++
        l.drop (eb.afterLast l.length))) ∧
    (eb.afterLast l.length < sb.first ∨ l.length < eb.afterLast l.length → v.reverseRange sb eb = .error .panic) := by
  have e1 := rangeStart_first hs
  have e2 : rangeEnd v.len eb = .ok (eb.afterLast l.length) := by rw [h.1]; exact rangeEnd_afterLast he
  exact ⟨fun h1 h2 => reverseRange_ok b h e1 e2 h1 h2, fun h1 => reverseRange_panic b h e1 e2 h1⟩

/-- C38: `reverse` reverses the sequence. -/
theorem C38_reverse {v : RVec α} {l : List α} (b : Built v) (h : Shows v l) :
    ∃ v', v.reverse = .ok v' ∧ Built v' ∧ Shows v' l.reverse := by
  have hlt := b.length_lt h
  obtain ⟨v', e, b', s'⟩ := (C38_reverse_range b h .unbounded .unbounded (by decide) hlt).1 (Nat.zero_le _) (Nat.le_refl _)
  refine ⟨v', e, b', ?_⟩
  simpa [Bound.first, Bound.afterLast] using s'

/-- C38: reversing the same range twice gives the old sequence. -/
theorem C38_twice {v : RVec α} {l : List α} (b : Built v) (h : Shows v l) (sb eb : Bound)
    (h1 : sb.first ≤ eb.afterLast l.length) (h2 : eb.afterLast l.length ≤ l.length) :
    ∃ v' v'', v.reverseRange sb eb = .ok v' ∧ v'.reverseRange sb eb = .ok v'' ∧ Shows v'' l := by
  have hlt := b.length_lt h
  obtain ⟨v', e, b', s'⟩ := (C38_reverse_range b h sb eb (by omega) (by omega)).1 h1 h2
  have hlen : (l.take sb.first ++ ((l.take (eb.afterLast l.length)).drop sb.first).reverse ++
        l.drop (eb.afterLast l.length)).length = l.length := by
    simp; omega
  obtain ⟨v'', e', -, s''⟩ := (C38_reverse_range b' s' sb eb (by omega) (by rw [hlen]; omega)).1
    (by rw [hlen]; exact h1) (by rw [hlen]; exact h2)
  refine ⟨v', v'', e, e', ?_⟩
  rw [hlen] at s''
  generalize eb.afterLast l.length = hi at *
  generalize sb.first = lo at *
  generalize hL : l.take lo ++ ((l.take hi).drop lo).reverse ++ l.drop hi = L at *
  have : L.take lo ++ ((L.take hi).drop lo).reverse ++ L.drop hi = l := by
    apply List.ext_getElem?
    intro k
    rw [reversed_get? L h1 (by omega)]
    subst hL
    rw [reversed_get? l h1 h2, reversed_get? l h1 h2]
    by_cases q : lo ≤ k ∧ k < hi
    · rw [if_pos q, if_pos (by omega)]
      congr 1; omega
    · rw [if_neg q, if_neg q]
  rw [this] at s''
  exact s''

example : ∃ v v' v'' w : RVec Nat, Built v ∧ v.reverse = .ok v' ∧ Shows v' (List.range 5000).reverse ∧
    v.reverseRange (.excluded 69) (.excluded 3001) = .ok v'' ∧
    Shows v'' ((List.range 5000).take 70 ++ (((List.range 5000).take 3001).drop 70).reverse ++ (List.range 5000).drop 3001) ∧
    v''.reverseRange (.excluded 69) (.excluded 3001) = .ok w ∧ Shows w (List.range 5000) ∧
    v.reverseRange (.included 3) (.excluded 2) = .error .panic := by
  obtain ⟨v, b, s⟩ := sample
  obtain ⟨v', e, -, s'⟩ := C38_reverse b s
  have h5 : (List.range 5000).length = 5000 := List.length_range
  obtain ⟨v'', e', -, s''⟩ := (C38_reverse_range b s (.excluded 69) (.excluded 3001) (by decide) (by decide)).1
    (by decide) (by rw [h5]; decide)
  obtain ⟨x, w, ex, ew, sw⟩ := C38_twice b s (.excluded 69) (.excluded 3001) (by decide) (by rw [h5]; decide)
  rw [e'] at ex
  cases ex
  exact ⟨v, v', v'', w, b, e, s', e', s'', ew, sw,
    (C38_reverse_range b s (.included 3) (.excluded 2) (by decide) (by decide)).2 (.inl (by decide))⟩

end Librrb
