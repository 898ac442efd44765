import Verif.Props.Vector
import Verif.Proof.Search
import Mathlib.Order.Nat

/-!
# Properties of the searches and of equality, order and hash
-/
namespace Librrb
open RVec

/-- What the search over a non-empty range inside of the vector does. -/
theorem equalRangeInRange_ok {v : RVec α} {l : List α} (b : Built v) (h : Shows v l) (f : α → Ordering)
    {sb eb : Bound} {lo hi : Nat} (h1 : rangeStart sb = .ok lo) (h2 : searchEnd l.length eb = .ok hi) (hlt : lo < hi)
    (hle : hi ≤ l.length) :
    ∃ hit, v.equalRangeInRangeBy f sb eb = .ok hit ∧ (SortedFor f ((l.take hi).drop lo) → RightHit f l lo hi hit) := by
  obtain ⟨k, i⟩ := b.inv
  obtain rfl := (shows_iff i).1 h
  obtain ⟨fo, e, hf⟩ := Focus.new_ok i
  let o : Nat → Ordering := fun k => if hk : k < v.toList.length then f v.toList[k] else .eq
  have ho : ∀ k (hk : k < v.toList.length), f v.toList[k] = o k := fun k hk => by simp [o, hk]
  obtain ⟨hit, e2, hh⟩ := searchLoop_ok i ho (searchFuel lo hi) hf hlt hle (by unfold searchFuel; omega)
  refine ⟨hit, ?_, fun hs => ?_⟩
  · rw [equalRangeInRangeBy, h1, ok_bind, i.len, h2, ok_bind, e, ok_bind, e2]
  · have hsa : SortedAt o lo hi := by
      intro j k hj hjk hk
      by_cases hjk' : j = k
      · subst hjk'; exact ⟨id, id⟩
      · have := List.pairwise_iff_getElem.1 hs (j - lo) (k - lo) (by simp; omega) (by simp; omega) (by omega)
        simp only [List.getElem_drop, List.getElem_take, show lo + (j - lo) = j by omega,
          show lo + (k - lo) = k by omega, ho] at this
        exact this
    have hh := hh hsa
    have ho' : ∀ k x, v.toList[k]? = some x → f x = o k := by
      intro k x hx
      obtain ⟨hk, rfl⟩ := List.getElem?_eq_some_iff.1 hx
      exact ho k hk
    cases hit with
    | found s t =>
      obtain ⟨a1, a2, a3, a4⟩ := hh
      exact ⟨a1, a2, a3, fun k x hk hk' hx => by rw [ho' k x hx]; exact a4 k hk hk'⟩
    | missing p =>
      obtain ⟨a1, a2, a3⟩ := hh
      exact ⟨a1, a2, fun k x hk hk' hx => by rw [ho' k x hx]; exact a3 k hk hk'⟩

/-! ### C39 -/

/-- C39, for vectors that are not empty (see `C39_empty_panics`): on a sorted vector
`equal_range_by` returns the block of the items that compare `Equal`, or the place where such an item
would go. -/
theorem C39_equal_range_partial {v : RVec α} {l : List α} (b : Built v) (h : Shows v l) (f : α → Ordering)
    (hs : SortedFor f l) (hne : l ≠ []) :
    ∃ hit, v.equalRangeBy f = .ok hit ∧ RightHit f l 0 l.length hit := by
  have := List.length_pos_iff.2 hne
  obtain ⟨hit, e, hh⟩ := equalRangeInRange_ok b h f (sb := .unbounded) (eb := .unbounded) rfl rfl this (Nat.le_refl _)
  exact ⟨hit, e, hh (by simpa using hs)⟩

/-- What `RightHit` means for inserting: putting an item that compares `Equal` at the place reported
by `Err` gives a sorted sequence. -/
theorem gap_insert {f : α → Ordering} {l : List α} {p : Nat} (hg : GapAt f l 0 l.length p) {x : α} (hx : f x = .eq) :
    SortedFor f (l.take p ++ x :: l.drop p) := by
  obtain ⟨-, hp, hg⟩ := hg
  have h1 : ∀ y ∈ l.take p, f y = .lt := by
    intro y hy
    obtain ⟨k, hk, rfl⟩ := List.getElem_of_mem hy
    simp only [List.length_take] at hk
    rw [List.getElem_take]
    exact (hg k _ (by omega) (by omega) (List.getElem?_eq_getElem _)).1 (by omega)
  have h2 : ∀ y ∈ l.drop p, f y = .gt := by
    intro y hy
    obtain ⟨k, hk, rfl⟩ := List.getElem_of_mem hy
    simp only [List.length_drop] at hk
    rw [List.getElem_drop]
    exact (hg (p + k) _ (by omega) (by omega) (List.getElem?_eq_getElem _)).2 (by omega)
  unfold SortedFor
  rw [List.pairwise_append, List.pairwise_cons]
  refine ⟨List.Pairwise.imp_of_mem (R := fun _ _ => True) ?_ (List.pairwise_of_forall fun _ _ => trivial),
    ⟨fun y hy => by simp [h2 y hy, hx], List.Pairwise.imp_of_mem (R := fun _ _ => True) ?_ (List.pairwise_of_forall fun _ _ => trivial)⟩, ?_⟩
  · intro y z hy hz _; simp [h1 y hy, h1 z hz]
  · intro y z hy hz _; simp [h2 y hy, h2 z hz]
  · intro y hy z hz
    rcases List.mem_cons.1 hz with rfl | hz
    · simp [h1 y hy, hx]
    · simp [h1 y hy, h2 z hz]

/-- C39 without sortedness: on a vector that is not empty the search returns, whatever the comparison
does. -/
theorem C39_equal_range_returns {v : RVec α} {l : List α} (b : Built v) (h : Shows v l) (f : α → Ordering)
    (hne : l ≠ []) : ∃ hit, v.equalRangeBy f = .ok hit := by
  have := List.length_pos_iff.2 hne
  obtain ⟨hit, e, -⟩ := equalRangeInRange_ok b h f (sb := .unbounded) (eb := .unbounded) rfl rfl this (Nat.le_refl _)
  exact ⟨hit, e⟩

/-- C39 for `equal_range`: on a vector in ascending order it returns exactly the positions of the items
equal to the value, or the place where the value would go. -/
theorem C39_equal_range_value {K : Type} [Ord K] [Std.TransOrd K] {v : RVec α} {l : List α} (b : Built v) (h : Shows v l)
    (key : α → K) (value : K) (hs : l.Pairwise fun x y => compare (key x) (key y) ≠ .gt) (hne : l ≠ []) :
    ∃ hit, v.equalRange key value = .ok hit ∧ RightHit (fun x => compare (key x) value) l 0 l.length hit := by
  refine C39_equal_range_partial b h _ ?_ hne
  refine hs.imp ?_
  intro x y hxy
  have hle : (compare (key x) (key y)).isLE := by cases hc : compare (key x) (key y) <;> simp_all
  constructor
  · intro hy
    exact Std.TransCmp.lt_of_isLE_of_lt hle hy
  · intro hx
    have hx' : compare value (key x) = .lt := Std.OrientedCmp.gt_iff_lt.1 hx
    exact Std.OrientedCmp.gt_iff_lt.2 (Std.TransCmp.lt_of_lt_of_isLE hx' hle)

/-- C39, the exception: on an empty vector `equal_range_by` never returns a result (it panics), for no
comparison. -/
theorem C39_empty_panics {v : RVec α} (b : Built v) (h : Shows v []) (f : α → Ordering) :
    ∃ e, v.equalRangeBy f = .error e ∧ e ≠ .diverge := by
  obtain ⟨k, i⟩ := b.inv
  have ht := (shows_iff i).1 h
  obtain ⟨fo, e, hf⟩ := Focus.new_ok i
  refine ⟨.panic, ?_, by decide⟩
  have hlen : v.len = 0 := h.1
  rw [equalRangeBy, equalRangeInRangeBy, rangeStart, ok_bind, searchEnd, ok_bind, e, ok_bind, hlen]
  obtain ⟨f', e', -⟩ := Focus.get_ok i hf 0 (by decide)
  rw [ht, if_neg (by simp)] at e'
  have hidx : fo.index 0 = .error .panic := by rw [Focus.index, e']; rfl
  rw [searchFuel, searchLoop, show uadd 0 1 = .ok 1 from rfl]
  simp only [ok_bind, show avg 0 0 = 0 from rfl, hidx]
  rfl

/-- The sequence of the first sample is ascending. -/
theorem range_sorted (n : Nat) : (List.range n).Pairwise fun x y => compare (id x) (id y) ≠ Ordering.gt :=
  List.pairwise_lt_range.imp fun {x y} h => by simp only [id, ne_eq, Nat.compare_eq_gt]; omega

example : ∃ v, Built v ∧ Shows v (List.range 5000) ∧ v.equalRange id 70 = .ok (.found 70 71) := by
  obtain ⟨v, b, s⟩ := sample
  refine ⟨v, b, s, ?_⟩
  obtain ⟨hit, e, hh⟩ := C39_equal_range_value b s id 70 (range_sorted _)
    (List.ne_nil_of_length_pos (by rw [List.length_range]; decide))
  have hl : (List.range 5000).length = 5000 := List.length_range
  have hg : ∀ k, k < 5000 → (List.range 5000)[k]? = some k := fun k hk => List.getElem?_range hk
  generalize List.range 5000 = l at *
  rw [e]
  cases hit with
  | found s t =>
    obtain ⟨h1, h2, h3, h4⟩ := hh
    have a1 := (h4 70 70 (by omega) (by omega) (hg 70 (by omega))).1 (by decide)
    have a2 := mt (h4 69 69 (by omega) (by omega) (hg 69 (by omega))).2 (by decide)
    have a3 := mt (h4 71 71 (by omega) (by omega) (hg 71 (by omega))).2 (by decide)
    rw [show s = 70 by omega, show t = 71 by omega]
  | missing p =>
    obtain ⟨h1, h2, h3⟩ := hh
    obtain ⟨a1, a2⟩ := h3 70 70 (by omega) (by omega) (hg 70 (by omega))
    by_cases hc : 70 < p
    · exact absurd (a1 hc) (by decide)
    · exact absurd (a2 (by omega)) (by decide)

example : ∃ v : RVec Nat, Built v ∧ ∃ e, v.equalRangeBy (fun x => compare x 3) = .error e :=
  ⟨RVec.new, .new, (C39_empty_panics .new ⟨rfl, by
    obtain ⟨k, i⟩ := (Built.new (α := Nat)).inv
    exact ((shows_iff i).2 new_toList).2⟩ _).imp fun _ h => h.1⟩

/-! ### C40 -/

/-- C40, for ranges that are not empty and whose end is not inclusive (for the others see
`C40_included_end` and `C40_empty`): the search inside of the range `lo..hi` answers for these
positions. Only they have to be sorted. -/
theorem C40_in_range_partial {v : RVec α} {l : List α} (b : Built v) (h : Shows v l) (f : α → Ordering)
    {sb eb : Bound} {lo hi : Nat} (h1 : sb.first = lo) (h2 : eb.afterLast l.length = hi)
    (hinc : ∀ x, eb ≠ .included x) (hlt : lo < hi) (hle : hi ≤ l.length) (hs : SortedFor f ((l.take hi).drop lo)) :
    ∃ hit, v.equalRangeInRangeBy f sb eb = .ok hit ∧ RightHit f l lo hi hit := by
  obtain ⟨hit, e, hh⟩ := equalRangeInRange_ok b h f (eb := eb) (h1 ▸ rangeStart_first (by have := b.length_lt h; omega)) (by
    cases eb with
    | included x => exact absurd rfl (hinc x)
    | excluded x => exact congrArg Except.ok h2
    | unbounded => exact congrArg Except.ok h2) hlt hle
  exact ⟨hit, e, hh hs⟩

/-- C40 fails for inclusive ends: `..=x` is searched as if it were `..x - 1`, two positions less, and
`..=0` overflows. -/
theorem C40_included_end (v : RVec α) (f : α → Ordering) (sb : Bound) (x : Nat) :
    v.equalRangeInRangeBy f sb (.included (x + 1)) = v.equalRangeInRangeBy f sb (.excluded x) ∧
      ∃ e, v.equalRangeInRangeBy f sb (.included 0) = .error e := by
  constructor
  · simp only [equalRangeInRangeBy, searchEnd, usub]
    rw [if_pos (by omega), Nat.add_sub_cancel]
  · rw [equalRangeInRangeBy]
    cases rangeStart sb with
    | error e => exact ⟨e, rfl⟩
    | ok a => exact ⟨.overflow, rfl⟩

/-- C40 fails for inclusive ends: an item inside of the range is reported missing. -/
theorem C40_included_wrong : ∃ (v : RVec Nat) (hit : Hit), Built v ∧ Shows v [10, 20, 30] ∧
    SortedFor (fun x => compare x 30) [10, 20, 30] ∧
    v.equalRangeInRangeBy (fun x => compare x 30) (.included 0) (.included 2) = .ok hit ∧
    ¬ RightHit (fun x => compare x 30) [10, 20, 30] 0 3 hit := by
  obtain ⟨v, e, b, s⟩ := exists_built [10, 20, 30] (by decide)
  have h : ((fromIter [10, 20, 30]).bind fun v => v.equalRangeInRangeBy (fun x => compare x 30) (.included 0) (.included 2)) =
      .ok (.missing 1) := by decide +kernel
  rw [e] at h
  refine ⟨v, .missing 1, b, s, by unfold SortedFor; decide, h, ?_⟩
  rintro ⟨-, -, h3⟩
  exact absurd ((h3 2 30 (by decide) (by decide) rfl).2 (by decide)) (by decide)

/-- C40 fails for every empty range, whatever the vector and the comparison: no right answer is ever
returned. If the position does not exist the call panics; otherwise it returns `Ok(0..0)` if the item
there compares `Equal`, and if not, the loop runs forever, that is, for every number of steps. -/
theorem C40_empty {v : RVec α} {l : List α} (b : Built v) (h : Shows v l) (f : α → Ordering) (a : Nat) :
    (¬ ∃ hit, v.equalRangeInRangeBy f (.included a) (.excluded a) = .ok hit ∧ RightHit f l a a hit) ∧
    ∀ (x : α), l[a]? = some x → ∃ fo, Focus.new v = .ok fo ∧
      (f x = .eq → v.equalRangeInRangeBy f (.included a) (.excluded a) = .ok (.found 0 0)) ∧
      (f x ≠ .eq → v.equalRangeInRangeBy f (.included a) (.excluded a) = .error .diverge ∧
        ∀ steps, searchLoop v f steps fo a a = .error .diverge) := by
  obtain ⟨k, i⟩ := b.inv
  obtain rfl := (shows_iff i).1 h
  obtain ⟨fo, e, hf⟩ := Focus.new_ok i
  have hcall : v.equalRangeInRangeBy f (.included a) (.excluded a) = searchLoop v f (searchFuel a a) fo a a := by
    rw [equalRangeInRangeBy, rangeStart, ok_bind, searchEnd, ok_bind, e, ok_bind]
  refine ⟨?_, fun x hx => ⟨fo, e, ?_⟩⟩
  · rintro ⟨hit, e1, hh⟩
    rw [hcall] at e1
    by_cases ha : a < v.toList.length
    · rw [searchLoop_empty i ha _ hf] at e1
      split at e1
      · cases e1
        exact absurd hh.2.1 (by omega)
      · cases e1
    · obtain ⟨e2, h2⟩ := searchLoop_out i (a := a) (by omega) (f := f) (fuel := searchFuel a a) hf
      rw [h2] at e1
      cases e1
  · obtain ⟨ha, rfl⟩ := List.getElem?_eq_some_iff.1 hx
    rw [hcall]
    refine ⟨fun hq => ?_, fun hq => ⟨?_, fun steps => ?_⟩⟩
    · rw [searchLoop_empty i ha _ hf, if_pos ⟨by unfold searchFuel; omega, hq⟩]
    · rw [searchLoop_empty i ha _ hf, if_neg (by simp [hq])]
    · rw [searchLoop_empty i ha _ hf, if_neg (by simp [hq])]

example : ∃ v hit, Built v ∧ Shows v ((List.range 300).drop 100 ++ List.range 7000) ∧
    v.equalRangeInRangeBy (fun x => compare x 40) (.excluded 220) (.excluded 5000) = .ok hit ∧
    RightHit (fun x => compare x 40) ((List.range 300).drop 100 ++ List.range 7000) 221 5000 hit := by
  obtain ⟨v, b, s⟩ := sample'
  have hsort : SortedFor (fun x => compare x 40) ((((List.range 300).drop 100 ++ List.range 7000).take 5000).drop 221) := by
    have e1 : (((List.range 300).drop 100 ++ List.range 7000).take 5000).drop 221 = ((List.range 7000).take 4800).drop 21 := by
      apply List.ext_getElem?
      intro k
      rw [List.getElem?_drop, List.getElem?_drop, List.getElem?_take, List.getElem?_take]
      by_cases hk : 221 + k < 5000
      · rw [if_pos hk, if_pos (by omega), List.getElem?_append_right (by rw [List.length_drop, List.length_range]; omega),
          List.length_drop, List.length_range]
        rw [show 221 + k - (300 - 100) = 21 + k by omega]
      · rw [if_neg hk, if_neg (by omega)]
    rw [e1]
    refine List.Pairwise.drop (List.Pairwise.take (List.pairwise_lt_range.imp ?_))
    intro x y hxy
    simp only [Nat.compare_eq_lt, Nat.compare_eq_gt]
    omega
  obtain ⟨hit, e, hh⟩ := C40_in_range_partial b s (fun x => compare x 40) (sb := .excluded 220) (eb := .excluded 5000)
    (lo := 221) (hi := 5000) rfl rfl (by simp) (by omega)
    (by rw [List.length_append, List.length_drop, List.length_range, List.length_range]; omega) hsort
  exact ⟨v, hit, b, s, e, hh⟩

example : ∃ v : RVec Nat, Built v ∧ v.equalRangeInRangeBy (fun x => compare x 3) (.included 5) (.excluded 5) = .error .diverge := by
  obtain ⟨v, b, s⟩ := sample
  obtain ⟨-, h⟩ := C40_empty b s (fun x => compare x 3) 5
  obtain ⟨fo, -, -, h⟩ := h 5 (List.getElem?_range (by decide))
  exact ⟨v, b, (h (by decide)).1⟩

/-! ### C41 -/

/-- The search around an index, inside of a range that does not end behind the vector. -/
theorem equalRangeForIndexInRange_ok {v : RVec α} {l : List α} (b : Built v) (h : Shows v l) (f : α → Ordering)
    (index : Nat) {sb eb : Bound} {lo hi : Nat} (h1 : rangeStart sb = .ok lo) (h2 : searchEnd l.length eb = .ok hi)
    (hle : hi ≤ l.length) :
    ∃ s e, v.equalRangeForIndexInRangeBy index f sb eb = .ok (s, e) ∧
      (((lo ≤ index ∧ index < hi ∧ l[index]?.map f = some .eq) → s ≤ index ∧ index < e ∧
          (SortedFor f ((l.take hi).drop lo) → EqualBlock f l lo hi s e)) ∧
        (¬ (lo ≤ index ∧ index < hi ∧ l[index]?.map f = some .eq) → s = 0 ∧ e = 0)) := by
  obtain ⟨k, i⟩ := b.inv
  obtain rfl := (shows_iff i).1 h
  let o : Nat → Ordering := fun k => if hk : k < v.toList.length then f v.toList[k] else .eq
  have ho : ∀ k (hk : k < v.toList.length), f v.toList[k] = o k := fun k hk => by simp [o, hk]
  obtain ⟨g1, g2⟩ := equalRangeForIndex_ok i ho (index := index) h1 (by rw [i.len]; exact h2) hle
  by_cases hc : lo ≤ index ∧ index < hi ∧ v.toList[index]?.map f = some .eq
  · have hq : o index = .eq := by
      rw [← ho index (by omega)]
      have := hc.2.2
      rw [List.getElem?_eq_getElem (by omega)] at this
      simpa using this
    obtain ⟨s, e, e1, a1, a2, a3, a4, a5⟩ := g2 hc.1 hc.2.1 hq
    refine ⟨s, e, e1, fun _ => ⟨a2, a3, fun hs => ⟨a1, by omega, a4, fun k x hk hk' hx => ?_⟩⟩, fun hn => absurd hc hn⟩
    have hsa : SortedAt o lo hi := by
      intro j k hj hjk hk
      by_cases hjk' : j = k
      · subst hjk'; exact ⟨id, id⟩
      · have := List.pairwise_iff_getElem.1 hs (j - lo) (k - lo) (by simp; omega) (by simp; omega) (by omega)
        simp only [List.getElem_drop, List.getElem_take, show lo + (j - lo) = j by omega,
          show lo + (k - lo) = k by omega, ho] at this
        exact this
    obtain ⟨hkl, rfl⟩ := List.getElem?_eq_some_iff.1 hx
    rw [ho k hkl]
    exact a5 hsa k hk hk'
  · refine ⟨0, 0, g1 ?_, fun hn => absurd hn hc, fun _ => ⟨rfl, rfl⟩⟩
    by_cases h1 : lo ≤ index
    · by_cases h2 : index < hi
      · right; right
        intro hq
        apply hc
        refine ⟨h1, h2, ?_⟩
        rw [List.getElem?_eq_getElem (by omega), Option.map_some, ho index (by omega), hq]
      · omega
    · omega

/-- C41 for `equal_range_for_index_by`: around an index that compares `Equal` it returns exactly the
block of the items that compare `Equal`; otherwise, or if there is no such index, an empty range. -/
theorem C41_for_index {v : RVec α} {l : List α} (b : Built v) (h : Shows v l) (f : α → Ordering) (index : Nat)
    (hs : SortedFor f l) :
    ∃ s e, v.equalRangeForIndexBy index f = .ok (s, e) ∧
      (l[index]?.map f = some .eq → s ≤ index ∧ index < e ∧ EqualBlock f l 0 l.length s e) ∧
      (l[index]?.map f ≠ some .eq → s = 0 ∧ e = 0) := by
  obtain ⟨s, e, e1, h1, h2⟩ := equalRangeForIndexInRange_ok b h f index (sb := .unbounded) (eb := .unbounded) rfl rfl
    (Nat.le_refl _)
  refine ⟨s, e, e1, fun hq => ?_, fun hq => h2 fun hh => hq hh.2.2⟩
  have hi : index < l.length := by
    by_contra hh
    rw [List.getElem?_eq_none (by omega)] at hq
    simp at hq
  obtain ⟨a1, a2, a3⟩ := h1 ⟨by omega, hi, hq⟩
  exact ⟨a1, a2, a3 (by simpa using hs)⟩

/-- C41 for the variant with a range, for ends that are not inclusive (for the others see
`C41_included_wrong`). -/
theorem C41_for_index_in_range_partial {v : RVec α} {l : List α} (b : Built v) (h : Shows v l) (f : α → Ordering)
    (index : Nat) {sb eb : Bound} {lo hi : Nat} (h1 : sb.first = lo) (hlo : lo < USIZE_LIMIT) (h2 : eb.afterLast l.length = hi)
    (hinc : ∀ x, eb ≠ .included x) (hle : hi ≤ l.length) (hs : SortedFor f ((l.take hi).drop lo)) :
    ∃ s e, v.equalRangeForIndexInRangeBy index f sb eb = .ok (s, e) ∧
      ((lo ≤ index ∧ index < hi ∧ l[index]?.map f = some .eq) →
        s ≤ index ∧ index < e ∧ EqualBlock f l lo hi s e) ∧
      (¬ (lo ≤ index ∧ index < hi ∧ l[index]?.map f = some .eq) → s = 0 ∧ e = 0) := by
  obtain ⟨s, e, e1, g1, g2⟩ := equalRangeForIndexInRange_ok b h f index (eb := eb) (h1 ▸ rangeStart_first (h1 ▸ hlo)) (by
    cases eb with
    | included x => exact absurd rfl (hinc x)
    | excluded x => exact congrArg Except.ok h2
    | unbounded => exact congrArg Except.ok h2) hle
  exact ⟨s, e, e1, fun hc => ⟨(g1 hc).1, (g1 hc).2.1, (g1 hc).2.2 hs⟩, g2⟩

/-- C41 fails for inclusive ends: the block is cut short, and an index inside of the range is taken to
be outside. -/
theorem C41_included_wrong : ∃ v : RVec Nat, Built v ∧ Shows v [7, 7, 7, 9] ∧
    v.equalRangeForIndexInRangeBy 0 (fun x => compare x 7) (.included 0) (.included 2) = .ok (0, 1) ∧
    v.equalRangeForIndexInRangeBy 2 (fun x => compare x 7) (.included 0) (.included 2) = .ok (0, 0) ∧
    v.equalRangeForIndexInRangeBy 0 (fun x => compare x 7) (.included 0) (.included 0) = .error .overflow := by
  obtain ⟨v, e, b, s⟩ := exists_built [7, 7, 7, 9] (by decide)
  have h1 : ((fromIter [7, 7, 7, 9]).bind fun v => v.equalRangeForIndexInRangeBy 0 (fun x => compare x 7) (.included 0) (.included 2)) =
      .ok (0, 1) := by decide +kernel
  have h2 : ((fromIter [7, 7, 7, 9]).bind fun v => v.equalRangeForIndexInRangeBy 2 (fun x => compare x 7) (.included 0) (.included 2)) =
      .ok (0, 0) := by decide +kernel
  have h3 : ((fromIter [7, 7, 7, 9]).bind fun v => v.equalRangeForIndexInRangeBy 0 (fun x => compare x 7) (.included 0) (.included 0)) =
      .error .overflow := by decide +kernel
  rw [e] at h1 h2 h3
  exact ⟨v, b, s, h1, h2, h3⟩

example : ∃ v s e, Built v ∧ Shows v (List.range 5000) ∧
    v.equalRangeForIndexBy 3000 (fun x => if x < 2000 then .lt else if 4000 < x then .gt else .eq) = .ok (s, e) ∧
    s ≤ 3000 ∧ 3000 < e := by
  obtain ⟨v, b, sh⟩ := sample
  obtain ⟨s, e, e1, h1, -⟩ := C41_for_index b sh
    (fun x => if x < 2000 then .lt else if 4000 < x then .gt else .eq) 3000
    (List.pairwise_lt_range.imp fun {x y} hxy => by
      by_cases a : x < 2000 <;> by_cases c : y < 2000 <;> by_cases p : 4000 < x <;> by_cases q : 4000 < y <;>
        simp [a, c, p, q] <;> omega)
  obtain ⟨a1, a2, -⟩ := h1 (by rw [List.getElem?_range (by decide)]; decide)
  exact ⟨v, s, e, b, sh, e1, a1, a2⟩

example : ∃ v s e, Built v ∧ v.equalRangeForIndexInRangeBy 30 (fun x : Nat => if x < 20 then .lt else .eq) (.included 25)
    (.excluded 40) = .ok (s, e) ∧ EqualBlock (fun x : Nat => if x < 20 then .lt else .eq) (List.range 5000) 25 40 s e := by
  obtain ⟨v, b, sh⟩ := sample
  obtain ⟨s, e, e1, h1, -⟩ := C41_for_index_in_range_partial b sh
    (fun x => if x < 20 then .lt else .eq) 30 (sb := .included 25) (eb := .excluded 40) (lo := 25) (hi := 40) rfl (by decide) rfl
    (by simp) (by rw [List.length_range]; decide)
    (List.Pairwise.drop (List.Pairwise.take (List.pairwise_lt_range.imp fun {x y} hxy => by
      by_cases a : x < 20 <;> by_cases c : y < 20 <;> simp [a, c]; omega)))
  exact ⟨v, s, e, b, e1, (h1 ⟨by omega, by omega, by rw [List.getElem?_range (by decide)]; decide⟩).2.2⟩

/-! ### C42 -/

/-- The closure of `between_range_in_range`. -/
def betweenCmp {K : Type} [LE K] [LT K] [DecidableLE K] [DecidableLT K] (key : α → K) (first last : KeyBound K) (x : α) :
    Ordering :=
  if belowStart (key x) first then .lt else if aboveEnd (key x) last then .gt else .eq

theorem not_le_iff_lt {K : Type} [Preorder K] [ht : Std.Total (α := K) (· ≤ ·)] {x y : K} : ¬ x ≤ y ↔ y < x := by
  rw [lt_iff_le_not_ge]
  constructor
  · intro h
    rcases ht.total x y with h' | h'
    · exact absurd h' h
    · exact ⟨h', h⟩
  · exact fun h => h.2

theorem not_lt_iff_le {K : Type} [Preorder K] [ht : Std.Total (α := K) (· ≤ ·)] {x y : K} : ¬ x < y ↔ y ≤ x := by
  rw [← not_le_iff_lt, not_not]

theorem belowStart_iff {K : Type} [Preorder K] [Std.Total (α := K) (· ≤ ·)] [DecidableLE K] [DecidableLT K] (x : K)
    (first : KeyBound K) : belowStart x first = true ↔ ¬ NotBelow x first := by
  cases first with
  | unbounded => simp [belowStart, NotBelow]
  | included k => simp [belowStart, NotBelow, not_le_iff_lt]
  | excluded k => simp [belowStart, NotBelow, not_lt_iff_le]

theorem aboveEnd_iff {K : Type} [Preorder K] [Std.Total (α := K) (· ≤ ·)] [DecidableLE K] [DecidableLT K] (x : K)
    (last : KeyBound K) : aboveEnd x last = true ↔ ¬ NotAbove x last := by
  cases last with
  | unbounded => simp [aboveEnd, NotAbove]
  | included k => simp [aboveEnd, NotAbove, not_le_iff_lt]
  | excluded k => simp [aboveEnd, NotAbove, not_lt_iff_le]

/-- C42, for ranges of positions that are not empty and do not have an inclusive end (the exceptions are
those of C40): on ascending items, `between_range_in_range` returns exactly the positions in `lo..hi`
whose items are within the two bounds, which do not have to be consistent. If there are none, it
returns a position such that all items before it are below the lower bound and all from it on are not,
but above the upper bound. -/
theorem C42_between_range_partial {K : Type} [Preorder K] [Std.Total (α := K) (· ≤ ·)] [DecidableLE K] [DecidableLT K]
    {v : RVec α} {l : List α} (b : Built v) (h : Shows v l) (key : α → K) (first last : KeyBound K)
    {sb eb : Bound} {lo hi : Nat} (h1 : sb.first = lo) (h2 : eb.afterLast l.length = hi)
    (hinc : ∀ x, eb ≠ .included x) (hlt : lo < hi) (hle : hi ≤ l.length)
    (hs : ((l.take hi).drop lo).Pairwise fun x y => key x ≤ key y) :
    (∃ s e, v.betweenRangeInRange key first last sb eb = .ok (.found s e) ∧ lo ≤ s ∧ s < e ∧ e ≤ hi ∧
      ∀ k x, lo ≤ k → k < hi → l[k]? = some x → (NotBelow (key x) first ∧ NotAbove (key x) last ↔ s ≤ k ∧ k < e)) ∨
    (∃ i, v.betweenRangeInRange key first last sb eb = .ok (.missing i) ∧ lo ≤ i ∧ i ≤ hi ∧
      ∀ k x, lo ≤ k → k < hi → l[k]? = some x → (k < i → ¬ NotBelow (key x) first) ∧
        (i ≤ k → NotBelow (key x) first ∧ ¬ NotAbove (key x) last)) := by
  have hmono1 : ∀ (a c : K), a ≤ c → NotBelow a first → NotBelow c first := by
    intro a c hac
    cases first with
    | unbounded => exact id
    | included k => exact fun h => le_trans h hac
    | excluded k => exact fun h => lt_of_lt_of_le h hac
  have hmono2 : ∀ (a c : K), a ≤ c → NotAbove c last → NotAbove a last := by
    intro a c hac
    cases last with
    | unbounded => exact id
    | included k => exact fun h => le_trans hac h
    | excluded k => exact fun h => lt_of_le_of_lt hac h
  have hlt' : ∀ x : α, betweenCmp key first last x = .lt ↔ ¬ NotBelow (key x) first := by
    intro x
    rw [← belowStart_iff, betweenCmp]
    cases belowStart (key x) first <;> cases aboveEnd (key x) last <;> simp
  have hgt' : ∀ x : α, betweenCmp key first last x = .gt ↔ NotBelow (key x) first ∧ ¬ NotAbove (key x) last := by
    intro x
    have a1 := belowStart_iff (key x) first
    have a2 := aboveEnd_iff (key x) last
    rw [betweenCmp]
    cases h1 : belowStart (key x) first <;> cases h2 : aboveEnd (key x) last <;> simp_all
  have heq' : ∀ x : α, betweenCmp key first last x = .eq ↔ NotBelow (key x) first ∧ NotAbove (key x) last := by
    intro x
    have a1 := belowStart_iff (key x) first
    have a2 := aboveEnd_iff (key x) last
    rw [betweenCmp]
    cases h1 : belowStart (key x) first <;> cases h2 : aboveEnd (key x) last <;> simp_all
  obtain ⟨hit, e, hh⟩ := C40_in_range_partial b h (betweenCmp key first last) h1 h2 hinc hlt hle (by
    refine hs.imp ?_
    intro x y hxy
    rw [hlt', hlt', hgt', hgt']
    exact ⟨fun hy hx => hy (hmono1 _ _ hxy hx), fun hx => ⟨hmono1 _ _ hxy hx.1, fun hy => hx.2 (hmono2 _ _ hxy hy)⟩⟩)
  cases hit with
  | found s t =>
    obtain ⟨a1, a2, a3, a4⟩ := hh
    refine .inl ⟨s, t, e, a1, a2, a3, fun k x hk hk' hx => ?_⟩
    rw [← heq' x]
    exact a4 k x hk hk' hx
  | missing p =>
    obtain ⟨a1, a2, a3⟩ := hh
    refine .inr ⟨p, e, a1, a2, fun k x hk hk' hx => ?_⟩
    rw [← hlt' x, ← hgt' x]
    exact a3 k x hk hk' hx

/-- C42, the exceptions: on an empty vector `between_range` never returns. -/
theorem C42_empty_panics {K : Type} [LE K] [LT K] [DecidableLE K] [DecidableLT K]
    {v : RVec α} (b : Built v) (h : Shows v []) (key : α → K) (first last : KeyBound K) :
    ∃ e, v.betweenRange key first last = .error e := by
  obtain ⟨e, h, -⟩ := C39_empty_panics b h (betweenCmp key first last)
  exact ⟨e, h⟩

example : ∃ v : RVec Nat, Built v ∧ ∃ s e, v.betweenRange id (.excluded 100) (.included 200) = .ok (.found s e) ∧ s ≤ 150 ∧ 150 < e := by
  obtain ⟨v, b, sh⟩ := sample
  have hl : (List.range 5000).length = 5000 := List.length_range
  rcases C42_between_range_partial b sh id (.excluded 100) (.included 200) (sb := .unbounded) (eb := .unbounded)
    (lo := 0) (hi := (List.range 5000).length) rfl (by simp only [Bound.afterLast]) (by simp) (by omega) (Nat.le_refl _) (List.Pairwise.drop (List.Pairwise.take (List.pairwise_lt_range.imp fun {x y} hxy => Nat.le_of_lt hxy))) with
    ⟨s, e, e1, -, -, -, h⟩ | ⟨p, e1, -, -, h⟩
  · have := (h 150 150 (by omega) (by omega) (List.getElem?_range (by decide))).1 ⟨by simp [NotBelow], by simp [NotAbove]⟩
    exact ⟨v, b, s, e, e1, this⟩
  · obtain ⟨a1, a2⟩ := h 150 150 (by omega) (by omega) (List.getElem?_range (by decide))
    by_cases hc : 150 < p
    · exact absurd (a1 hc) (by simp [NotBelow])
    · exact absurd (a2 (by omega)).2 (by simp [NotAbove])

/-! ### C43 -/

/-- C43: `==` of two vectors is `==` of their sequences, whatever the shapes of the trees. -/
theorem C43_eq [BEq α] {v w : RVec α} {l m : List α} (b : Built v) (h : Shows v l) (b' : Built w) (h' : Shows w m) :
    eqVec (· == ·) v w = .ok (l == m) := by
  obtain ⟨k, i⟩ := b.inv
  obtain rfl := (shows_iff i).1 h
  obtain ⟨k', i'⟩ := b'.inv
  obtain rfl := (shows_iff i').1 h'
  rw [eqVec_ok i i']
  congr 1
  generalize v.toList = l
  generalize w.toList = m
  induction l generalizing m with
  | nil => cases m <;> rfl
  | cons x l ih =>
    cases m with
    | nil => rfl
    | cons y m => rw [List.isEqv, List.cons_beq_cons, ih]

/-- C43: if `==` of the items is equality, two vectors are equal exactly when they show the same
sequence. -/
theorem C43_eq_iff [BEq α] [LawfulBEq α] {v w : RVec α} {l m : List α} (b : Built v) (h : Shows v l) (b' : Built w)
    (h' : Shows w m) : (eqVec (· == ·) v w = .ok true ↔ l = m) ∧ (eqVec (· == ·) v w = .ok false ↔ l ≠ m) := by
  rw [C43_eq b h b' h']
  simp

/-- C43: `cmp` of two vectors is the lexicographic order of their sequences. -/
theorem C43_cmp (cmp : α → α → Ordering) {v w : RVec α} {l m : List α} (b : Built v) (h : Shows v l) (b' : Built w)
    (h' : Shows w m) : cmpVec cmp v w = .ok (List.compareLex cmp l m) := by
  obtain ⟨k, i⟩ := b.inv
  obtain rfl := (shows_iff i).1 h
  obtain ⟨k', i'⟩ := b'.inv
  obtain rfl := (shows_iff i').1 h'
  exact cmpVec_ok i i' cmp

/-- C43: `partial_cmp` of two vectors is the lexicographic order of their sequences; it is `None` when the
first pair that is not equal is incomparable. -/
theorem C43_partial_cmp (cmp : α → α → Option Ordering) {v w : RVec α} {l m : List α} (b : Built v) (h : Shows v l)
    (b' : Built w) (h' : Shows w m) : partialCmp cmp v w = .ok (lexPartial cmp l m) := by
  obtain ⟨k, i⟩ := b.inv
  obtain rfl := (shows_iff i).1 h
  obtain ⟨k', i'⟩ := b'.inv
  obtain rfl := (shows_iff i').1 h'
  exact partialCmp_ok i i' cmp

/-- C43: hashing a vector feeds the items to the hasher in order, and nothing else. -/
theorem C43_hash (hash : α → H → H) (state : H) {v : RVec α} {l : List α} (b : Built v) (h : Shows v l) :
    hashVec hash v state = .ok (l.foldl (fun s x => hash x s) state) := by
  obtain ⟨k, i⟩ := b.inv
  obtain rfl := (shows_iff i).1 h
  exact hashVec_ok i hash state

/-- C43: vectors that are `==` have the same hash, provided that this holds for the items. -/
theorem C43_hash_eq [BEq α] (hash : α → H → H) (state : H) (hh : ∀ x y : α, (x == y) = true → hash x = hash y)
    {v w : RVec α} (b : Built v) (b' : Built w) (he : eqVec (· == ·) v w = .ok true) :
    ∃ s, hashVec hash v state = .ok s ∧ hashVec hash w state = .ok s := by
  obtain ⟨l, h, -⟩ := built_shows b
  obtain ⟨m, h', -⟩ := built_shows b'
  rw [C43_eq b h b' h'] at he
  rw [C43_hash hash state b h, C43_hash hash state b' h']
  refine ⟨_, rfl, ?_⟩
  congr 1
  replace he : (l == m) = true := Except.ok.inj he
  clear h h'
  induction l generalizing m state with
  | nil => cases m with
    | nil => rfl
    | cons y m => cases he
  | cons x l ih =>
    cases m with
    | nil => cases he
    | cons y m =>
      rw [List.cons_beq_cons, Bool.and_eq_true] at he
      rw [List.foldl_cons, List.foldl_cons, hh x y he.1]
      exact ih _ m he.2

/-- Two vectors with the same sequence and different trees: the one was collected, to the other some
items were added at the front. They are equal, compare `Equal` and have the same hash. -/
example : ∃ v w : RVec Nat, Built v ∧ Built w ∧ v.left.map Node.slots ≠ w.left.map Node.slots ∧
    eqVec (· == ·) v w = .ok true ∧ cmpVec compare v w = .ok .eq ∧
    ∃ s : List Nat, hashVec (fun x s => x :: s) v [] = .ok s ∧ hashVec (fun x s => x :: s) w [] = .ok s := by
  have h : ((fromIter (List.range 130)).bind fun v => (fromIter ((List.range 130).drop 3)).bind fun w =>
      (w.pushFront 2).bind fun w => (w.pushFront 1).bind fun w => (w.pushFront 0).bind fun w =>
      .ok (v.left.map Node.slots, w.left.map Node.slots)) = .ok ([63], [2]) := by decide +kernel
  obtain ⟨v, e1, h⟩ := bind_ok h
  obtain ⟨w, e2, h⟩ := bind_ok h
  obtain ⟨w2, e3, h⟩ := bind_ok h
  obtain ⟨w1, e4, h⟩ := bind_ok h
  obtain ⟨w0, e5, h⟩ := bind_ok h
  obtain ⟨v', e1', b, s⟩ := exists_built (List.range 130) (by decide +kernel)
  obtain ⟨w', e2', bw, sw⟩ := exists_built ((List.range 130).drop 3) (by decide +kernel)
  rw [e1] at e1'
  cases e1'
  rw [e2] at e2'
  cases e2'
  obtain ⟨x2, e3', b2, s2⟩ := C02_push_front bw sw 2 (by decide +kernel)
  rw [e3] at e3'
  cases e3'
  obtain ⟨x1, e4', b1, s1⟩ := C02_push_front b2 s2 1 (by decide +kernel)
  rw [e4] at e4'
  cases e4'
  obtain ⟨x0, e5', b0, s0⟩ := C02_push_front b1 s1 0 (by decide +kernel)
  rw [e5] at e5'
  cases e5'
  simp only [Except.ok.injEq, Prod.mk.injEq] at h
  have he : eqVec (· == ·) v w0 = .ok true := (C43_eq_iff b s b0 s0).1.2 (by decide +kernel)
  refine ⟨v, w0, b, b0, by rw [h.1, h.2]; decide, he, ?_, C43_hash_eq _ _ (by simp) b b0 he⟩
  rw [C43_cmp compare b s b0 s0]
  decide +kernel

example : ∃ v w : RVec Nat, Built v ∧ Built w ∧ cmpVec compare v w = .ok .lt ∧
    partialCmp (fun x y => if x = 9 then none else some (compare x y)) v w = .ok (some .lt) := by
  obtain ⟨v, -, b, s⟩ := exists_built [1, 2] (by decide)
  obtain ⟨w, -, b', s'⟩ := exists_built [1, 3, 0] (by decide)
  exact ⟨v, w, b, b', by rw [C43_cmp compare b s b' s']; decide, by rw [C43_partial_cmp _ b s b' s']; decide⟩

end Librrb
