import Verif.Props.Unwind
import Verif.Proof.SortCalls

/-! # How often the sort calls the comparator

The property theorems of C54. -/
namespace Librrb
open RVec

/-- The number of calls, counted by the comparator. -/
theorem count_calls (xs : List (α × α)) (c : Nat) : xs.foldl (fun c _ => c + 1) c = c + xs.length := by
  induction xs generalizing c with
  | nil => rfl
  | cons x xs ih => rw [List.foldl_cons, ih, List.length_cons]; omega

/-- C54: with a comparator that answers like a consistent order, `sort_range_by` on a range of `n` items makes at most
`4 * n ^ 2` calls, only about items of the range, whatever numbers the generator gives. `asked` are the pairs
about which it is called, in order. -/
theorem C54_sort_range_calls {v : RVec α} {l : List α} (b : Built v) (h : Shows v l) (cb : Callback γ α) (state : γ)
    (cmp : α → α → Ordering) [Std.TransCmp cmp] (hc : ∀ g x y, (cb g x y).1 = some (cmp x y))
    (sb eb : Bound) (h1 : sb.first ≤ eb.afterLast l.length) (h2 : eb.afterLast l.length ≤ l.length)
    (next : ρ → Nat × ρ) (rng : ρ) :
    ∃ (v' : RVec α) (asked : List (α × α)) (m : List α),
      v.sortRangeByLeaving cb sb eb next 0 rng state = (.ok (), v', asked.foldl (fun g p => (cb g p.1 p.2).2) state) ∧
      asked.length ≤ 4 * (eb.afterLast l.length - sb.first) ^ 2 ∧
      (∀ p ∈ asked, p.1 ∈ (l.take (eb.afterLast l.length)).drop sb.first ∧ p.2 ∈ (l.take (eb.afterLast l.length)).drop sb.first) ∧
      Shows v' (l.take sb.first ++ m ++ l.drop (eb.afterLast l.length)) ∧
      m.Perm ((l.take (eb.afterLast l.length)).drop sb.first) ∧ m.Pairwise (fun x y => cmp x y ≠ .gt) := by
  obtain ⟨v', state', m, e, -, s, p, q⟩ := C52_sort_range_state b h cb state cmp hc sb eb h1 h2 next rng 0
  obtain ⟨-, L, -, -, asked, k1, k2, k3⟩ := sortRange_kept b h cb state sb eb h1 h2 next rng 0
  rw [e] at k1
  simp only at k1
  subst k1
  exact ⟨v', asked, m, e, by simpa [USortFocus.questions] using k2, k3, s, p, q⟩

/-- Five thousand items, with a comparator that counts: at most a hundred million calls for any generator. -/
example : ∃ v : RVec Nat, Built v ∧ Shows v (List.range 5000).reverse ∧ ∀ (next : Nat → Nat × Nat) (rng : Nat), ∃ v' calls,
    v.sortRangeByLeaving (fun c x y => (some (compare x y), c + 1)) .unbounded .unbounded next 0 rng 0 = (.ok (), v', calls) ∧
    calls ≤ 100000000 := by
  obtain ⟨v, -, b, s⟩ := exists_built (List.range 5000).reverse (by rw [List.length_reverse, List.length_range]; decide)
  have k {l : List Nat} (s : Shows v l) := C54_sort_range_calls (ρ := Nat) b s (fun c x y => (some (compare x y), c + 1)) 0 compare
    (fun _ _ _ => rfl) .unbounded .unbounded (Nat.zero_le _) (Nat.le_refl _)
  refine ⟨v, b, s, fun next rng => ?_⟩
  obtain ⟨v', asked, m, e, hk, -⟩ := k s next rng
  rw [count_calls, Nat.zero_add] at e
  refine ⟨v', _, e, ?_⟩
  simp only [Bound.first, Bound.afterLast, List.length_reverse, List.length_range] at hk
  omega

/-- C54 for `dual_sort_range_by`. -/
theorem C54_dual_sort_range_calls {v : RVec α} {w : RVec β} {l : List α} {m : List β} (b : Built v) (h : Shows v l)
    (b' : Built w) (h' : Shows w m) (cb : Callback γ α) (state : γ) (cmp : α → α → Ordering) [Std.TransCmp cmp]
    (hc : ∀ g x y, (cb g x y).1 = some (cmp x y)) (sb eb : Bound)
    (h1 : sb.first ≤ eb.afterLast l.length) (h2 : eb.afterLast l.length ≤ l.length)
    (h3 : eb.afterLast l.length ≤ m.length) (next : ρ → Nat × ρ) (rng : ρ) :
    ∃ (v' : RVec α) (w' : RVec β) (asked : List (α × α)),
      v.dualSortRangeByLeaving w cb sb eb next 0 rng state =
        (.ok (), (v', w'), asked.foldl (fun g p => (cb g p.1 p.2).2) state) ∧
      asked.length ≤ 4 * (eb.afterLast l.length - sb.first) ^ 2 ∧
      (∀ p ∈ asked, p.1 ∈ (l.take (eb.afterLast l.length)).drop sb.first ∧
        p.2 ∈ (l.take (eb.afterLast l.length)).drop sb.first) := by
  obtain ⟨v', w', state', L, e, -⟩ := C52_dual_sort_range_state b h b' h' cb state cmp hc sb eb h1 h2 h3 next rng 0
  obtain ⟨-, L, -, -, asked, k1, k2, k3⟩ := dualSortRange_kept b h b' h' cb state sb eb rfl h1 h2 h3 next rng 0
  generalize eb.afterLast l.length = hi at *
  rw [e] at k1
  simp only at k1
  subst k1
  refine ⟨v', w', asked, e, by simpa [USortFocus.questions] using k2, ?_⟩
  rwa [slice, List.take_of_length_le (by simp), List.map_drop, List.map_fst_zip (by simp; omega)] at k3

/-- Seven items in two vectors, with a comparator that counts: at most 196 calls for any generator. -/
example : ∃ (v w v' w' : RVec Nat) (calls : Nat), Built v ∧ Built w ∧ Shows v [3, 6, 2, 5, 1, 4, 0] ∧ Shows w [0, 1, 2, 3, 4, 5, 6] ∧
    v.dualSortRangeByLeaving w (fun c x y => (some (compare x y), c + 1)) .unbounded .unbounded (fun s : Nat => (s, s * 5 + 3)) 0 1 0 =
      (.ok (), (v', w'), calls) ∧ calls ≤ 196 := by
  obtain ⟨v, -, b, s⟩ := exists_built [3, 6, 2, 5, 1, 4, 0] (by decide)
  obtain ⟨w, -, b', s'⟩ := exists_built [0, 1, 2, 3, 4, 5, 6] (by decide)
  obtain ⟨v', w', asked, e, k, -⟩ := C54_dual_sort_range_calls b s b' s' (fun c x y => (some (compare x y), c + 1)) 0 compare
    (fun _ _ _ => rfl) .unbounded .unbounded (by decide) (by decide) (by decide) (fun s : Nat => (s, s * 5 + 3)) 1
  refine ⟨v, w, v', w', _, b, b', s, s', e, ?_⟩
  rw [count_calls, Nat.zero_add]
  exact k

/-- C54: the quadratic number of calls is not bad luck. When the `n` items of the range are all equal for the comparator,
`sort_range_by` makes exactly `n * (n - 1) / 2` calls, whatever numbers the generator gives: no stream of random numbers
does better. -/
theorem C54_equal_items {v : RVec α} {l : List α} (b : Built v) (h : Shows v l) (cb : Callback γ α) (state : γ)
    (sb eb : Bound) (h1 : sb.first ≤ eb.afterLast l.length) (h2 : eb.afterLast l.length ≤ l.length)
    (heq : ∀ g x y, x ∈ (l.take (eb.afterLast l.length)).drop sb.first → y ∈ (l.take (eb.afterLast l.length)).drop sb.first →
      (cb g x y).1 = some .eq)
    (next : ρ → Nat × ρ) (rng : ρ) (budget : Nat) :
    ∃ (v' : RVec α) (asked : List (α × α)),
      v.sortRangeByLeaving cb sb eb next budget rng state = (.ok (), v', asked.foldl (fun g p => (cb g p.1 p.2).2) state) ∧
      2 * asked.length = (eb.afterLast l.length - sb.first) * (eb.afterLast l.length - sb.first - 1) := by
  have hlt := b.length_lt h
  obtain ⟨f, e, w⟩ := window_ok b h h1 h2
  have hc := b.cells_length h
  have hlen : f.len = eb.afterLast l.length - sb.first := w.len
  have k : Leaves (fun _ s' => ∃ k, KeepsCounted cb state v.cells.toList sb.first (eb.afterLast l.length) l k s' ∧
        2 * k + (eb.afterLast l.length - sb.first) = (eb.afterLast l.length - sb.first) * (eb.afterLast l.length - sb.first))
      (fun _ => False) (v.sortRangeByU cb sb eb next budget rng) (v, state) := by
    refine .lift (rangeStart_first (sb := sb) (by omega)) (.lift (rangeEnd_afterLast (n := v.len) (by rw [h.1]; omega)) ?_)
    rw [h.1]
    refine .lift e ?_
    refine (USortFocus.sort_flat (single_flat cb state v.cells.toList sb.first (eb.afterLast l.length) l heq) next budget _
      (n := 0) ⟨l, [], ⟨b, h, rfl⟩, .refl _ _ _, rfl, rfl⟩ ⟨w, Nat.le_refl _, Nat.le_refl _, by rw [hc]; exact h2⟩
      (by rw [hlen]; omega)).bind ?_
    rintro _ s' ⟨k, hk, ek⟩
    rw [Nat.zero_add] at hk
    exact .pure ⟨k, hk, ek⟩
  unfold Leaves at k
  rcases hr : v.sortRangeByLeaving cb sb eb next budget rng state with ⟨_ | x, v', state'⟩
  · rw [sortRangeByLeaving] at hr
    rw [hr] at k
    exact k.2.elim
  · rw [sortRangeByLeaving] at hr
    rw [hr] at k
    obtain ⟨_, ⟨L, asked, -, -, rfl, rfl⟩, ek⟩ := k
    refine ⟨v', asked, rfl, ?_⟩
    generalize eb.afterLast l.length - sb.first = n at ek
    cases n with
    | zero => omega
    | succ n =>
      rw [show (n + 1) * (n + 1) = (n + 1) * n + n + 1 by ring] at ek
      rw [Nat.add_sub_cancel]
      omega

/-- Ten thousand equal items: 49 995 000 calls. -/
example : ∃ v : RVec Nat, Built v ∧ Shows v (List.replicate 10000 7) ∧ ∀ (next : Nat → Nat × Nat) (rng : Nat), ∃ v',
    v.sortRangeByLeaving (fun c x y => (some (compare x y), c + 1)) .unbounded .unbounded next 0 rng 0 = (.ok (), v', 49995000) := by
  obtain ⟨v, -, b, s⟩ := exists_built (List.replicate 10000 7) (by rw [List.length_replicate]; decide)
  have k {l : List Nat} (s : Shows v l) (hl : ∀ x ∈ l, x = 7) := C54_equal_items (ρ := Nat) b s (fun c x y => (some (compare x y), c + 1)) 0
    .unbounded .unbounded (Nat.zero_le _) (Nat.le_refl _) (by
      intro g x y hx hy
      rw [hl x (List.mem_of_mem_take (List.mem_of_mem_drop hx)), hl y (List.mem_of_mem_take (List.mem_of_mem_drop hy))]
      rfl)
  refine ⟨v, b, s, fun next rng => ?_⟩
  obtain ⟨v', asked, e, hk⟩ := k s (fun x hx => List.eq_of_mem_replicate hx) next rng 0
  rw [count_calls, Nat.zero_add] at e
  simp only [Bound.first, Bound.afterLast, List.length_replicate] at hk
  rw [show asked.length = 49995000 by omega] at e
  exact ⟨v', e⟩

/-- C54: on `n` equal items the calls of the sort are `n` deep inside of one another: the sort (`do_single_sort` on the focus of the
range) does not come to its end within less than `n` of them. -/
theorem C54_depth {v : RVec α} {l : List α} (b : Built v) (h : Shows v l) (cb : Callback γ α) (state : γ)
    (heq : ∀ g x y, x ∈ l → y ∈ l → (cb g x y).1 = some .eq) (next : ρ → Nat × ρ) (rng : ρ) (budget fuel : Nat) (hf : fuel < l.length) :
    ∃ f e s', v.window 0 l.length = .ok f ∧
      (USortFocus.single cb).sort next budget fuel rng f (v, state) = (Except.error e, s') := by
  obtain ⟨f, e, w⟩ := window_ok b h (Nat.zero_le _) (Nat.le_refl _)
  have hc := b.cells_length h
  have k := USortFocus.sort_flat_deep (single_flat cb state v.cells.toList 0 l.length l
    (by rw [slice, List.take_length, List.drop_zero]; exact heq)) next budget fuel (rng := rng) (s := (v, state))
    (n := 0) ⟨l, [], ⟨b, h, rfl⟩, .refl _ _ _, rfl, rfl⟩ ⟨w, Nat.le_refl _, Nat.le_refl _, by rw [hc]⟩ (by omega)
  unfold Leaves at k
  rcases hr : (show M ρ × RVec α × γ from (USortFocus.single cb).sort next budget fuel rng f (v, state)) with ⟨x | x, s'⟩
  · exact ⟨f, x, s', e, hr⟩
  · rw [hr] at k
    exact k.elim

/-- Ten thousand equal items: nine thousand calls inside of one another are not enough. -/
example : ∃ (v : RVec Nat) (f : FMut Cell), Built v ∧ Shows v (List.replicate 10000 7) ∧ v.window 0 10000 = .ok f ∧ ∃ e s',
    (USortFocus.single (γ := Nat) fun c x y => (some (compare x y), c + 1)).sort (fun s : Nat => (s, s)) 0 9000 1 f (v, 0) =
      (Except.error e, s') := by
  obtain ⟨v, -, b, s⟩ := exists_built (List.replicate 10000 7) (by rw [List.length_replicate]; decide)
  have k {l : List Nat} (s : Shows v l) (hl : ∀ x ∈ l, x = 7) := C54_depth b s (fun c x y => (some (compare x y), c + 1)) 0
    (by intro g x y hx hy; rw [hl x hx, hl y hy]; rfl) (fun s : Nat => (s, s)) 1 0 9000
  obtain ⟨f, e, s', w, h⟩ := k s (fun x hx => List.eq_of_mem_replicate hx) (by rw [List.length_replicate]; decide)
  rw [List.length_replicate] at w
  exact ⟨v, f, b, s, w, e, s', h⟩

end Librrb
