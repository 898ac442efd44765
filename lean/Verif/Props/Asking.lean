import Verif.Props.Search
import Verif.Proof.SearchAsk

/-! # How often the searches call the comparison

The property theorems of C53. -/
namespace Librrb
open RVec

/-- What the end of the search says of how the comparison answered. -/
theorem Asks.result {f : Probe γ α} {I : α → Prop} {n : Nat} {m : U γ τ} (h : Asks f I n (fun _ => True) m) (g : γ) :
    ∃ (out : M τ) (xs : List α), (show M τ × γ from m g) = (out, xs.foldl (fun g x => (f g x).2) g) ∧ xs.length ≤ n ∧
      (∀ x ∈ xs, I x) ∧ ((∃ y, out = .ok y) ∨ (out = .error .panic ∧
        ∃ ys x, xs = ys ++ [x] ∧ (f (ys.foldl (fun g x => (f g x).2) g) x).1 = none)) := by
  obtain ⟨xs, h1, h2, h3, h4⟩ := h.of g
  rcases hm : (show M τ × γ from m g) with ⟨_ | y, g'⟩
  · rw [hm] at h3 h4
    obtain ⟨rfl, h5⟩ := h4
    exact ⟨_, xs, by rw [← h3], h1, h2, .inr ⟨rfl, h5⟩⟩
  · rw [hm] at h3
    exact ⟨_, xs, by rw [← h3], h1, h2, .inl ⟨y, rfl⟩⟩

/-- C53: over a range of at most `2 ^ n` positions, `equal_range_in_range_by` calls the comparison at most
`2 * n + 1` times, and only on items of the range. `xs` are the items on which it is called, in order. This holds
for every comparison: one that is not consistent, changes its mind, or panics. The search returns, unless the
last call of the comparison panics. -/
theorem C53_equal_range_calls {v : RVec α} {l : List α} (b : Built v) (h : Shows v l) (f : Probe γ α) (state : γ)
    {sb eb : Bound} {lo hi : Nat} (h1 : sb.first = lo) (h2 : eb.afterLast l.length = hi)
    (hinc : ∀ x, eb ≠ .included x) (hlt : lo < hi) (hle : hi ≤ l.length) (budget n : Nat) (hn : hi - lo ≤ 2 ^ n) :
    ∃ (out : M Hit) (xs : List α),
      v.equalRangeInRangeByAsking f sb eb budget state = (out, xs.foldl (fun g x => (f g x).2) state) ∧
      xs.length ≤ 2 * n + 1 ∧ (∀ x ∈ xs, x ∈ (l.take hi).drop lo) ∧
      ((∃ hit, out = .ok hit) ∨ (out = .error .panic ∧
        ∃ ys x, xs = ys ++ [x] ∧ (f (ys.foldl (fun g x => (f g x).2) state) x).1 = none)) := by
  have hlim := b.length_lt h
  obtain ⟨k, i⟩ := b.inv
  obtain rfl := (shows_iff i).1 h
  have hI : ∀ k (hk : k < v.toList.length), lo ≤ k → k < hi → v.toList[k] ∈ (v.toList.take hi).drop lo := by
    intro k hk h1 h2
    rw [List.mem_iff_getElem]
    exact ⟨k - lo, by simp; omega, by simp [show lo + (k - lo) = k by omega]⟩
  obtain ⟨fo, e, hf⟩ := Focus.new_ok i
  refine Asks.result ?_ state
  refine .lift (h1 ▸ rangeStart_first (by omega)) (.lift (y := hi) ?_ (.lift e ?_))
  · rw [i.len]
    cases eb with
    | included x => exact absurd rfl (hinc x)
    | excluded x => exact congrArg Except.ok h2
    | unbounded => exact congrArg Except.ok h2
  · exact searchLoopU_asks i hI _ hf (Nat.le_refl _) hlt hle (Nat.le_refl _) (by unfold searchFuel; omega) hn

/-- C53 for `equal_range_for_index_in_range_by`: at most `2 * n + 2` calls. -/
theorem C53_for_index_calls {v : RVec α} {l : List α} (b : Built v) (h : Shows v l) (f : Probe γ α) (state : γ) (index : Nat)
    {sb eb : Bound} {lo hi : Nat} (h1 : sb.first = lo) (hlo : lo < USIZE_LIMIT) (h2 : eb.afterLast l.length = hi)
    (hinc : ∀ x, eb ≠ .included x) (hle : hi ≤ l.length) (n : Nat) (hn : hi - lo ≤ 2 ^ n) :
    ∃ (out : M (Nat × Nat)) (xs : List α),
      v.equalRangeForIndexInRangeByAsking index f sb eb state = (out, xs.foldl (fun g x => (f g x).2) state) ∧
      xs.length ≤ 2 * n + 2 ∧ (∀ x ∈ xs, x ∈ (l.take hi).drop lo) ∧
      ((∃ r, out = .ok r) ∨ (out = .error .panic ∧
        ∃ ys x, xs = ys ++ [x] ∧ (f (ys.foldl (fun g x => (f g x).2) state) x).1 = none)) := by
  obtain ⟨k, i⟩ := b.inv
  obtain rfl := (shows_iff i).1 h
  have hI : ∀ k (hk : k < v.toList.length), lo ≤ k → k < hi → v.toList[k] ∈ (v.toList.take hi).drop lo := by
    intro k hk h1 h2
    rw [List.mem_iff_getElem]
    exact ⟨k - lo, by simp; omega, by simp [show lo + (k - lo) = k by omega]⟩
  refine Asks.result ?_ state
  have hs : rangeStart sb = .ok lo := h1 ▸ rangeStart_first (h1 ▸ hlo)
  have he : searchEnd v.len eb = .ok hi := by
    rw [i.len]
    cases eb with
    | included x => exact absurd rfl (hinc x)
    | excluded x => exact congrArg Except.ok h2
    | unbounded => exact congrArg Except.ok h2
  by_cases hc : index < lo ∨ index ≥ hi
  · refine .lift hs (.lift he ?_)
    rw [if_pos hc]
    exact .pure trivial
  · exact (equalRangeForIndexU_asks i hI hs he hle (n := n) (k := n) (by omega) (by omega)).mono (by omega) fun _ h => h

/-- C53: a comparison that answers like the function `f'`, whatever it does with its state, gives the results of C39–C42,
panics included. -/
theorem C53_state (v : RVec α) (f : Probe γ α) (f' : α → Ordering) (hf : ∀ g x, (f g x).1 = some (f' x)) (state : γ) :
    (∀ sb eb, (v.equalRangeInRangeByAsking f sb eb 0 state).1 = v.equalRangeInRangeBy f' sb eb) ∧
    (v.equalRangeByAsking f 0 state).1 = v.equalRangeBy f' ∧
    ∀ index sb eb, (v.equalRangeForIndexInRangeByAsking index f sb eb state).1 = v.equalRangeForIndexInRangeBy index f' sb eb := by
  have k : ∀ sb eb, (v.equalRangeInRangeByAsking f sb eb 0 state).1 = v.equalRangeInRangeBy f' sb eb := fun sb eb =>
    (Ends.lift (k' := fun a => searchEnd v.len eb >>= fun b => Focus.new v >>= fun fo => searchLoop v f' (searchFuel a b) fo a b)
      fun a => .lift fun b => .lift fun fo => searchLoopU_ends hf ..).of state
  exact ⟨k, k _ _, fun index sb eb => (equalRangeForIndexU_ends hf v index sb eb).of state⟩

/-- C53 for `equal_range_by`, in numbers: with a comparison that counts its calls, the search of a vector of at most
`2 ^ n` items counts to at most `2 * n + 1`, and its result is that of C39. -/
theorem C53_count {v : RVec α} {l : List α} (b : Built v) (h : Shows v l) (f : α → Ordering) (hs : SortedFor f l)
    (hne : l ≠ []) (n : Nat) (hn : l.length ≤ 2 ^ n) :
    ∃ hit calls, v.equalRangeByAsking (fun c x => (some (f x), c + 1)) 0 0 = (.ok hit, calls) ∧
      RightHit f l 0 l.length hit ∧ calls ≤ 2 * n + 1 := by
  obtain ⟨hit, e, r⟩ := C39_equal_range_partial b h f hs hne
  have k := (C53_state v (fun c x => (some (f x), c + 1)) f (fun _ _ => rfl) 0).2.1
  obtain ⟨out, xs, e', hl, -⟩ := C53_equal_range_calls b h (fun c x => (some (f x), c + 1)) 0 (sb := .unbounded)
    (eb := .unbounded) rfl rfl (fun _ h => by cases h) (List.length_pos_iff.2 hne) (Nat.le_refl _) 0 n (by
      simpa [Bound.first, Bound.afterLast] using hn)
  have hc : ∀ (xs : List α) (c : Nat), xs.foldl (fun c _ => c + 1) c = c + xs.length := by
    intro xs
    induction xs with
    | nil => intro c; rfl
    | cons x xs ih => intro c; rw [List.foldl_cons, ih, List.length_cons]; omega
  rw [equalRangeByAsking, e'] at k
  rw [equalRangeByAsking, e']
  refine ⟨hit, xs.length, ?_, r, hl⟩
  rw [hc, Nat.zero_add, ← e, ← k]

/-- The bound is reached: two equal items, of which the first is called once and the second twice. -/
example : ∃ v : RVec Nat, Built v ∧ Shows v [7, 7] ∧ [7, 7].length ≤ 2 ^ 1 ∧
    v.equalRangeByAsking (fun c x => (some (compare x 7), c + 1)) 0 0 = (.ok (.found 0 2), 2 * 1 + 1) := by
  obtain ⟨v, e, b, s⟩ := exists_built [7, 7] (by decide)
  refine ⟨v, b, s, by decide, ?_⟩
  obtain ⟨hit, calls, e', -⟩ := C53_count b s (fun x => compare x 7) (by unfold SortedFor; decide) (by decide) 1 (by decide)
  have h : ((fromIter [7, 7]).bind fun v => (v.equalRangeByAsking (fun c x => (some (compare x 7), c + 1)) 0 0).1.bind fun r =>
      .ok (r, (v.equalRangeByAsking (fun c x => (some (compare x 7), c + 1)) 0 0).2)) =
      (.ok (.found 0 2, 3) : M (Hit × Nat)) := by decide +kernel
  rw [e] at h
  simp only [Except.bind] at h
  rw [e'] at h ⊢
  simp only [Except.ok.injEq, Prod.mk.injEq] at h
  rw [h.1, h.2]

/-- Five thousand items: at most 27 calls. -/
example : ∃ (v : RVec Nat) (hit : Hit) (calls : Nat), Built v ∧ Shows v (List.range 5000) ∧
    v.equalRangeByAsking (fun c x => (some (compare x 70), c + 1)) 0 0 = (.ok hit, calls) ∧ calls ≤ 27 := by
  obtain ⟨v, b, s⟩ := sample
  have hs : SortedFor (fun x => compare x 70) (List.range 5000) := by
    refine List.pairwise_lt_range.imp fun {x y} h => ⟨fun h' => ?_, fun h' => ?_⟩
    · rw [Nat.compare_eq_lt] at *; omega
    · rw [Nat.compare_eq_gt] at *; omega
  obtain ⟨hit, calls, e, -, hc⟩ := C53_count b s (fun x => compare x 70) hs
    (List.ne_nil_of_length_pos (by rw [List.length_range]; decide)) 13 (by rw [List.length_range]; decide)
  exact ⟨v, hit, calls, b, s, e, hc⟩

/-- A comparison that panics at its third call. It has then been called on `4` and twice on `5`. -/
example : ∃ v : RVec Nat, Built v ∧ Shows v [0, 1, 2, 3, 4, 5, 6, 7] ∧
    v.equalRangeInRangeByAsking (fun asked x => (if asked.length = 2 then none else some (compare x 5), asked ++ [x]))
      (.included 1) (.excluded 7) 0 [] = (.error .panic, [4, 5, 5]) := by
  obtain ⟨v, e, b, s⟩ := exists_built [0, 1, 2, 3, 4, 5, 6, 7] (by decide)
  refine ⟨v, b, s, ?_⟩
  obtain ⟨out, xs, e', -, -, ho⟩ := C53_equal_range_calls b s
    (fun (asked : List Nat) x => (if asked.length = 2 then none else some (compare x 5), asked ++ [x])) [] (sb := .included 1) (eb := .excluded 7)
    rfl rfl (fun _ h => by cases h) (by decide) (by decide) 0 3 (by decide)
  have h : ((fromIter [0, 1, 2, 3, 4, 5, 6, 7]).bind fun v => .ok (
      (match (v.equalRangeInRangeByAsking (fun asked x => (if asked.length = 2 then none else some (compare x 5), asked ++ [x]))
        (.included 1) (.excluded 7) 0 []).1 with
        | .error _ => true
        | _ => false),
      (v.equalRangeInRangeByAsking (fun asked x => (if asked.length = 2 then none else some (compare x 5), asked ++ [x]))
        (.included 1) (.excluded 7) 0 []).2)) =
      (.ok (true, [4, 5, 5]) : M (Bool × List Nat)) := by decide +kernel
  rw [e] at h
  simp only [Except.bind] at h
  rw [e'] at h ⊢
  simp only [Except.ok.injEq, Prod.mk.injEq] at h
  rw [h.2]
  rcases ho with ⟨hit, rfl⟩ | ⟨rfl, -⟩
  · cases h.1
  · rfl

end Librrb
