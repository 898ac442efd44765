import Verif.Proof.Search
import Verif.Proof.SortUnwind
import Verif.Model.SearchAsk

/-! # How often and about what a search asks -/
namespace Librrb

/-- The computation asks `f` about at most `n` items, all of them with `I`, and does nothing else with the state of
`f`. It returns a value with `P`, or it panics because the last answer was a panic. -/
structure Asks (f : Probe γ α) (I : α → Prop) (n : Nat) (P : τ → Prop) (m : U γ τ) : Prop where
  of : ∀ g, ∃ xs : List α, xs.length ≤ n ∧ (∀ x ∈ xs, I x) ∧
    (show M τ × γ from m g).2 = xs.foldl (fun g x => (f g x).2) g ∧
    (match (show M τ × γ from m g).1 with
    | .ok y => P y
    | .error e => e = .panic ∧ ∃ ys x, xs = ys ++ [x] ∧ (f (ys.foldl (fun g x => (f g x).2) g) x).1 = none)

namespace Asks
variable {f : Probe γ α} {I : α → Prop}

theorem pure {P : τ → Prop} {y : τ} {n : Nat} (h : P y) : Asks f I n P (pure y) :=
  ⟨fun _ => ⟨[], Nat.zero_le _, by simp, rfl, h⟩⟩

theorem bind {P : τ → Prop} {Q : υ → Prop} {n k : Nat} {m : U γ τ} {m' : τ → U γ υ} (h : Asks f I n P m)
    (h' : ∀ y, P y → Asks f I k Q (m' y)) : Asks f I (n + k) Q (m >>= m') := by
  refine ⟨fun g => ?_⟩
  obtain ⟨xs, h1, h2, h3, h4⟩ := h.of g
  have hb := U.bind_apply m m' g
  rcases hm : (show M τ × γ from m g) with ⟨_ | y, g'⟩
  · rw [hm] at h3 h4 hb
    simp only at hb
    rw [hb]
    exact ⟨xs, by omega, h2, h3, h4⟩
  · rw [hm] at h3 h4 hb
    simp only at hb h3
    rw [hb]
    obtain ⟨zs, a1, a2, a3, a4⟩ := (h' y h4).of g'
    refine ⟨xs ++ zs, by simp; omega, ?_, ?_, ?_⟩
    · intro x hx
      rcases List.mem_append.1 hx with hx | hx
      · exact h2 x hx
      · exact a2 x hx
    · rw [a3, h3, List.foldl_append]
    · split
      · rename_i y' he
        rw [he] at a4
        exact a4
      · rename_i e he
        rw [he] at a4
        obtain ⟨rfl, ys, x, rfl, h5⟩ := a4
        exact ⟨rfl, xs ++ ys, x, by simp, by rw [List.foldl_append, ← h3]; exact h5⟩

theorem mono {P Q : τ → Prop} {n k : Nat} {m : U γ τ} (h : Asks f I n P m) (hk : n ≤ k) (h' : ∀ y, P y → Q y) :
    Asks f I k Q m := by
  refine ⟨fun g => ?_⟩
  obtain ⟨xs, h1, h2, h3, h4⟩ := h.of g
  refine ⟨xs, by omega, h2, h3, ?_⟩
  split
  · rename_i y he
    rw [he] at h4
    exact h' _ h4
  · rename_i e he
    rw [he] at h4
    exact h4

theorem lift {P : υ → Prop} {n : Nat} {m : M τ} {y : τ} {m' : τ → U γ υ} (e : m = .ok y) (h : Asks f I n P (m' y)) :
    Asks f I n P ((liftM m : U γ τ) >>= m') := by
  subst e; exact h

theorem ask {x : α} (hx : I x) : Asks f I 1 (fun _ => True) (f.ask x) := by
  refine ⟨fun g => ⟨[x], by simp, by simpa using hx, ?_⟩⟩
  unfold Probe.ask
  rcases he : f g x with ⟨_ | c, g'⟩
  · refine ⟨?_, rfl, [], x, rfl, ?_⟩
    · simp only [List.foldl, he]
    · simp only [List.foldl, he]
  · exact ⟨by simp only [List.foldl, he], trivial⟩

end Asks

namespace RVec
variable {v : RVec α} {h : Nat} {f : Probe γ α} {I : α → Prop}

theorem expandStartU_asks (i : InvH v h) {lo hi : Nat} (hI : ∀ k (hk : k < v.toList.length), lo ≤ k → k < hi → I v.toList[k]) :
    ∀ (fuel : Nat) {fo : Focus α} {start es n : Nat}, Focus.Ok fo v 0 v.toList.length → lo ≤ start → start < es →
    es < v.toList.length → es < hi → es < start + fuel → es - start ≤ 2 ^ n →
    Asks f I (n + 1) (fun r => Focus.Ok r.2 v 0 v.toList.length) (expandStartU f fuel fo start es) := by
  intro fuel
  induction fuel with
  | zero => intros; omega
  | succ fuel ih =>
    intro fo start es n hf h0 h1 h2 h3 h4 h5
    have := i.lt
    have := i.len
    rw [expandStartU, uadd_ok (by omega)]
    refine .lift rfl ?_
    simp only [beq_iff_eq]
    by_cases hc : start + 1 = es
    · rw [if_pos hc]
      obtain ⟨fo', e, hf'⟩ := Focus.index_ok i hf (idx := start) (by omega)
      refine .lift e ?_
      refine ((Asks.ask (hI _ _ (by omega) (by omega))).bind (k := 0) ?_).mono (by omega) fun _ h => h
      intro c _
      exact .pure hf'
    · rw [if_neg hc]
      have ha := avg_eq start es
      generalize avg start es = mid at ha
      obtain ⟨fo', e, hf'⟩ := Focus.index_ok i hf (idx := mid) (by omega)
      refine .lift e ?_
      obtain ⟨k, rfl⟩ : ∃ k, n = k + 1 := ⟨n - 1, by cases n <;> simp_all; omega⟩
      rw [Nat.pow_succ] at h5
      refine ((Asks.ask (hI _ _ (by omega) (by omega))).bind (k := k + 1) ?_).mono (by omega) fun _ h => h
      intro c _
      split
      · exact ih hf' h0 (by omega) (by omega) (by omega) (by omega) (by omega)
      · exact ih hf' (by omega) (by omega) (by omega) (by omega) (by omega) (by omega)

theorem expandEndU_asks (i : InvH v h) {lo hi : Nat} (hI : ∀ k (hk : k < v.toList.length), lo ≤ k → k < hi → I v.toList[k]) :
    ∀ (fuel : Nat) {fo : Focus α} {ee stop n : Nat}, Focus.Ok fo v 0 v.toList.length → lo ≤ ee → ee < stop →
    stop ≤ v.toList.length → stop ≤ hi → stop < ee + 1 + fuel → stop - ee ≤ 2 ^ n →
    Asks f I n (fun r => r < v.toList.length) (expandEndU f fuel fo ee stop) := by
  intro fuel
  induction fuel with
  | zero => intros; omega
  | succ fuel ih =>
    intro fo ee stop n hf h0 h1 h2 h3 h4 h5
    have := i.lt
    have := i.len
    rw [expandEndU, uadd_ok (by omega)]
    refine .lift rfl ?_
    simp only [beq_iff_eq]
    by_cases hc : ee + 1 = stop
    · rw [if_pos hc]
      exact .pure (by omega)
    · rw [if_neg hc]
      have ha := avg_eq ee stop
      generalize avg ee stop = mid at ha
      obtain ⟨fo', e, hf'⟩ := Focus.index_ok i hf (idx := mid) (by omega)
      refine .lift e ?_
      obtain ⟨k, rfl⟩ : ∃ k, n = k + 1 := ⟨n - 1, by cases n <;> simp_all; omega⟩
      rw [Nat.pow_succ] at h5
      refine ((Asks.ask (hI _ _ (by omega) (by omega))).bind (k := k) ?_).mono (by omega) fun _ h => h
      intro c _
      split
      · exact ih hf' (by omega) (by omega) (by omega) (by omega) (by omega) (by omega)
      · exact ih hf' (by omega) (by omega) (by omega) (by omega) (by omega) (by omega)

/-- `n` and `k` bound the parts of the range before and after the index. -/
theorem equalRangeForIndexU_asks (i : InvH v h) {sb eb : Bound} {lo hi index n k : Nat}
    (hI : ∀ k (hk : k < v.toList.length), lo ≤ k → k < hi → I v.toList[k])
    (ha : rangeStart sb = .ok lo) (hb : searchEnd v.len eb = .ok hi) (hle : hi ≤ v.toList.length)
    (hn : index - lo ≤ 2 ^ n) (hk : hi - index ≤ 2 ^ k) :
    Asks f I (1 + (n + 1 + k)) (fun _ => True) (v.equalRangeForIndexInRangeByU index f sb eb) := by
  have := i.lt
  have := i.len
  refine .lift ha (.lift hb ?_)
  split
  · exact .pure trivial
  rename_i hc
  obtain ⟨fo, e, hf⟩ := Focus.new_ok i
  obtain ⟨fo', e', hf'⟩ := Focus.index_ok i hf (idx := index) (by omega)
  refine .lift e (.lift e' ?_)
  refine (Asks.ask (hI _ _ (by omega) (by omega))).bind ?_
  intro c _
  split
  · exact .pure trivial
  refine Asks.bind (n := n + 1) (P := fun r => Focus.Ok r.2 v 0 v.toList.length) ?_ ?_
  · simp only [bne_iff_ne, ne_eq, ite_not]
    split
    · exact .pure hf'
    · exact expandStartU_asks i hI _ hf' (Nat.le_refl _) (by omega) (by omega) (by omega) (by omega) hn
  · intro r hr
    refine (Asks.bind (k := 0) (expandEndU_asks i hI _ hr (by omega) (by omega) (by omega) (by omega) (by omega) hk) ?_).mono
      (by omega) fun _ h => h
    intro e he
    exact .lift (uadd_ok (by omega)) (.pure trivial)

theorem searchLoopU_asks (i : InvH v h) {lo hi : Nat} (hI : ∀ k (hk : k < v.toList.length), lo ≤ k → k < hi → I v.toList[k]) :
    ∀ (fuel : Nat) {fo : Focus α} {a b n : Nat}, Focus.Ok fo v 0 v.toList.length → lo ≤ a → a < b →
    b ≤ v.toList.length → b ≤ hi → b < a + 1 + fuel → b - a ≤ 2 ^ n →
    Asks f I (2 * n + 1) (fun _ => True) (searchLoopU v f fuel fo a b) := by
  intro fuel
  induction fuel with
  | zero => intros; omega
  | succ fuel ih =>
    intro fo a b n hf h0 h1 h2 h3 h4 h5
    have := i.lt
    have := i.len
    rw [searchLoopU, uadd_ok (by omega)]
    refine .lift rfl ?_
    simp only [beq_iff_eq]
    by_cases hc : a + 1 = b
    · rw [if_pos hc]
      obtain ⟨fo', e, hf'⟩ := Focus.index_ok i hf (idx := a) (by omega)
      refine .lift e ?_
      refine ((Asks.ask (hI _ _ (by omega) (by omega))).bind (k := 0) ?_).mono (by omega) fun _ h => h
      intro c _
      cases c <;> exact .pure trivial
    · rw [if_neg hc]
      have ha := avg_eq a b
      generalize avg a b = mid at ha
      obtain ⟨fo', e, hf'⟩ := Focus.index_ok i hf (idx := mid) (by omega)
      refine .lift e ?_
      obtain ⟨k, rfl⟩ : ∃ k, n = k + 1 := ⟨n - 1, by cases n <;> simp_all; omega⟩
      rw [Nat.pow_succ] at h5
      refine ((Asks.ask (hI _ _ (by omega) (by omega))).bind (k := 2 * k + 2) ?_).mono (by omega) fun _ h => h
      intro c _
      cases c with
      | lt => exact (ih (n := k) hf' (by omega) (by omega) (by omega) (by omega) (by omega) (by omega)).mono (by omega) fun _ h => h
      | gt => exact (ih (n := k) hf' (by omega) (by omega) (by omega) (by omega) (by omega) (by omega)).mono (by omega) fun _ h => h
      | eq =>
        refine ((equalRangeForIndexU_asks i (sb := .included a) (eb := .excluded b) (index := mid) (n := k) (k := k)
          (fun k hk h1 h2 => hI k hk (by omega) (by omega)) rfl rfl h2 (by omega) (by omega)).bind (k := 0) ?_).mono
          (by omega) fun _ h => h
        intro p _
        exact .pure trivial

/-! ### With a comparison that does not panic and answers like a function -/

/-- How `m` ends does not depend on the state. -/
structure Ends (m : U γ τ) (m' : M τ) : Prop where
  of : ∀ g, (show M τ × γ from m g).1 = m'

theorem Ends.pure {y : τ} : Ends (γ := γ) (pure y) (.ok y) := ⟨fun _ => rfl⟩

theorem Ends.throw {e : Fault} : Ends (γ := γ) (τ := τ) (throw e) (.error e) := ⟨fun _ => rfl⟩

theorem Ends.bind {m : U γ τ} {m' : M τ} {k : τ → U γ υ} {k' : τ → M υ} (h : Ends m m') (hk : ∀ y, Ends (k y) (k' y)) :
    Ends (m >>= k) (m' >>= k') := by
  refine ⟨fun g => ?_⟩
  rw [U.bind_apply]
  have := h.of g
  rcases hm : (show M τ × γ from m g) with ⟨_ | y, g'⟩
  · rw [hm] at this; rw [← this]; rfl
  · rw [hm] at this; rw [← this]; exact (hk y).of g'

theorem Ends.lift {m : M τ} {k : τ → U γ υ} {k' : τ → M υ} (hk : ∀ y, Ends (k y) (k' y)) :
    Ends ((liftM m : U γ τ) >>= k) (m >>= k') := by
  refine Ends.bind ⟨fun g => ?_⟩ hk
  cases m <;> rfl

theorem Ends.ite {m k : U γ τ} {m' k' : M τ} {c : Prop} [Decidable c] (h : Ends m m') (h' : Ends k k') :
    Ends (if c then m else k) (if c then m' else k') := by
  split
  · exact h
  · exact h'

theorem Ends.ask {f' : α → Ordering} (hf : ∀ g x, (f g x).1 = some (f' x)) {x : α} {k : Ordering → U γ υ} {m : M υ}
    (h : Ends (k (f' x)) m) : Ends (f.ask x >>= k) m := by
  refine ⟨fun g => ?_⟩
  rw [U.bind_apply]
  have := hf g x
  unfold Probe.ask
  rcases he : f g x with ⟨_ | c, g'⟩
  · rw [he] at this; cases this
  · rw [he] at this; cases this; exact h.of g'

theorem expandStartU_ends {f' : α → Ordering} (hf : ∀ g x, (f g x).1 = some (f' x)) : ∀ fuel fo a b,
    Ends (expandStartU f fuel fo a b) (expandStart f' fuel fo a b) := by
  intro fuel
  induction fuel with
  | zero => intros; exact .throw
  | succ fuel ih =>
    intro fo a b
    rw [expandStartU, expandStart]
    refine .lift fun s => .ite (.lift fun r => .ask hf .pure) (.lift fun r => .ask hf (.ite (ih ..) (ih ..)))

theorem expandEndU_ends {f' : α → Ordering} (hf : ∀ g x, (f g x).1 = some (f' x)) : ∀ fuel fo a b,
    Ends (expandEndU f fuel fo a b) (expandEnd f' fuel fo a b) := by
  intro fuel
  induction fuel with
  | zero => intros; exact .throw
  | succ fuel ih =>
    intro fo a b
    rw [expandEndU, expandEnd]
    refine .lift fun s => .ite .pure (.lift fun r => .ask hf (.ite (ih ..) (ih ..)))

theorem equalRangeForIndexU_ends {f' : α → Ordering} (hf : ∀ g x, (f g x).1 = some (f' x)) (v : RVec α) (index : Nat)
    (sb eb : Bound) : Ends (v.equalRangeForIndexInRangeByU index f sb eb) (v.equalRangeForIndexInRangeBy index f' sb eb) := by
  refine .lift fun a => .lift fun b => .ite .pure (.lift fun fo => .lift fun r => .ask hf (.ite .pure ?_))
  refine .bind (.ite (expandStartU_ends hf ..) .pure) fun p => .bind (expandEndU_ends hf ..) fun e => .lift fun e => .pure

theorem searchLoopU_ends {f' : α → Ordering} (hf : ∀ g x, (f g x).1 = some (f' x)) (v : RVec α) : ∀ fuel fo a b,
    Ends (searchLoopU v f fuel fo a b) (searchLoop v f' fuel fo a b) := by
  intro fuel
  induction fuel with
  | zero => intros; exact .throw
  | succ fuel ih =>
    intro fo a b
    rw [searchLoopU, searchLoop]
    refine .lift fun s => .ite (.lift fun r => .ask hf ?_) (.lift fun r => .ask hf ?_)
    · cases f' r.1 <;> exact .pure
    · cases f' r.1 with
      | lt => exact ih ..
      | gt => exact ih ..
      | eq => exact .bind (equalRangeForIndexU_ends hf ..) fun p => .pure

end RVec
end Librrb
