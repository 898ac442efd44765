import Verif.Proof.Focus

/-! # The searches and comparisons -/
namespace Librrb

theorem Focus.index_ok {f : Focus α} {v : RVec α} {h : Nat} (i : RVec.InvH v h) (ho : Ok f v 0 v.toList.length)
    {idx : Nat} (hi : idx < v.toList.length) :
    ∃ f', f.index idx = .ok (v.toList[idx], f') ∧ Ok f' v 0 v.toList.length := by
  have := i.lt
  have := i.len
  obtain ⟨f', e, ho'⟩ := get_ok i ho idx (by omega)
  rw [if_pos (by omega), Nat.zero_add, List.getElem?_eq_getElem hi] at e
  exact ⟨f', by simp only [index, e, ok_bind, unwrap_some], ho'⟩

theorem Focus.index_out {f : Focus α} {v : RVec α} {h : Nat} (i : RVec.InvH v h) (ho : Ok f v 0 v.toList.length)
    {idx : Nat} (hi : v.toList.length ≤ idx) : ∃ e, f.index idx = .error e := by
  by_cases hl : idx < USIZE_LIMIT
  · obtain ⟨f', e, ho'⟩ := get_ok i ho idx (by omega)
    rw [if_neg (by omega)] at e
    exact ⟨.panic, by simp only [index, e, ok_bind]; rfl⟩
  · obtain ⟨-, ⟨h1, -⟩, -⟩ := ho
    refine ⟨.overflow, ?_⟩
    simp only [index, get, uadd]
    rw [if_neg (by omega)]
    rfl

namespace RVec

theorem avg_eq (x y : Nat) : avg x y = (x + y) / 2 := by
  unfold avg; omega

theorem expandStart_ok {v : RVec α} {h : Nat} (i : InvH v h) {f : α → Ordering} {o : Nat → Ordering}
    (ho : ∀ k (hk : k < v.toList.length), f v.toList[k] = o k) :
    ∀ (fuel : Nat) {fo : Focus α} {start es : Nat}, Focus.Ok fo v 0 v.toList.length → start < es →
    es < v.toList.length → es < start + fuel → o es = .eq →
    ∃ s fo', expandStart f fuel fo start es = .ok (s, fo') ∧ Focus.Ok fo' v 0 v.toList.length ∧ start ≤ s ∧ s ≤ es ∧
      o s = .eq ∧ ((∀ j k, start ≤ j → j ≤ k → k ≤ es → o j = .eq → o k = .eq) →
        ∀ k, start ≤ k → k < s → o k ≠ .eq) := by
  intro fuel
  induction fuel with
  | zero => intros; omega
  | succ fuel ih =>
    intro fo start es hf h1 h2 h3 h4
    have := i.lt
    have := i.len
    rw [expandStart, uadd_ok (by omega)]
    simp only [ok_bind, beq_iff_eq]
    by_cases hc : start + 1 = es
    · rw [if_pos hc]
      obtain ⟨fo', e, hf'⟩ := Focus.index_ok i hf (idx := start) (by omega)
      simp only [e, ok_bind, ho]
      by_cases he : o start = .eq
      · exact ⟨start, fo', by rw [if_pos he], hf', by omega, by omega, he, fun _ k _ _ => by omega⟩
      · refine ⟨es, fo', by rw [if_neg he], hf', by omega, by omega, h4, fun _ k hk hk' => ?_⟩
        rwa [show k = start by omega]
    · rw [if_neg hc]
      have ha := avg_eq start es
      generalize avg start es = mid at ha
      obtain ⟨fo', e, hf'⟩ := Focus.index_ok i hf (idx := mid) (by omega)
      simp only [e, ok_bind, ho]
      by_cases he : o mid = .eq
      · rw [if_pos he]
        obtain ⟨s, fo'', e2, hf'', a1, a2, a3, a4⟩ := ih hf' (start := start) (es := mid) (by omega) (by omega) (by omega) he
        refine ⟨s, fo'', e2, hf'', a1, by omega, a3, fun hm k hk hk' => ?_⟩
        exact a4 (fun j k hj hjk hk => hm j k hj hjk (by omega)) k hk hk'
      · rw [if_neg he]
        obtain ⟨s, fo'', e2, hf'', a1, a2, a3, a4⟩ := ih hf' (start := mid) (es := es) (by omega) (by omega) (by omega) h4
        refine ⟨s, fo'', e2, hf'', by omega, by omega, a3, fun hm k hk hk' => ?_⟩
        by_cases hkm : k < mid
        · intro hke
          exact he (hm k mid hk (by omega) (by omega) hke)
        · exact a4 (fun j k hj hjk hk => hm j k (by omega) hjk (by omega)) k (by omega) hk'

theorem expandEnd_ok {v : RVec α} {h : Nat} (i : InvH v h) {f : α → Ordering} {o : Nat → Ordering}
    (ho : ∀ k (hk : k < v.toList.length), f v.toList[k] = o k) :
    ∀ (fuel : Nat) {fo : Focus α} {ee stop : Nat}, Focus.Ok fo v 0 v.toList.length → ee < stop →
    stop ≤ v.toList.length → stop < ee + 1 + fuel → o ee = .eq →
    ∃ e, expandEnd f fuel fo ee stop = .ok e ∧ ee ≤ e ∧ e < stop ∧
      o e = .eq ∧ ((∀ j k, ee ≤ j → j ≤ k → k < stop → o k = .eq → o j = .eq) →
        ∀ k, e < k → k < stop → o k ≠ .eq) := by
  intro fuel
  induction fuel with
  | zero => intros; omega
  | succ fuel ih =>
    intro fo ee stop hf h1 h2 h3 h4
    have := i.lt
    have := i.len
    rw [expandEnd, uadd_ok (by omega)]
    simp only [ok_bind, beq_iff_eq]
    by_cases hc : ee + 1 = stop
    · rw [if_pos hc]
      exact ⟨ee, rfl, by omega, by omega, h4, fun _ k _ _ => by omega⟩
    · rw [if_neg hc]
      have ha := avg_eq ee stop
      generalize avg ee stop = mid at ha
      obtain ⟨fo', e, hf'⟩ := Focus.index_ok i hf (idx := mid) (by omega)
      simp only [e, ok_bind, ho]
      by_cases he : o mid = .eq
      · rw [if_pos he]
        obtain ⟨s, e2, a1, a2, a3, a4⟩ := ih hf' (ee := mid) (stop := stop) (by omega) (by omega) (by omega) he
        refine ⟨s, e2, by omega, by omega, a3, fun hm k hk hk' => ?_⟩
        exact a4 (fun j k hj hjk hk => hm j k (by omega) hjk (by omega)) k hk hk'
      · rw [if_neg he]
        obtain ⟨s, e2, a1, a2, a3, a4⟩ := ih hf' (ee := ee) (stop := mid) (by omega) (by omega) (by omega) h4
        refine ⟨s, e2, by omega, by omega, a3, fun hm k hk hk' => ?_⟩
        by_cases hkm : k < mid
        · exact a4 (fun j k hj hjk hk => hm j k (by omega) hjk (by omega)) k (by omega) hkm
        · intro hke
          exact he (hm mid k (by omega) (by omega) (by omega) hke)

/-- The positions `a..b` of a list are sorted with respect to a comparison of positions. -/
def SortedAt (o : Nat → Ordering) (a b : Nat) : Prop :=
  ∀ j k, a ≤ j → j ≤ k → k < b → (o k = .lt → o j = .lt) ∧ (o j = .gt → o k = .gt)

theorem SortedAt.block {o : Nat → Ordering} {a b : Nat} (hs : SortedAt o a b) {j m k : Nat} (h1 : a ≤ j) (h2 : j ≤ m)
    (h3 : m ≤ k) (h4 : k < b) (hj : o j = .eq) (hk : o k = .eq) : o m = .eq := by
  have a1 := (hs m k (by omega) h3 h4).2
  have a2 := (hs j m h1 h2 (by omega)).1
  cases hm : o m with
  | eq => rfl
  | lt => rw [a2 hm] at hj; cases hj
  | gt => rw [a1 hm] at hk; cases hk

theorem equalRangeForIndex_ok {v : RVec α} {h : Nat} (i : InvH v h) {f : α → Ordering} {o : Nat → Ordering}
    (ho : ∀ k (hk : k < v.toList.length), f v.toList[k] = o k) {sb eb : Bound} {a b index : Nat}
    (ha : rangeStart sb = .ok a) (hb : searchEnd v.len eb = .ok b) (hbl : b ≤ v.toList.length) :
    ((index < a ∨ b ≤ index ∨ o index ≠ .eq) → v.equalRangeForIndexInRangeBy index f sb eb = .ok (0, 0)) ∧
    (a ≤ index → index < b → o index = .eq →
      ∃ s e, v.equalRangeForIndexInRangeBy index f sb eb = .ok (s, e) ∧ a ≤ s ∧ s ≤ index ∧ index < e ∧ e ≤ b ∧
        (SortedAt o a b → ∀ k, a ≤ k → k < b → (o k = .eq ↔ s ≤ k ∧ k < e))) := by
  have := i.lt
  have := i.len
  constructor
  · intro hc
    rw [equalRangeForIndexInRangeBy, ha, ok_bind, hb, ok_bind]
    by_cases hr : index < a ∨ index ≥ b
    · rw [if_pos hr]
    · rw [if_neg hr]
      obtain ⟨fo, e, hf⟩ := Focus.new_ok i
      obtain ⟨fo', e', hf'⟩ := Focus.index_ok i hf (idx := index) (by omega)
      have hne : o index ≠ .eq := by
        rcases hc with hc | hc | hc
        · omega
        · omega
        · exact hc
      simp only [e, ok_bind, e', ho]
      rw [if_pos (by simpa using hne)]
  · intro h1 h2 h3
    rw [equalRangeForIndexInRangeBy, ha, ok_bind, hb, ok_bind]
    rw [if_neg (by omega)]
    obtain ⟨fo, e, hf⟩ := Focus.new_ok i
    obtain ⟨fo', e', hf'⟩ := Focus.index_ok i hf (idx := index) (by omega)
    simp only [e, ok_bind, e', ho]
    rw [if_neg (by simpa using h3)]
    have key : ∃ s fo'', (if index != a then expandStart f (index - a + 1) fo' a index else .ok (index, fo')) = .ok (s, fo'') ∧
        Focus.Ok fo'' v 0 v.toList.length ∧ a ≤ s ∧ s ≤ index ∧
        o s = .eq ∧ ((∀ j k, a ≤ j → j ≤ k → k ≤ index → o j = .eq → o k = .eq) →
          ∀ k, a ≤ k → k < s → o k ≠ .eq) := by
      by_cases hia : index = a
      · subst hia
        exact ⟨index, fo', by simp, hf', by omega, by omega, h3, fun _ k _ _ => by omega⟩
      · rw [if_pos (by simpa using hia)]
        exact expandStart_ok i ho _ hf' (by omega) (by omega) (by omega) h3
    obtain ⟨s, fo2, e2, hf2, s1, s2, s3, s4⟩ := key
    obtain ⟨t, e3, t1, t2, t3, t4⟩ := expandEnd_ok i ho (b - index + 1) hf2 (ee := index) (stop := b) h2 hbl (by omega) h3
    refine ⟨s, t + 1, ?_, s1, s2, by omega, by omega, fun hs k hk hk' => ?_⟩
    · rw [e2, ok_bind]
      simp only
      rw [e3, ok_bind, uadd_ok (by omega), ok_bind]
    · constructor
      · intro hke
        refine ⟨?_, ?_⟩
        · by_contra hh
          exact s4 (fun j k hj hjk hk hje => hs.block hj hjk hk h2 hje h3) k hk (by omega) hke
        · by_contra hh
          exact t4 (fun j k hj hjk hk hje => hs.block h1 hj hjk hk h3 hje) k (by omega) hk' hke
      · rintro ⟨k1, k2⟩
        exact hs.block s1 k1 (by omega : k ≤ t) (by omega) s3 t3

/-- What the loop of `equal_range_in_range_by` finds. -/
def HitAt (o : Nat → Ordering) (a b : Nat) : Hit → Prop
  | .found s e => a ≤ s ∧ s < e ∧ e ≤ b ∧ ∀ k, a ≤ k → k < b → (o k = .eq ↔ s ≤ k ∧ k < e)
  | .missing i => a ≤ i ∧ i ≤ b ∧ ∀ k, a ≤ k → k < b → (k < i → o k = .lt) ∧ (i ≤ k → o k = .gt)

theorem searchLoop_ok {v : RVec α} {h : Nat} (i : InvH v h) {f : α → Ordering} {o : Nat → Ordering}
    (ho : ∀ k (hk : k < v.toList.length), f v.toList[k] = o k) :
    ∀ (fuel : Nat) {fo : Focus α} {a b : Nat}, Focus.Ok fo v 0 v.toList.length → a < b →
    b ≤ v.toList.length → b < a + 1 + fuel →
    ∃ hit, searchLoop v f fuel fo a b = .ok hit ∧ (SortedAt o a b → HitAt o a b hit) := by
  intro fuel
  induction fuel with
  | zero => intros; omega
  | succ fuel ih =>
    intro fo a b hf h1 h2 h3
    have := i.lt
    have := i.len
    rw [searchLoop, uadd_ok (by omega)]
    simp only [ok_bind, beq_iff_eq]
    by_cases hc : a + 1 = b
    · rw [if_pos hc]
      obtain ⟨fo', e, hf'⟩ := Focus.index_ok i hf (idx := a) (by omega)
      simp only [e, ok_bind, ho]
      cases he : o a with
      | lt =>
        refine ⟨_, rfl, fun _ => ⟨by omega, by omega, fun k hk hk' => ?_⟩⟩
        rw [show k = a by omega]
        exact ⟨fun _ => he, fun _ => by omega⟩
      | gt =>
        refine ⟨_, rfl, fun _ => ⟨by omega, by omega, fun k hk hk' => ?_⟩⟩
        rw [show k = a by omega]
        exact ⟨fun _ => by omega, fun _ => he⟩
      | eq =>
        refine ⟨_, rfl, fun _ => ⟨by omega, by omega, by omega, fun k hk hk' => ?_⟩⟩
        rw [show k = a by omega]
        exact ⟨fun _ => ⟨by omega, by omega⟩, fun _ => he⟩
    · rw [if_neg hc]
      have ha := avg_eq a b
      generalize avg a b = mid at ha
      obtain ⟨fo', e, hf'⟩ := Focus.index_ok i hf (idx := mid) (by omega)
      simp only [e, ok_bind, ho]
      cases he : o mid with
      | lt =>
        obtain ⟨hit, e2, hh⟩ := ih hf' (a := mid) (b := b) (by omega) (by omega) (by omega)
        refine ⟨hit, e2, fun hs => ?_⟩
        have hh := hh fun j k hj hjk hk => hs j k (by omega) hjk hk
        have hl : ∀ k, a ≤ k → k ≤ mid → o k = .lt := fun k hk hk' => (hs k mid hk hk' (by omega)).1 he
        cases hit with
        | found s t =>
          obtain ⟨h1, h2, h3, h4⟩ := hh
          refine ⟨by omega, h2, h3, fun k hk hk' => ?_⟩
          by_cases hkm : k < mid
          · rw [hl k hk (by omega)]
            simp only [reduceCtorEq, false_iff]
            omega
          · exact h4 k (by omega) hk'
        | missing p =>
          obtain ⟨h1, h2, h3⟩ := hh
          refine ⟨by omega, h2, fun k hk hk' => ?_⟩
          by_cases hkm : k < mid
          · exact ⟨fun _ => hl k hk (by omega), fun _ => by omega⟩
          · exact h3 k (by omega) hk'
      | gt =>
        obtain ⟨hit, e2, hh⟩ := ih hf' (a := a) (b := mid) (by omega) (by omega) (by omega)
        refine ⟨hit, e2, fun hs => ?_⟩
        have hh := hh fun j k hj hjk hk => hs j k (by omega) hjk (by omega)
        have hl : ∀ k, mid ≤ k → k < b → o k = .gt := fun k hk hk' => (hs mid k (by omega) hk hk').2 he
        cases hit with
        | found s t =>
          obtain ⟨h1, h2, h3, h4⟩ := hh
          refine ⟨by omega, h2, by omega, fun k hk hk' => ?_⟩
          by_cases hkm : k < mid
          · exact h4 k (by omega) hkm
          · rw [hl k (by omega) hk']
            simp only [reduceCtorEq, false_iff]
            omega
        | missing p =>
          obtain ⟨h1, h2, h3⟩ := hh
          refine ⟨by omega, by omega, fun k hk hk' => ?_⟩
          by_cases hkm : k < mid
          · exact h3 k (by omega) hkm
          · exact ⟨fun _ => by omega, fun _ => hl k (by omega) hk'⟩
      | eq =>
        obtain ⟨s, t, e2, a1, a2, a3, a4, a5⟩ := (equalRangeForIndex_ok i ho (sb := .included a) (eb := .excluded b)
          (index := mid) rfl rfl h2).2 (by omega) (by omega) he
        simp only [e2, ok_bind]
        exact ⟨_, rfl, fun hs => ⟨a1, by omega, a4, a5 hs⟩⟩

/-- On an empty range whose position exists, the search stops only if the item there compares
`Equal`. -/
theorem searchLoop_empty {v : RVec α} {h : Nat} (i : InvH v h) {f : α → Ordering} {a : Nat} (ha : a < v.toList.length) :
    ∀ (fuel : Nat) {fo : Focus α}, Focus.Ok fo v 0 v.toList.length →
    searchLoop v f fuel fo a a =
      if fuel ≠ 0 ∧ f v.toList[a] = .eq then .ok (.found 0 0) else .error .diverge := by
  intro fuel
  induction fuel with
  | zero => intro fo _; simp [searchLoop]
  | succ fuel ih =>
    intro fo hf
    have := i.lt
    have := i.len
    obtain ⟨fo', e, hf'⟩ := Focus.index_ok i hf (idx := a) (by omega)
    rw [searchLoop, uadd_ok (by omega)]
    have hav : avg a a = a := by rw [avg_eq]; omega
    simp only [ok_bind, beq_iff_eq, hav, e]
    rw [if_neg (by omega)]
    cases hc : f v.toList[a] with
    | lt => simp only [ih hf', hc]; simp
    | gt => simp only [ih hf', hc]; simp
    | eq => simp [equalRangeForIndexInRangeBy, rangeStart, searchEnd]

theorem searchLoop_out {v : RVec α} {h : Nat} (i : InvH v h) {f : α → Ordering} {a : Nat} (ha : v.toList.length ≤ a)
    {fuel : Nat} {fo : Focus α} (hf : Focus.Ok fo v 0 v.toList.length) :
    ∃ e, searchLoop v f fuel fo a a = .error e := by
  cases fuel with
  | zero => exact ⟨_, rfl⟩
  | succ fuel =>
    rw [searchLoop]
    by_cases hl : a + 1 < USIZE_LIMIT
    · obtain ⟨e, he⟩ := Focus.index_out i hf (idx := a) ha
      have hav : avg a a = a := by rw [avg_eq]; omega
      rw [uadd_ok hl]
      simp only [ok_bind, beq_iff_eq, hav, he]
      rw [if_neg (by omega)]
      exact ⟨e, rfl⟩
    · refine ⟨.overflow, ?_⟩
      rw [uadd, if_neg hl]
      rfl

end RVec

theorem VIter.next_nil {v : RVec α} {h : Nat} (i : RVec.InvH v h) {it : VIter α} (hm : Has v it []) :
    ∃ it', it.next = .ok (none, it') := by
  obtain ⟨it', e, -⟩ := VIter.step_ok i .front it [] hm
  exact ⟨it', e⟩

theorem VIter.next_cons {v : RVec α} {h : Nat} (i : RVec.InvH v h) {it : VIter α} {x : α} {m : List α}
    (hm : Has v it (x :: m)) : ∃ it', it.next = .ok (some x, it') ∧ Has v it' m := by
  obtain ⟨it', e, h'⟩ := VIter.step_ok i .front it (x :: m) hm
  exact ⟨it', e, h'⟩

namespace RVec

theorem iterEq_ok {v w : RVec α} {h1 h2 : Nat} (i1 : InvH v h1) (i2 : InvH w h2) (eq : α → α → Bool) :
    ∀ (l m : List α) {fuel : Nat} {a b : VIter α}, VIter.Has v a l → VIter.Has w b m → l.length < fuel →
    iterEq eq fuel a b = .ok (l.isEqv m eq) := by
  intro l
  induction l with
  | nil =>
    rintro m (_ | fuel) a b ha hb hf
    · omega
    obtain ⟨a', ea⟩ := VIter.next_nil i1 ha
    simp only [iterEq, ea, ok_bind]
    cases m with
    | nil =>
      obtain ⟨b', eb⟩ := VIter.next_nil i2 hb
      simp [eb, List.isEqv]
    | cons y m =>
      obtain ⟨b', eb, hb'⟩ := VIter.next_cons i2 hb
      simp [eb, List.isEqv]
  | cons x l ih =>
    rintro m (_ | fuel) a b ha hb hf
    · omega
    obtain ⟨a', ea, ha'⟩ := VIter.next_cons i1 ha
    simp only [iterEq, ea, ok_bind]
    cases m with
    | nil =>
      obtain ⟨b', eb⟩ := VIter.next_nil i2 hb
      simp [eb, List.isEqv]
    | cons y m =>
      obtain ⟨b', eb, hb'⟩ := VIter.next_cons i2 hb
      simp only [eb, ok_bind, List.isEqv]
      cases eq x y with
      | true => simpa using ih m ha' hb' (by simpa using hf)
      | false => simp

theorem isEqv_length (eq : α → α → Bool) (l m : List α) (h : l.isEqv m eq = true) : l.length = m.length := by
  induction l generalizing m with
  | nil => cases m <;> simp_all [List.isEqv]
  | cons x l ih =>
    cases m with
    | nil => simp [List.isEqv] at h
    | cons y m =>
      simp only [List.isEqv, Bool.and_eq_true] at h
      simp [ih m h.2]

theorem eqVec_ok {v w : RVec α} {h1 h2 : Nat} (i1 : InvH v h1) (i2 : InvH w h2) (eq : α → α → Bool) :
    eqVec eq v w = .ok (v.toList.isEqv w.toList eq) := by
  unfold eqVec
  obtain ⟨a, ea, ha⟩ := VIter.new_ok i1
  obtain ⟨b, eb, hb⟩ := VIter.new_ok i2
  by_cases hl : v.len = w.len
  · rw [if_pos (by simpa using hl), ea, eb]
    exact iterEq_ok i1 i2 eq _ _ ha hb (by rw [i1.len]; omega)
  · rw [if_neg (by simpa using hl)]
    rw [i1.len, i2.len] at hl
    cases hc : v.toList.isEqv w.toList eq with
    | false => rfl
    | true => exact absurd (isEqv_length _ _ _ hc) hl

theorem iterPartialCmp_ok {v w : RVec α} {h1 h2 : Nat} (i1 : InvH v h1) (i2 : InvH w h2)
    (cmp : α → α → Option Ordering) :
    ∀ (l m : List α) {fuel : Nat} {a b : VIter α}, VIter.Has v a l → VIter.Has w b m → l.length < fuel →
    iterPartialCmp cmp fuel a b = .ok (lexPartial cmp l m) := by
  intro l
  induction l with
  | nil =>
    rintro m (_ | fuel) a b ha hb hf
    · omega
    obtain ⟨a', ea⟩ := VIter.next_nil i1 ha
    simp only [iterPartialCmp, ea, ok_bind]
    cases m with
    | nil =>
      obtain ⟨b', eb⟩ := VIter.next_nil i2 hb
      simp [eb, lexPartial]
    | cons y m =>
      obtain ⟨b', eb, hb'⟩ := VIter.next_cons i2 hb
      simp [eb, lexPartial]
  | cons x l ih =>
    rintro m (_ | fuel) a b ha hb hf
    · omega
    obtain ⟨a', ea, ha'⟩ := VIter.next_cons i1 ha
    simp only [iterPartialCmp, ea, ok_bind]
    cases m with
    | nil =>
      obtain ⟨b', eb⟩ := VIter.next_nil i2 hb
      simp [eb, lexPartial]
    | cons y m =>
      obtain ⟨b', eb, hb'⟩ := VIter.next_cons i2 hb
      simp only [eb, ok_bind, lexPartial]
      rcases hc : cmp x y with _ | (_ | _ | _)
      · simp
      · simp
      · simpa using ih m ha' hb' (by simpa using hf)
      · simp

theorem partialCmp_ok {v w : RVec α} {h1 h2 : Nat} (i1 : InvH v h1) (i2 : InvH w h2) (cmp : α → α → Option Ordering) :
    partialCmp cmp v w = .ok (lexPartial cmp v.toList w.toList) := by
  obtain ⟨a, ea, ha⟩ := VIter.new_ok i1
  obtain ⟨b, eb, hb⟩ := VIter.new_ok i2
  rw [partialCmp, ea, eb]
  exact iterPartialCmp_ok i1 i2 cmp _ _ ha hb (by rw [i1.len]; omega)

theorem iterCmp_ok {v w : RVec α} {h1 h2 : Nat} (i1 : InvH v h1) (i2 : InvH w h2) (cmp : α → α → Ordering) :
    ∀ (l m : List α) {fuel : Nat} {a b : VIter α}, VIter.Has v a l → VIter.Has w b m → l.length < fuel →
    iterCmp cmp fuel a b = .ok (l.compareLex cmp m) := by
  intro l
  induction l with
  | nil =>
    rintro m (_ | fuel) a b ha hb hf
    · omega
    obtain ⟨a', ea⟩ := VIter.next_nil i1 ha
    simp only [iterCmp, ea, ok_bind]
    cases m with
    | nil =>
      obtain ⟨b', eb⟩ := VIter.next_nil i2 hb
      simp [eb, List.compareLex]
    | cons y m =>
      obtain ⟨b', eb, hb'⟩ := VIter.next_cons i2 hb
      simp [eb, List.compareLex]
  | cons x l ih =>
    rintro m (_ | fuel) a b ha hb hf
    · omega
    obtain ⟨a', ea, ha'⟩ := VIter.next_cons i1 ha
    simp only [iterCmp, ea, ok_bind]
    cases m with
    | nil =>
      obtain ⟨b', eb⟩ := VIter.next_nil i2 hb
      simp [eb, List.compareLex]
    | cons y m =>
      obtain ⟨b', eb, hb'⟩ := VIter.next_cons i2 hb
      simp only [eb, ok_bind, List.compareLex_cons_cons]
      cases hc : cmp x y with
      | lt => rfl
      | gt => rfl
      | eq => exact ih m ha' hb' (by simpa using hf)

theorem cmpVec_ok {v w : RVec α} {h1 h2 : Nat} (i1 : InvH v h1) (i2 : InvH w h2) (cmp : α → α → Ordering) :
    cmpVec cmp v w = .ok (v.toList.compareLex cmp w.toList) := by
  obtain ⟨a, ea, ha⟩ := VIter.new_ok i1
  obtain ⟨b, eb, hb⟩ := VIter.new_ok i2
  rw [cmpVec, ea, eb]
  exact iterCmp_ok i1 i2 cmp _ _ ha hb (by rw [i1.len]; omega)

theorem hashLoop_ok {v : RVec α} {h : Nat} (i : InvH v h) (hash : α → H → H) :
    ∀ (l : List α) {fuel : Nat} {a : VIter α} (st : H), VIter.Has v a l → l.length < fuel →
    hashLoop hash fuel a st = .ok (l.foldl (fun s x => hash x s) st) := by
  intro l
  induction l with
  | nil =>
    rintro (_ | fuel) a st ha hf
    · omega
    obtain ⟨a', ea⟩ := VIter.next_nil i ha
    simp [hashLoop, ea]
  | cons x l ih =>
    rintro (_ | fuel) a st ha hf
    · omega
    obtain ⟨a', ea, ha'⟩ := VIter.next_cons i ha
    simp only [hashLoop, ea, ok_bind, List.foldl_cons]
    exact ih _ ha' (by simpa using hf)

theorem hashVec_ok {v : RVec α} {h : Nat} (i : InvH v h) (hash : α → H → H) (st : H) :
    hashVec hash v st = .ok (v.toList.foldl (fun s x => hash x s) st) := by
  obtain ⟨a, ea, ha⟩ := VIter.new_ok i
  rw [hashVec, ea]
  exact hashLoop_ok i hash _ st ha (by rw [i.len]; omega)

end RVec
end Librrb
