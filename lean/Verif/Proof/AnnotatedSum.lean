import Verif.Proof.Annotated
import Verif.Proof.Dense

/-! # Sums of annotated nodes whose caches are right -/
namespace Librrb

/-- The sum of the items at the positions `a..b`. -/
def sliceSum (l : List Nat) (a b : Nat) : Nat := ((l.take b).drop a).sum

theorem sliceSum_append (l m : List Nat) (a b : Nat) :
    sliceSum (l ++ m) a b = sliceSum l a b + sliceSum m (a - l.length) (b - l.length) := by
  unfold sliceSum
  rw [List.take_append, List.drop_append, List.sum_append, List.length_take]
  by_cases h : l.length ≤ b
  · rw [Nat.min_eq_right h]
  · have : b - l.length = 0 := by omega
    simp [this]

theorem sliceSum_le (l : List Nat) (a b : Nat) : sliceSum l a b ≤ l.sum := by
  unfold sliceSum
  conv => rhs; rw [← List.take_append_drop b l, List.sum_append, ← List.take_append_drop a (l.take b), List.sum_append]
  omega

theorem sliceSum_empty {l : List Nat} {a b : Nat} (h : b = 0 ∨ l.length ≤ a) : sliceSum l a b = 0 := by
  unfold sliceSum
  rcases h with rfl | h
  · simp
  · rw [List.drop_eq_nil_of_le (by simp; omega)]; rfl

theorem sliceSum_all {l : List Nat} {b : Nat} (h : l.length ≤ b) : sliceSum l 0 b = l.sum := by
  unfold sliceSum
  rw [List.take_of_length_le h]; rfl

theorem sliceSum_min (l : List Nat) (a b : Nat) : sliceSum l a (min b l.length) = sliceSum l a b := by
  unfold sliceSum
  rw [← List.take_take, List.take_length]

namespace ANode

/-- A node at level `n` that holds the items `l`, all of whose cached sums are right. -/
def Right : Nat → ANode → List Nat → Prop
  | 0, nd, l => ∃ b, nd = .leaf b l.sum ∧ b.Rep l
  | n + 1, nd, l => ∃ s c ks ls, nd = .internal s (Node.tagFor (n + 1)) c l.sum ∧
      s.Rep (n + 1) (ls.map List.length) ∧ c.Rep ks ∧ List.Forall₂ (Right n) ks ls ∧ l = ls.flatten

theorem Right.len {n : Nat} {nd : ANode} {l : List Nat} (h : Right n nd l) : nd.len = .ok l.length := by
  cases n with
  | zero => obtain ⟨b, rfl, hb⟩ := h; rw [ANode.len, hb.len_eq]
  | succ n =>
    obtain ⟨s, c, ks, ls, rfl, hs, hc, hk, rfl⟩ := h
    rw [ANode.len, SizeTable.cumulativeSize_ok hs, List.length_flatten]

theorem Right.level {n : Nat} {nd : ANode} {l : List Nat} (h : Right n nd l) : nd.level = n := by
  cases n with
  | zero => obtain ⟨b, rfl, hb⟩ := h; rfl
  | succ n =>
    obtain ⟨s, c, ks, ls, rfl, hs, hc, hk, rfl⟩ := h
    exact hs.1

theorem Right.cached {n : Nat} {nd : ANode} {l : List Nat} (h : Right n nd l) : nd.cached = l.sum := by
  cases n with
  | zero => obtain ⟨b, rfl, hb⟩ := h; rfl
  | succ n => obtain ⟨s, c, ks, ls, rfl, hs, hc, hk, rfl⟩ := h; rfl

theorem _root_.Librrb.CB.Rep.map {b : CB α} {l : List α} (h : b.Rep l) (f : α → β) : (b.map f).Rep (l.map f) where
  size := by simpa using h.size
  front_lt := h.front_lt
  len_eq := by simpa using h.len_eq
  le := by simpa using h.le
  slot i hi := by simp [h.slot i hi]

theorem Right.toList : ∀ {n : Nat} {nd : ANode} {l : List Nat}, Right n nd l → nd.erase.toList = l
  | 0, nd, l, h => by obtain ⟨b, rfl, hb⟩ := h; simpa using hb.toList
  | n + 1, nd, l, h => by
    obtain ⟨s, c, ks, ls, rfl, hs, hc, hk, rfl⟩ := h
    rw [erase_internal, Node.toList_internal, (hc.map erase).toList]
    clear hc hs
    induction hk with
    | nil => rfl
    | cons h1 _ ih => simp [h1.toList, ih]

/-- Every cached sum is the sum of the items, or of the cached sums of the children. The number is the
level. -/
def sumsRight : Nat → ANode → Bool
  | _, .leaf b s => s == b.toList.sum
  | 0, .internal _ _ _ _ => false
  | n + 1, .internal _ _ c s => s == (c.toList.map ANode.cached).sum && c.toList.all (sumsRight n)

theorem _root_.Librrb.CB.map_toList (b : CB α) (f : α → β) : (b.map f).toList = b.toList.map f := by
  unfold CB.toList
  rw [List.map_filterMap]
  congr 1
  funext i
  simp only [CB.map_data, CB.map_front, List.getElem?_map]
  rcases b.data[(b.front + i) % 64]? with _ | _ | x <;> rfl

theorem _root_.Librrb.CB.rep_of_map {b : CB α} {f : α → β} {l : List β} (h : (b.map f).Rep l) : b.Rep b.toList := by
  have hs : ∀ i, i < 64 → ∃ o, b.data[(b.front + i) % 64]? = some o ∧ o.map f = l[i]? := by
    intro i hi
    have := h.slot i hi
    simp only [CB.map_data, CB.map_front, List.getElem?_map] at this
    rcases hd : b.data[(b.front + i) % 64]? with _ | o
    · rw [hd] at this; cases this
    · rw [hd] at this; exact ⟨o, rfl, by simpa using this⟩
  have hlen := h.len_eq
  have hle := h.le
  simp only [CB.map_len] at hlen
  have ht : b.toList = (List.range b.len).filterMap fun i => (b.data[(b.front + i) % 64]?).join := rfl
  have hl : b.toList.length = l.length := by rw [← h.toList, CB.map_toList, List.length_map]
  refine ⟨by simpa using h.size, h.front_lt, by rw [hl]; exact hlen, by rw [hl]; exact hle, ?_⟩
  intro i hi
  obtain ⟨o, h1, h2⟩ := hs i hi
  rw [h1]
  congr 1
  by_cases hil : i < l.length
  · have hsome : ∀ j, j < b.len → ∃ x, (b.data[(b.front + j) % 64]?).join = some x := by
      intro j hj
      obtain ⟨o, g1, g2⟩ := hs j (by omega)
      rw [List.getElem?_eq_getElem (by omega)] at g2
      cases o with
      | none => cases g2
      | some x => exact ⟨x, by rw [g1]; rfl⟩
    have key : ∀ (n : Nat), n ≤ b.len → ∀ j, j < n →
        ((List.range n).filterMap fun i => (b.data[(b.front + i) % 64]?).join)[j]? = (b.data[(b.front + j) % 64]?).join ∧
        ((List.range n).filterMap fun i => (b.data[(b.front + i) % 64]?).join).length = n := by
      intro n
      induction n with
      | zero => intro _ j hj; omega
      | succ n ih =>
        intro hn j hj
        obtain ⟨x, hx⟩ := hsome n (by omega)
        rw [List.range_succ, List.filterMap_append]
        have hlen' : ((List.range n).filterMap fun i => (b.data[(b.front + i) % 64]?).join).length = n := by
          cases n with
          | zero => rfl
          | succ n => exact (ih (by omega) 0 (by omega)).2
        simp only [List.filterMap_cons, hx, List.filterMap_nil, List.length_append, hlen', List.length_singleton]
        refine ⟨?_, trivial⟩
        by_cases hjn : j < n
        · rw [List.getElem?_append_left (by omega), (ih (by omega) j hjn).1]
        · have : j = n := by omega
          subst this
          rw [List.getElem?_append_right (by omega), hlen', Nat.sub_self, hx]; rfl
    rw [ht, (key b.len (Nat.le_refl _) i (by omega)).1, h1]
    rfl
  · rw [List.getElem?_eq_none (by omega)]
    rw [List.getElem?_eq_none (by omega)] at h2
    cases o with
    | none => rfl
    | some x => cases h2

theorem Right.of_wf : ∀ {n : Nat} {nd : ANode}, nd.erase.Wf n → nd.sumsRight n = true → Right n nd nd.erase.toList
  | 0, .leaf b m, hw, hs => by
    rw [erase_leaf] at hw ⊢
    simp only [sumsRight, beq_iff_eq] at hs
    exact ⟨b, by rw [Node.toList_leaf, hs], by rw [Node.toList_leaf]; exact hw⟩
  | 0, .internal _ _ _ _, hw, hs => by cases hs
  | n + 1, .leaf b m, hw, hs => by rw [erase_leaf] at hw; exact hw.elim
  | n + 1, .internal s t c m, hw, hs => by
    rw [erase_internal] at hw ⊢
    obtain ⟨h1, h2, h3, h4⟩ := hw
    simp only [sumsRight, Bool.and_eq_true, beq_iff_eq, List.all_eq_true] at hs
    have hc := CB.rep_of_map h3
    rw [CB.map_toList] at h1 h4
    have hk : ∀ k ∈ c.toList, Right n k k.erase.toList := fun k hk =>
      Right.of_wf (h4 _ (List.mem_map_of_mem hk)).1 (hs.2 k hk)
    have hl : (Node.internal s t (c.map erase)).toList = (c.toList.map fun k => k.erase.toList).flatten := by
      rw [Node.toList_internal, CB.map_toList, List.flatMap_def, List.map_map]; rfl
    refine ⟨s, c, c.toList, c.toList.map fun k => k.erase.toList, ?_, ?_, hc, ?_, hl⟩
    · rw [hl, h2, hs.1]
      congr 1
      clear hc h1 h4 hl hs h3
      generalize c.toList = ks at hk ⊢
      induction ks with
      | nil => rfl
      | cons k ks ih =>
        simp only [List.map_cons, List.sum_cons, List.flatten_cons, List.sum_append]
        rw [(hk k (by simp)).cached, ih fun k h => hk k (by simp [h])]
    · rw [List.map_map] at h1 ⊢
      exact h1
    · clear hc h1 h4 hl hs h3
      generalize c.toList = ks at hk ⊢
      induction ks with
      | nil => exact .nil
      | cons k ks ih => exact .cons (hk k (by simp)) (ih fun k h => hk k (by simp [h]))

theorem Right.sumsRight : ∀ {n : Nat} {nd : ANode} {l : List Nat}, Right n nd l → nd.sumsRight n = true
  | 0, nd, l, h => by obtain ⟨b, rfl, hb⟩ := h; simp [ANode.sumsRight, hb.toList]
  | n + 1, nd, l, h => by
    obtain ⟨s, c, ks, ls, rfl, hs, hc, hk, rfl⟩ := h
    simp only [ANode.sumsRight, hc.toList, Bool.and_eq_true, beq_iff_eq, List.all_eq_true]
    clear hc hs
    induction hk with
    | nil => simp
    | cons h1 _ ih =>
      simp only [List.flatten_cons, List.sum_append, List.map_cons, List.sum_cons, List.mem_cons]
      rw [h1.cached, ih.1]
      refine ⟨rfl, ?_⟩
      rintro k (rfl | hk)
      · exact h1.sumsRight
      · exact ih.2 k hk

theorem leafSumLoop_ok {b : CB Nat} {l : List Nat} (h : b.Rep l) : ∀ (n idx acc : Nat), idx + n ≤ l.length →
    acc + ((l.drop idx).take n).sum < USIZE_LIMIT →
    leafSumLoop b n idx acc = .ok (acc + ((l.drop idx).take n).sum)
  | 0, idx, acc, _, _ => by simp [leafSumLoop]
  | n + 1, idx, acc, h1, h2 => by
    have h3 : l.drop idx = l[idx] :: l.drop (idx + 1) := List.drop_eq_getElem_cons (by omega)
    rw [h3, List.take_succ_cons, List.sum_cons] at h2 ⊢
    unfold leafSumLoop
    rw [CB.get_ok h, ok_bind, List.getElem?_eq_getElem (by omega), unwrap_some, ok_bind,
      uadd_ok (by omega), ok_bind, leafSumLoop_ok h n (idx + 1) _ (by omega) (by omega)]
    congr 1; omega

theorem leafSum_ok {b : CB Nat} {l : List Nat} {m : Nat} (h : b.Rep l) (n a z : Nat) (hl : l.sum < USIZE_LIMIT) :
    sumAux (n + 1) (.leaf b m) a z = .ok (sliceSum l a z) := by
  unfold sumAux
  have h1 := sliceSum_le l a z
  have h2 : sliceSum l a z = ((l.drop a).take (min z l.length - a)).sum := by
    rw [← sliceSum_min]; unfold sliceSum; rw [List.drop_take]
  rw [h.len_eq]
  by_cases h3 : a ≤ l.length
  · rw [leafSumLoop_ok h _ _ _ (by omega) (by omega), h2, Nat.zero_add]
  · rw [show min z l.length - a = 0 by omega] at h2 ⊢
    rw [h2]; simp [leafSumLoop]

theorem sumLoop_ok {f : ANode → Nat → Nat → M Nat} {c : CB ANode} {start stop : Nat} :
    ∀ {ks : List ANode} {ls : List (List Nat)} {pre : List ANode} {acc startPos : Nat},
    c.Rep (pre ++ ks) →
    List.Forall₂ (fun k l => k.len = .ok l.length ∧ ∀ a b, f k a b = .ok (sliceSum l a b)) ks ls →
    acc + ls.flatten.sum < USIZE_LIMIT →
    sumLoop f .leaves c start stop ks.length pre.length startPos acc =
      .ok (acc + sliceSum ls.flatten (start - startPos) (stop - startPos)) := by
  intro ks
  induction ks with
  | nil => intro ls pre acc startPos _ hk _; cases hk; simp [sumLoop, sliceSum]
  | cons k ks ih =>
    intro ls pre acc startPos hc hk hl
    cases hk with
    | @cons _ l _ ls h1 h2 =>
      simp only [List.flatten_cons, List.sum_append] at hl
      have hle := sliceSum_le l (start - startPos) (stop - startPos)
      simp only [List.length_cons, sumLoop]
      rw [CB.get_ok hc, ok_bind, List.getElem?_append_right (Nat.le_refl _), Nat.sub_self,
        List.getElem?_cons_zero, unwrap_some, ok_bind, h1.1, ok_bind]
      have hc' : c.Rep ((pre ++ [k]) ++ ks) := by simpa using hc
      have key := ih (pre := pre ++ [k]) (acc := acc + sliceSum l (start - startPos) (stop - startPos))
        (startPos := startPos + l.length) hc' h2 (by omega)
      rw [List.length_append, List.length_singleton, ← Nat.sub_sub, ← Nat.sub_sub, Nat.add_assoc] at key
      rw [List.flatten_cons, sliceSum_append, ← key]
      by_cases hcond : startPos < stop ∧ startPos + l.length > start
      · rw [if_pos hcond, usub_ok (by omega)]
        simp only [ok_bind]
        rw [h1.2, ok_bind, uadd_ok (by omega), ok_bind]
      · rw [if_neg hcond, ok_bind, sliceSum_empty (l := l) (by omega)]; rfl

/-- The sum over a range, when the caches are right and the node is a leaf or a parent of leaves. -/
theorem Right.sum {n : Nat} {nd : ANode} {l : List Nat} (h : Right n nd l) (hn : n ≤ 1) (a b : Nat)
    (hl : l.sum < USIZE_LIMIT) : nd.sum a b = .ok (sliceSum l a b) := by
  unfold ANode.sum
  rw [h.level]
  match n, hn with
  | 0, _ => obtain ⟨bf, rfl, hb⟩ := h; exact leafSum_ok hb 0 a b hl
  | 1, _ =>
    obtain ⟨s, c, ks, ls, rfl, hs, hc, hk, rfl⟩ := h
    unfold sumAux
    rw [SizeTable.cumulativeSize_ok hs, ok_bind, ← List.length_flatten]
    dsimp only
    by_cases h0 : (a == 0 && min b ls.flatten.length == ls.flatten.length) = true
    · rw [if_pos h0]
      simp at h0
      rw [h0.1, sliceSum_all (by rw [List.length_flatten]; omega)]
    · rw [if_neg h0]
      have hk' : List.Forall₂ (fun k l => k.len = .ok l.length ∧
          ∀ a b, sumAux 1 k a b = .ok (sliceSum l a b)) ks ls := by
        clear hc hs h0
        induction hk with
        | nil => exact .nil
        | @cons k l ks ls h1 _ ih =>
          simp only [List.flatten_cons, List.sum_append] at hl
          refine .cons ⟨h1.len, ?_⟩ (ih (by omega))
          intro a b
          obtain ⟨bf, rfl, hb⟩ := h1
          exact leafSum_ok hb 0 a b (by omega)
      have := sumLoop_ok (pre := []) (start := a) (stop := min b ls.flatten.length) (acc := 0) (startPos := 0)
        hc hk' (by omega)
      rw [show c.len = ks.length from hc.len_eq]
      rw [Nat.zero_add, Nat.sub_zero, Nat.sub_zero, sliceSum_min] at this
      exact this

theorem forall₂_split {R : α → β → Prop} {ks : List α} {ls : List β} (h : List.Forall₂ R ks ls) {i : Nat}
    (hi : i < ls.length) : ∃ (hk : i < ks.length), R ks[i] ls[i] := by
  have := h.length_eq
  exact ⟨by omega, h.get (by omega) hi⟩

theorem forall₂_set {R : α → β → Prop} : ∀ {ks : List α} {ls : List β}, List.Forall₂ R ks ls → ∀ {i : Nat}
    {k : α} {l : β}, R k l → List.Forall₂ R (ks.set i k) (ls.set i l)
  | _, _, .nil, _, _, _, _ => by simp
  | _, _, .cons h1 h2, 0, _, _, h => .cons h h2
  | _, _, .cons h1 h2, i + 1, _, _, h => .cons h1 (forall₂_set h2 h)

theorem sum_set {l : List Nat} {i : Nat} (hi : i < l.length) (x : Nat) :
    l[i] ≤ l.sum ∧ (l.set i x).sum = l.sum - l[i] + x := by
  induction l generalizing i with
  | nil => simp at hi
  | cons y l ih =>
    cases i with
    | zero => simp; omega
    | succ i =>
      simp only [List.length_cons, Nat.add_lt_add_iff_right] at hi
      have := ih hi
      simp only [List.getElem_cons_succ, List.sum_cons, List.set_cons_succ]
      omega

theorem flatten_set {ls : List (List Nat)} {i j : Nat} (hi : i < ls.length) (hj : j < ls[i].length) (x : Nat) :
    (ls.set i (ls[i].set j x)).flatten = ls.flatten.set (((ls.map List.length).take i).sum + j) x ∧
    ls.flatten[((ls.map List.length).take i).sum + j]? = some ls[i][j] ∧
    ls[i].sum ≤ ls.flatten.sum := by
  induction ls generalizing i with
  | nil => simp at hi
  | cons l ls ih =>
    cases i with
    | zero =>
      simp only [List.getElem_cons_zero] at hj
      simp [hj, List.getElem?_append_left hj]
    | succ i =>
      simp only [List.length_cons, Nat.add_lt_add_iff_right] at hi
      simp only [List.getElem_cons_succ] at hj
      obtain ⟨h1, h2, h3⟩ := ih hi hj
      simp only [List.set_cons_succ, List.getElem_cons_succ, List.flatten_cons, List.map_cons,
        List.take_succ_cons, List.sum_cons, List.sum_append, h1]
      refine ⟨?_, ?_, by omega⟩
      · rw [List.set_append, if_neg (by omega)]
        congr 2; omega
      · rw [List.getElem?_append_right (by omega), ← h2]
        congr 1; omega

/-- A write through the guard keeps the caches right. -/
theorem Right.setAux : ∀ {n : Nat} {nd : ANode} {l : List Nat}, Right n nd l → ∀ {i : Nat} (hi : i < l.length)
    (x : Nat), l.sum - l[i] + x < USIZE_LIMIT → l.sum < USIZE_LIMIT →
    ∃ nd', ANode.setAux true (n + 1) nd i x = .ok (some (nd', l[i])) ∧ Right n nd' (l.set i x)
  | 0, nd, l, h, i, hi, x, hx, hl => by
    obtain ⟨b, rfl, hb⟩ := h
    obtain ⟨b', e1, hb'⟩ := CB.set_ok hb hi x
    have hs := sum_set hi x
    refine ⟨.leaf b' (l.set i x).sum, ?_, b', rfl, hb'⟩
    unfold ANode.setAux
    rw [CB.get_ok hb, ok_bind, e1, ok_bind, List.getElem?_eq_getElem hi]
    simp only [if_true]
    rw [usub_ok hs.1, ok_bind, uadd_ok hx, ok_bind, hs.2]
  | n + 1, nd, l, h, i, hi, x, hx, hl => by
    obtain ⟨s, c, ks, ls, rfl, hs, hc, hk, rfl⟩ := h
    have hne : SizeTable.findPos (ls.map List.length) i ≠ none := by
      rw [Ne, SizeTable.findPos_none, ← List.length_flatten]; omega
    obtain ⟨⟨p, j⟩, hp⟩ := Option.ne_none_iff_exists'.1 hne
    obtain ⟨h1, h2, h3⟩ := SizeTable.findPos_some hp
    have h3 := h3 h1
    rw [List.getElem_map] at h3
    rw [List.length_map] at h1
    obtain ⟨hpk, hr⟩ := forall₂_split hk h1
    obtain ⟨f1, f2, f3⟩ := flatten_set h1 h3 x
    rw [← h2] at f1 f2
    rw [List.getElem?_eq_getElem hi, Option.some.injEq] at f2
    have g1 := sum_set h3 x
    have g2 := sum_set hi x
    have h4 : ls.flatten.sum = ls[p].sum + (ls.flatten.sum - ls[p].sum) := by omega
    obtain ⟨k', e1, hr'⟩ := Right.setAux hr h3 x (by rw [f2] at hx; omega) (by omega)
    obtain ⟨c', e2, hc'⟩ := CB.set_ok hc hpk k'
    refine ⟨.internal s (Node.tagFor (n + 1)) c' (ls.flatten.set i x).sum, ?_, s, c', _, ls.set p (ls[p].set j x), rfl, ?_, hc',
      forall₂_set hk hr', f1.symm⟩
    · unfold ANode.setAux
      rw [SizeTable.positionInfoFor_ok hs, ok_bind, hp]
      simp only [CB.get_ok hc, ok_bind, List.getElem?_eq_getElem hpk, unwrap_some, e1, e2, if_true]
      rw [← f2, usub_ok g2.1, ok_bind, uadd_ok hx, ok_bind, g2.2]
    · have : (ls.set p (ls[p].set j x)).map List.length = ls.map List.length := by
        rw [List.map_set, List.length_set]
        have := List.set_getElem_self (as := ls.map List.length) (i := p) (by simpa using h1)
        rwa [List.getElem_map] at this
      rw [this]; exact hs

theorem Right.set {n : Nat} {nd : ANode} {l : List Nat} (h : Right n nd l) {i : Nat} (hi : i < l.length)
    (x : Nat) (hx : l.sum - l[i] + x < USIZE_LIMIT) (hl : l.sum < USIZE_LIMIT) :
    ∃ nd', nd.set true i x = .ok (some nd') ∧ Right n nd' (l.set i x) := by
  obtain ⟨nd', e, h'⟩ := h.setAux hi x hx hl
  exact ⟨nd', by unfold ANode.set; rw [h.level, e]; rfl, h'⟩

end ANode

namespace AVec

/-- The nodes of a vector in the order of `spine_iter`. -/
def nodes (v : AVec) : List ANode := v.left ++ v.root :: v.right.reverse

/-- The cached sums of all nodes are right, and no node is above level `m`. -/
def Cached (m : Nat) (v : AVec) : Prop := ∀ nd ∈ v.nodes, nd.level ≤ m ∧ nd.sumsRight nd.level = true

theorem Cached.right {m : Nat} {v : AVec} {h : Nat} (i : RVec.InvH v.erase h) (hc : v.Cached m) :
    ∀ nd ∈ v.nodes, ∃ n ≤ m, ANode.Right n nd nd.erase.toList := by
  intro nd hnd
  have hw : ∃ n, nd.erase.Wf n := by
    simp only [nodes, List.mem_append, List.mem_cons, List.mem_reverse] at hnd
    rcases hnd with hnd | rfl | hnd
    · obtain ⟨j, hj, e⟩ := List.getElem_of_mem (List.mem_map_of_mem (f := ANode.erase) hnd)
      have := ((i.spine .front).getElem (i := j) hj).1
      exact ⟨0 + j, by rw [← e]; exact this⟩
    · exact ⟨h, i.root⟩
    · obtain ⟨j, hj, e⟩ := List.getElem_of_mem (List.mem_map_of_mem (f := ANode.erase) hnd)
      have := ((i.spine .back).getElem (i := j) hj).1
      exact ⟨0 + j, by rw [← e]; exact this⟩
  obtain ⟨n, hw⟩ := hw
  obtain ⟨h1, h2⟩ := hc nd hnd
  have hl : nd.level = n := by rw [← ANode.erase_level]; exact hw.level
  rw [hl] at h1 h2
  exact ⟨n, h1, ANode.Right.of_wf hw h2⟩

theorem nodes_toList (v : AVec) : (v.nodes.map fun nd => nd.erase.toList).flatten = v.erase.toList := by
  simp [nodes, RVec.toList, erase, List.flatMap_def, List.map_reverse, List.map_map, Function.comp_def]

theorem sumLoop_ok {start stop : Nat} : ∀ {ks : List ANode} {acc startPos : Nat},
    (∀ nd ∈ ks, ∃ n ≤ 1, ANode.Right n nd nd.erase.toList) →
    acc + (ks.map fun nd => nd.erase.toList).flatten.sum < USIZE_LIMIT →
    sumLoop start stop ks startPos acc =
      .ok (acc + sliceSum (ks.map fun nd => nd.erase.toList).flatten (start - startPos) (stop - startPos)) := by
  intro ks
  induction ks with
  | nil => intro acc startPos _ _; simp [sumLoop, sliceSum]
  | cons k ks ih =>
    intro acc startPos hk hl
    obtain ⟨n, hn, h1⟩ := hk k (by simp)
    simp only [List.map_cons, List.flatten_cons, List.sum_append] at hl ⊢
    generalize k.erase.toList = l at h1 hl ⊢
    have hle := sliceSum_le l (start - startPos) (stop - startPos)
    simp only [sumLoop]
    rw [h1.len, ok_bind]
    have key := ih (acc := acc + sliceSum l (start - startPos) (stop - startPos))
      (startPos := startPos + l.length) (fun nd h => hk nd (by simp [h])) (by omega)
    rw [← Nat.sub_sub, ← Nat.sub_sub, Nat.add_assoc] at key
    rw [sliceSum_append, ← key]
    by_cases hcond : startPos < stop ∧ startPos + l.length > start
    · rw [if_pos hcond, usub_ok (by omega)]
      simp only [ok_bind]
      rw [h1.sum hn _ _ (by omega), ok_bind, uadd_ok (by omega), ok_bind]
    · rw [if_neg hcond, ok_bind, sliceSum_empty (l := l) (by omega)]; rfl

theorem nodeAt_mem {v : AVec} {p} {nd : ANode} (e : v.nodeAt p = .ok nd) : nd ∈ v.nodes := by
  rcases p with _ | ⟨_ | _, i⟩
  · cases e; simp [nodes]
  · have := List.mem_of_getElem? (RVec.unwrap_eq e); simp [nodes, this]
  · have := List.mem_of_getElem? (RVec.unwrap_eq e); simp [nodes, this]

theorem mem_withNodeAt {v : AVec} {p} {nd k : ANode} (h : k ∈ (v.withNodeAt p nd).nodes) : k = nd ∨ k ∈ v.nodes := by
  rcases p with _ | ⟨_ | _, i⟩ <;>
  · simp only [withNodeAt, nodes, List.mem_append, List.mem_cons, List.mem_reverse] at h ⊢
    first
    | (rcases h with h | h | h <;> simp [h])
    | (rcases h with h | h | h
       · rcases List.mem_or_eq_of_mem_set h with h | h <;> simp [h]
       · simp [h]
       · simp [h])
    | (rcases h with h | h | h
       · simp [h]
       · simp [h]
       · rcases List.mem_or_eq_of_mem_set h with h | h <;> simp [h])

end AVec

end Librrb
