import Verif.Proof.Node

/-! # Packing, lookup, update and splitting of well-formed nodes -/
namespace Librrb
namespace Node

/-! ### pack_children -/

theorem packLoop_ok {n : Nat} : ∀ (fuel : Nat) (A Mid C : List (Node α)) {c : CB (Node α)},
    c.Rep (A ++ Mid ++ C) → (∀ k ∈ A ++ Mid ++ C, Wf n k) → (∀ k ∈ A, k.slots = 64) →
    (∀ k ∈ Mid.tail, k.toList = []) → C.length + (Mid.length + C.length) ≤ fuel →
    ∃ c' A' Mid', packLoop fuel A.length (A.length + Mid.length) c = .ok c' ∧
      c'.Rep (A' ++ Mid') ∧ (∀ k ∈ A' ++ Mid', Wf n k) ∧ (∀ k ∈ A', k.slots = 64) ∧
      (∀ k ∈ Mid'.tail, k.toList = []) ∧
      (A' ++ Mid').flatMap Node.toList = (A ++ Mid ++ C).flatMap Node.toList ∧
      (A' ++ Mid').length = (A ++ Mid ++ C).length := by
  intro fuel
  induction fuel with
  | zero =>
    intro A Mid C c h hw hA hM hf
    have hC : C = [] := List.eq_nil_of_length_eq_zero (by omega)
    subst hC
    refine ⟨c, A, Mid, ?_, by simpa using h, by simpa using hw, hA, hM, by simp, by simp⟩
    have := h.len_eq
    simp at this
    simp [packLoop, this]
  | succ fuel ih =>
    intro A Mid C c h hw hA hM hf
    have hlen := h.len_eq
    cases C with
    | nil =>
      refine ⟨c, A, Mid, ?_, by simpa using h, by simpa using hw, hA, hM, by simp, by simp⟩
      simp at hlen
      simp [packLoop, hlen]
    | cons y C =>
      simp at hlen
      have hlt : A.length + Mid.length < c.len := by omega
      unfold packLoop
      rw [if_pos hlt]
      cases Mid with
      | nil =>
        rw [if_pos (by simp)]
        obtain ⟨c', A', Mid', e, r⟩ := ih A [y] C (c := c) (by simpa using h) (by simpa using hw) hA
          (by simp) (by simp at hf ⊢; omega)
        exact ⟨c', A', Mid', by simpa using e, by simpa using r⟩
      | cons x B =>
        simp only [List.tail_cons] at hM
        rw [if_neg (by simp)]
        have hx : Wf n x := hw x (by simp)
        have hy : Wf n y := hw y (by simp)
        have hL : (A ++ x :: B ++ y :: C).length = A.length + (B.length + 1) + (C.length + 1) := by
          simp; omega
        have hi : A.length < (A ++ x :: B ++ y :: C).length := by rw [hL]; omega
        have hj : A.length + (x :: B).length < (A ++ x :: B ++ y :: C).length := by
          rw [hL]; simp
        rw [CB.pairMut_ok h (i := A.length) (j := A.length + (x :: B).length) (by simp) hi hj]
        have g1 : (A ++ x :: B ++ y :: C)[A.length]'hi = x := by simp
        have g2 : (A ++ x :: B ++ y :: C)[A.length + (x :: B).length]'hj = y := by
          rw [List.getElem_append_right (by simp)]; simp
        have e1 := h.read hi
        have e2 := h.read hj
        rw [g1] at e1
        rw [g2] at e2
        obtain ⟨k, y', x', e3, wy, wx, hk, sy, sx, mv, q1, q2⟩ := share_ok hy hx .front 64
        obtain ⟨d1, e4, r4⟩ := CB.assignSlot_ok h hi x'
        have hset1 : (A ++ x :: B ++ y :: C).set A.length x' = A ++ x' :: B ++ y :: C := by simp
        rw [hset1] at r4
        obtain ⟨d2, e5, r5⟩ := CB.assignSlot_ok r4 (i := A.length + (x :: B).length)
          (by simp) y'
        have hset2 : (A ++ x' :: B ++ y :: C).set (A.length + (x :: B).length) y'
            = A ++ x' :: B ++ y' :: C := by
          rw [List.set_append_right _ _ (by simp)]
          simp
        rw [hset2] at r5
        have e5' : assignSlot d1 (c.indexFor (A.length + (x :: B).length)) y' = .ok d2 := e5
        simp only [ok_bind, CB.indexFor] at e1 e2 e4 e5' ⊢
        simp only [e1, e2, e3, e4, e5', ok_bind, wx.isFull, wy.isEmpty']
        have hxs := hx.slots_le
        have hys := hy.slots_le
        have hwf' : ∀ k ∈ A ++ x' :: B ++ y' :: C, Wf n k := by
          intro k hk
          simp at hk
          rcases hk with hk | rfl | hk | rfl | hk
          · exact hw k (by simp [hk])
          · exact wx
          · exact hw k (by simp [hk])
          · exact wy
          · exact hw k (by simp [hk])
        have hB : B.flatMap Node.toList = [] := by
          rw [List.flatMap_eq_nil_iff]; exact hM
        have hflat : (A ++ x' :: B ++ y' :: C).flatMap Node.toList
            = (A ++ x :: B ++ y :: C).flatMap Node.toList := by
          simp [hB, q1, q2, Side.add]
        by_cases hfull : x'.slots = 64
        · by_cases hemp : y'.slots = 0
          · -- both advance
            obtain ⟨c', A', Mid', e, r1, r2, r3, r4', r5', r6⟩ :=
              ih (A ++ [x']) (B ++ [y']) C (c := { c with data := d2 })
              (by simpa using r5) (by simpa using hwf')
              (by intro k hk; simp at hk; rcases hk with hk | rfl; exact hA k hk; exact hfull)
              (by
                intro k hk
                have := List.mem_of_mem_tail hk
                simp at this
                rcases this with h | rfl
                · exact hM k h
                · exact wy.slots_eq_zero.1 hemp)
              (by simp at hf ⊢; omega)
            refine ⟨c', A', Mid', ?_, r1, r2, r3, r4', ?_, ?_⟩
            · rw [← e]; simp [hfull, hemp]; congr 1; omega
            · rw [r5', ← hflat]; simp
            · rw [r6]; simp
          · obtain ⟨c', A', Mid', e, r1, r2, r3, r4', r5', r6⟩ :=
              ih (A ++ [x']) B (y' :: C) (c := { c with data := d2 })
              (by simpa using r5) (by simpa using hwf')
              (by intro k hk; simp at hk; rcases hk with hk | rfl; exact hA k hk; exact hfull)
              (by intro k hk; exact hM k (List.mem_of_mem_tail hk))
              (by simp at hf ⊢; omega)
            refine ⟨c', A', Mid', ?_, r1, r2, r3, r4', ?_, ?_⟩
            · rw [← e]; simp [hfull, hemp]; congr 1; omega
            · rw [r5', ← hflat]; simp
            · rw [r6]; simp
        · have hemp : y'.slots = 0 := by omega
          obtain ⟨c', A', Mid', e, r1, r2, r3, r4', r5', r6⟩ :=
              ih A (x' :: (B ++ [y'])) C (c := { c with data := d2 })
              (by simpa using r5) (by simpa using hwf') hA
              (by
                intro k hk
                simp at hk
                rcases hk with h | rfl
                · exact hM k h
                · exact wy.slots_eq_zero.1 hemp)
              (by simp at hf ⊢; omega)
          refine ⟨c', A', Mid', ?_, r1, r2, r3, r4', ?_, ?_⟩
          · rw [← e]; simp [hfull, hemp]; congr 1
          · rw [r5', ← hflat]; simp
          · rw [r6]; simp

theorem packTrim_ok {n : Nat} : ∀ (m fuel : Nat) (A Mid : List (Node α)) {c : CB (Node α)},
    Mid.length = m → m < fuel →
    c.Rep (A ++ Mid) → (∀ k ∈ A ++ Mid, Wf n k) → (∀ k ∈ A, k.slots = 64) →
    (∀ k ∈ Mid.tail, k.toList = []) → (A ++ Mid).flatMap Node.toList ≠ [] →
    ∃ c' ks, packTrim fuel c = .ok c' ∧ c'.Rep ks ∧ (∀ k ∈ ks, Wf n k ∧ k.toList ≠ []) ∧
      ks.flatMap Node.toList = (A ++ Mid).flatMap Node.toList ∧ ks.length ≤ (A ++ Mid).length ∧
      (∀ k ∈ ks.dropLast, k.slots = 64) := by
  intro m
  induction m with
  | zero =>
    intro fuel A Mid c hm hf h hw hA hM hne
    obtain rfl := List.eq_nil_of_length_eq_zero hm
    obtain ⟨fuel, rfl⟩ : ∃ k, fuel = k + 1 := ⟨fuel - 1, by omega⟩
    rcases List.eq_nil_or_concat A with rfl | ⟨A, x, rfl⟩
    · simp at hne
    have hx := hw x (by simp)
    have hxs := hA x (by simp)
    have hxn : x.toList ≠ [] := fun e => by have := hx.slots_eq_zero.2 e; omega
    refine ⟨c, A ++ [x], ?_, by simpa using h, ?_, by simp, by simp, ?_⟩
    · simp [packTrim, CB.back_ok h, hx.isEmpty, hxn]
    · intro k hk
      have := hA k (by simpa using hk)
      have hwk := hw k (by simpa using hk)
      exact ⟨hwk, fun e => by have := hwk.slots_eq_zero.2 e; omega⟩
    · intro k hk; simp at hk; exact hA k (by simp [hk])
  | succ m ih =>
    intro fuel A Mid c hm hf h hw hA hM hne
    obtain ⟨fuel, rfl⟩ : ∃ k, fuel = k + 1 := ⟨fuel - 1, by omega⟩
    rcases List.eq_nil_or_concat Mid with rfl | ⟨B, x, rfl⟩
    · simp at hm
    simp at hm
    have hx := hw x (by simp)
    have h' : c.Rep (A ++ B ++ [x]) := by simpa using h
    by_cases hxe : x.toList = []
    · obtain ⟨c1, e1, r1⟩ := CB.popBack_ok h'
      obtain ⟨c', ks, e, q1, q2, q3, q4, q5⟩ := ih fuel A B hm (by omega) r1
        (fun k hk => hw k (by simp at hk ⊢; tauto)) hA
        (fun k hk => hM k (by cases B <;> simp at hk ⊢; tauto))
        (by simpa [hxe] using hne)
      refine ⟨c', ks, ?_, q1, q2, ?_, ?_, q5⟩
      · simp [packTrim, CB.back_ok h', hx.isEmpty, hxe, e1, e]
      · rw [q3]; simp [hxe]
      · simp at q4 ⊢; omega
    · have hB : B = [] := by
        cases B with
        | nil => rfl
        | cons b B => exact absurd (hM x (by simp)) hxe
      subst hB
      refine ⟨c, A ++ [x], ?_, by simpa using h, ?_, by simp, by simp, ?_⟩
      · simp at h
        simp [packTrim, CB.back_ok h, hx.isEmpty, hxe]
      · intro k hk
        simp at hk
        rcases hk with hk | rfl
        · have := hA k hk
          have hwk := hw k (by simp [hk])
          exact ⟨hwk, fun e => by have := hwk.slots_eq_zero.2 e; omega⟩
        · exact ⟨hx, hxe⟩
      · intro k hk; simp at hk; exact hA k (by simp [hk])

theorem rebuild_ok {n m : Nat} : ∀ (ks : List (Node α)) (l : List Nat) {t : SizeTable},
    t.Rep m l → (∀ k ∈ ks, Wf n k) → l.length + ks.length ≤ 64 →
    ∃ t', ks.foldlM (fun (s : SizeTable) (child : Node α) => do
        let n ← child.len
        s.pushChild .back n) t = .ok t' ∧ t'.Rep m (l ++ ks.map size) := by
  intro ks
  induction ks with
  | nil => intro l t h _ _; exact ⟨t, rfl, by simpa using h⟩
  | cons k ks ih =>
    intro l t h hw hl
    simp at hl
    obtain ⟨t1, e1, r1⟩ := SizeTable.pushChild_ok h .back k.toList.length (by omega)
    obtain ⟨t', e, r⟩ := ih _ r1 (fun k hk => hw k (by simp [hk])) (by simp; omega)
    refine ⟨t', ?_, by simpa [Side.cons, size] using r⟩
    rw [List.foldlM_cons, (hw k (by simp)).len]
    simp only [ok_bind, e1]
    exact e

theorem pack_ok {n : Nat} {nd : Node α} {ks} (h : Kids n nd ks) :
    ∃ nd' ks', nd.packChildren = .ok nd' ∧ Kids n nd' ks' ∧ nd'.toList = nd.toList ∧
      ks'.length ≤ ks.length ∧ (∀ k ∈ ks'.dropLast, k.slots = 64) := by
  have hwf := h.wf
  have hle := h.le
  have htl := h.toList
  obtain ⟨s, c, rfl, h1, h2, h3⟩ := h
  simp only [packChildren]
  rw [hwf.isEmpty]
  by_cases he : ks = []
  · subst he
    refine ⟨_, [], ?_, ⟨s, c, rfl, h1, h2, h3⟩, rfl, by simp, by simp⟩
    simp [h2.toList]
  · have hne : ks.flatMap Node.toList ≠ [] := by
      cases ks with
      | nil => exact absurd rfl he
      | cons k ks => intro e; simp at e; exact (h3 k (by simp)).2 e.1
    rw [htl]
    have hlev := h1.1
    have htag : ((s.level == 1) == (tagFor (n + 1) == Tag.leaves)) = true := by
      rw [hlev]; unfold tagFor
      by_cases h0 : n = 0 <;> simp [h0]
    obtain ⟨k0, ks0, rfl⟩ := List.exists_cons_of_ne_nil he
    obtain ⟨c1, A, Mid, e1, r1, w1, f1, m1, g1, l1⟩ := packLoop_ok (n := n) (2 * c.len) [] [k0] ks0
      (c := c) (by simpa using h2) (fun k hk => (h3 k (by simpa using hk)).1) (by simp) (by simp)
      (by rw [h2.len_eq]; simp; omega)
    simp at e1 g1 l1
    obtain ⟨c2, ks', e2, r2, w2, g2, l2, f2⟩ := packTrim_ok (n := n) Mid.length (c1.len + 1) A Mid rfl
      (by have := r1.len_eq; simp at this; omega) r1 w1 f1 m1 (by simpa [g1] using hne)
    have hlen' : ks'.length ≤ (k0 :: ks0).length := by simp at l2 ⊢; omega
    obtain ⟨t', e3, r3⟩ := rebuild_ok (n := n) ks' [] (SizeTable.rep_new s.level)
      (fun k hk => (w2 k hk).1) (by simp at hle ⊢; simp at hlen'; omega)
    simp at r3
    have hK : Kids n (.internal t' (tagFor (n + 1)) c2) ks' := ⟨t', c2, rfl, by rw [← hlev]; exact r3, r2, w2⟩
    refine ⟨_, ks', ?_, hK, ?_, hlen', f2⟩
    · have h4 : t'.level = s.level := r3.1
      have h5 : c2.len = t'.len := by rw [r3.len, r2.len_eq]; simp
      have h6 : c.len = s.len := by rw [h1.len, h2.len_eq]; simp
      simp only [hne, decide_false, ok_bind, htag, massert_true, h6, beq_self_eq_true, Bool.false_eq_true, if_false]
      rw [← h6, e1]
      simp only [ok_bind]
      rw [e2]
      simp only [ok_bind]
      rw [CB.foldIter_ok _ r2, e3]
      simp only [ok_bind]
      rw [h4, htag, h5]
      simp
    · rw [hK.toList, g2]
      simp [g1]

/-! ### Lookup and update -/

theorem findPos_kids {ks : List (Node α)} {idx i j : Nat}
    (h : SizeTable.findPos (ks.map size) idx = some (i, j)) :
    ∃ (A : List (Node α)) (k : Node α) (B : List (Node α)), ks = A ++ k :: B ∧ A.length = i ∧
      idx = (A.flatMap Node.toList).length + j ∧ j < k.toList.length := by
  obtain ⟨h1, h2, h3⟩ := SizeTable.findPos_some h
  have hi : i < ks.length := by simpa using h1
  refine ⟨ks.take i, ks[i], ks.drop (i + 1), ?_, by simp; omega, ?_, ?_⟩
  · rw [List.getElem_cons_drop, List.take_append_drop]
  · rw [flatMap_length, List.map_take]; exact h2
  · have := h3 h1
    simpa [size] using this

theorem getAux_ok : ∀ (n fuel : Nat) {nd : Node α}, n < fuel → Wf n nd → ∀ idx,
    getAux fuel nd idx = .ok nd.toList[idx]? := by
  intro n
  induction n with
  | zero =>
    intro fuel nd hf h idx
    obtain ⟨fuel, rfl⟩ : ∃ k, fuel = k + 1 := ⟨fuel - 1, by omega⟩
    obtain ⟨l, b, rfl, hb⟩ := wf_zero.1 h
    simp [getAux, CB.get_ok hb, hb.toList]
  | succ n ih =>
    intro fuel nd hf h idx
    obtain ⟨fuel, rfl⟩ : ∃ k, fuel = k + 1 := ⟨fuel - 1, by omega⟩
    obtain ⟨ks, hk⟩ := wf_succ.1 h
    have htl := hk.toList
    obtain ⟨s, c, rfl, h1, h2, h3⟩ := hk
    rw [htl]
    unfold getAux
    rw [SizeTable.positionInfoFor_ok h1]
    cases hp : SizeTable.findPos (ks.map size) idx with
    | none =>
      rw [SizeTable.findPos_none, ← flatMap_length] at hp
      simp only [ok_bind]
      rw [List.getElem?_eq_none hp]
    | some p =>
      obtain ⟨i, j⟩ := p
      obtain ⟨A, k, B, rfl, rfl, rfl, hj⟩ := findPos_kids hp
      simp only [ok_bind, CB.get_ok h2]
      simp only [List.getElem?_append_right (Nat.le_refl _), Nat.sub_self, List.getElem?_cons_zero,
        unwrap_some, ok_bind]
      rw [ih fuel (by omega) (h3 k (by simp)).1]
      congr 1
      rw [List.flatMap_append, List.getElem?_append_right (by omega), List.flatMap_cons,
        Nat.add_sub_cancel_left, List.getElem?_append_left hj]

theorem get_ok {n : Nat} {nd : Node α} (h : Wf n nd) (idx : Nat) :
    nd.get idx = .ok nd.toList[idx]? := getAux_ok n _ (by rw [h.level]; omega) h idx

theorem setAux_none : ∀ (n fuel : Nat) {nd : Node α}, n < fuel → Wf n nd → ∀ idx x,
    nd.toList.length ≤ idx → setAux fuel nd idx x = .ok none := by
  intro n fuel nd hf h idx x hi
  obtain ⟨fuel, rfl⟩ : ∃ k, fuel = k + 1 := ⟨fuel - 1, by omega⟩
  cases n with
  | zero =>
    obtain ⟨l, b, rfl, hb⟩ := wf_zero.1 h
    rw [toList_leaf, hb.toList] at hi
    simp [setAux, CB.set_none hb hi]
  | succ n =>
    obtain ⟨ks, hk⟩ := wf_succ.1 h
    rw [hk.toList, flatMap_length] at hi
    obtain ⟨s, c, rfl, h1, h2, h3⟩ := hk
    unfold setAux
    rw [SizeTable.positionInfoFor_ok h1, SizeTable.findPos_none.2 hi]
    rfl

theorem setAux_ok : ∀ (n fuel : Nat) {nd : Node α}, n < fuel → Wf n nd → ∀ idx x,
    idx < nd.toList.length → ∃ nd', setAux fuel nd idx x = .ok (some nd') ∧ Wf n nd' ∧
      nd'.toList = nd.toList.set idx x ∧ nd'.slots = nd.slots := by
  intro n
  induction n with
  | zero =>
    intro fuel nd hf h idx x hi
    obtain ⟨fuel, rfl⟩ : ∃ k, fuel = k + 1 := ⟨fuel - 1, by omega⟩
    obtain ⟨l, b, rfl, hb⟩ := wf_zero.1 h
    rw [toList_leaf, hb.toList] at hi
    obtain ⟨b', e, r⟩ := CB.set_ok hb hi x
    have hI : Items (.leaf b') (l.set idx x) := ⟨_, rfl, r⟩
    refine ⟨.leaf b', by simp [setAux, e], hI.wf, by rw [hI.toList, toList_leaf, hb.toList], ?_⟩
    rw [hI.slots]; simp [slots, hb.len_eq]
  | succ n ih =>
    intro fuel nd hf h idx x hi
    obtain ⟨fuel, rfl⟩ : ∃ k, fuel = k + 1 := ⟨fuel - 1, by omega⟩
    obtain ⟨ks, hk⟩ := wf_succ.1 h
    have htl := hk.toList
    have hsl := hk.slots
    rw [hk.toList, flatMap_length] at hi
    obtain ⟨s, c, rfl, h1, h2, h3⟩ := hk
    cases hp : SizeTable.findPos (ks.map size) idx with
    | none => rw [SizeTable.findPos_none] at hp; omega
    | some p =>
      obtain ⟨i, j⟩ := p
      have hp' := SizeTable.positionInfoFor_ok h1 idx
      rw [hp] at hp'
      obtain ⟨A, k, B, rfl, rfl, rfl, hj⟩ := findPos_kids hp
      obtain ⟨k', e, wk, tk, _⟩ := ih fuel (by omega) (h3 k (by simp)).1 j x hj
      obtain ⟨c', e2, r2⟩ := CB.set_ok h2 (i := A.length) (by simp) k'
      rw [show (A ++ k :: B).set A.length k' = A ++ k' :: B by simp] at r2
      have hK : Kids n (.internal s (tagFor (n + 1)) c') (A ++ k' :: B) := by
        refine ⟨s, c', rfl, ?_, r2, ?_⟩
        · have : size k' = size k := by simp [size, tk]
          simpa [this] using h1
        · intro q hq
          simp at hq
          rcases hq with hq | rfl | hq
          · exact h3 q (by simp [hq])
          · refine ⟨wk, ?_⟩
            rw [tk]
            intro e
            have := congrArg List.length e
            simp at this
            exact (h3 k (by simp)).2 this
          · exact h3 q (by simp [hq])
      refine ⟨_, ?_, hK.wf, ?_, ?_⟩
      · unfold setAux
        rw [hp']
        simp only [ok_bind, CB.get_ok h2, List.getElem?_append_right (Nat.le_refl _), Nat.sub_self,
          List.getElem?_cons_zero, unwrap_some, e, e2]
      · rw [hK.toList, htl]
        simp only [List.flatMap_append, List.flatMap_cons, tk]
        rw [List.set_append_right _ _ (by omega), Nat.add_sub_cancel_left,
          List.set_append_left _ _ hj]
      · rw [hK.slots, hsl]; simp

theorem set_ok {n : Nat} {nd : Node α} (h : Wf n nd) {idx : Nat} (x : α)
    (hi : idx < nd.toList.length) : ∃ nd', nd.set idx x = .ok (some nd') ∧ Wf n nd' ∧
      nd'.toList = nd.toList.set idx x ∧ nd'.slots = nd.slots :=
  setAux_ok n _ (by rw [h.level]; omega) h idx x hi

theorem set_none {n : Nat} {nd : Node α} (h : Wf n nd) {idx : Nat} (x : α)
    (hi : nd.toList.length ≤ idx) : nd.set idx x = .ok none :=
  setAux_none n _ (by rw [h.level]; omega) h idx x hi

/-! ### The self check -/

theorem debugLoop_ok {n : Nat} (f : Node α → Nat → Nat → M Unit) {s : SizeTable}
    {ks : List (Node α)} (h1 : s.Rep (n + 1) (ks.map size))
    (hf : ∀ k ∈ ks, f k (size k) n = .ok ()) :
    ∀ (post pre : List (Node α)), ks = pre ++ post →
    post.foldlM (fun (st : Nat × Nat) (child : Node α) => do
      let childSize ← unwrap (← s.getChildSize st.1)
      let lv ← usub (n + 1) 1
      f child childSize lv
      .ok (st.1 + 1, st.2 + childSize)) (pre.length, (pre.map size).sum)
    = (.ok (ks.length, (ks.map size).sum) : M (Nat × Nat)) := by
  intro post
  induction post with
  | nil => intro pre h; subst h; simp; rfl
  | cons k post ih =>
    intro pre h
    rw [List.foldlM_cons, SizeTable.getChildSize_ok h1]
    have : (ks.map size)[pre.length]? = some (size k) := by subst h; simp
    simp only [this, ok_bind, unwrap_some]
    have hu : usub (n + 1) 1 = .ok n := usub_ok (by omega)
    rw [hu]
    simp only [ok_bind]
    rw [hf k (by simp [h])]
    simp only [ok_bind]
    have := ih (pre ++ [k]) (by simp [h])
    simp only [hu, ok_bind] at this ⊢
    simpa using this

theorem debugCheckAux_ok : ∀ (n fuel : Nat) {nd : Node α}, n < fuel → Wf n nd →
    debugCheckAux fuel nd (size nd) n = .ok () := by
  intro n
  induction n with
  | zero =>
    intro fuel nd hf h
    obtain ⟨fuel, rfl⟩ : ∃ k, fuel = k + 1 := ⟨fuel - 1, by omega⟩
    obtain ⟨l, b, rfl, hb⟩ := wf_zero.1 h
    simp [debugCheckAux, size, hb.toList, hb.len_eq]
  | succ n ih =>
    intro fuel nd hf h
    obtain ⟨fuel, rfl⟩ : ∃ k, fuel = k + 1 := ⟨fuel - 1, by omega⟩
    obtain ⟨ks, hk⟩ := wf_succ.1 h
    have hsz := hk.size_eq
    obtain ⟨s, c, rfl, h1, h2, h3⟩ := hk
    unfold debugCheckAux
    have h6 : c.len = s.len := by rw [h1.len, h2.len_eq]; simp
    rw [massert_ok (by simp [h1.1]), massert_ok (by simp [h6])]
    simp only [ok_bind]
    rw [CB.foldIter_ok _ h2]
    have := debugLoop_ok (debugCheckAux fuel) h1 (fun k hk => ih fuel (by omega) (h3 k hk).1) ks [] rfl
    simp only [List.length_nil, List.map_nil, List.sum_nil] at this
    rw [this, hsz]
    simp

theorem debugCheck_ok {n : Nat} {nd : Node α} (h : Wf n nd) :
    nd.debugCheck nd.toList.length nd.level = .ok () := by
  rw [debugCheck, h.level]
  exact debugCheckAux_ok n _ (by omega) h

/-! ### Splitting -/

theorem splitLoop_ok : ∀ (n : Nat) (l o : List α) {b d : CB α}, b.Rep l → d.Rep o → n ≤ l.length →
    o.length + n ≤ 64 → ∃ b' d', splitLoop n b d = .ok (b', d') ∧ b'.Rep (l.drop n) ∧
      d'.Rep (o ++ l.take n) := by
  intro n
  induction n with
  | zero => intro l o b d h1 h2 _ _; exact ⟨b, d, rfl, by simpa using h1, by simpa using h2⟩
  | succ n ih =>
    intro l o b d h1 h2 hn hl
    cases l with
    | nil => simp at hn
    | cons x l =>
      obtain ⟨b1, e1, r1⟩ := CB.pop_ok (s := .front) h1
      obtain ⟨d1, e2, r2⟩ := CB.push_ok h2 .back x (by omega)
      obtain ⟨b', d', e, q1, q2⟩ := ih l _ r1 r2 (by simpa using hn) (by simp; omega)
      exact ⟨b', d', by simp [splitLoop, e1, e2, e], by simpa using q1, by simpa [Side.cons] using q2⟩

theorem Items.split {nd : Node α} {l : List α} (h : Items nd l) {i : Nat} (hi : i ≤ l.length) :
    ∃ a b, nd.splitAtChild i = .ok (a, b) ∧ Items a (l.take i) ∧ Items b (l.drop i) := by
  have hle := h.le
  obtain ⟨b, rfl, hb⟩ := h
  obtain ⟨x, y, e, r1, r2⟩ := splitLoop_ok i l [] hb CB.rep_new hi (by simp; omega)
  refine ⟨.leaf y, .leaf x, ?_, ⟨_, rfl, by simpa using r2⟩, ⟨_, rfl, r1⟩⟩
  simp only [splitAtChild]
  rw [hb.len_eq]
  simp [hi, e]

theorem Kids.split {n : Nat} {nd : Node α} {ks : List (Node α)} (h : Kids n nd ks) {i : Nat}
    (hi : i ≤ ks.length) :
    ∃ a b, nd.splitAtChild i = .ok (a, b) ∧ Kids n a (ks.take i) ∧ Kids n b (ks.drop i) := by
  have hle := h.le
  obtain ⟨mv, rest, a', b', e1, e2, e3, r1, r2⟩ := h.share h.newEmpty .front i
  have hm : mv.length = i := by rw [e2]; simp; omega
  simp only [Side.add] at e1
  have h1 : mv = ks.take i := by rw [e1, ← hm]; simp
  have h2 : rest = ks.drop i := by rw [e1, ← hm]; simp
  subst h1 h2
  refine ⟨b', a', ?_, by simpa [Side.add] using r2, r1⟩
  have hs := h.slots
  obtain ⟨s, c, rfl, q1, q2, q3⟩ := h
  simp only [splitAtChild]
  have : i ≤ c.len := by rw [q2.len_eq]; exact hi
  simp only [this, if_true, e3, ok_bind]

theorem splitAtPositionAux_ok : ∀ (n fuel : Nat) {nd : Node α}, n < fuel → Wf n nd → ∀ pos,
    pos < nd.toList.length → ∃ a b, splitAtPositionAux fuel nd pos = .ok (a, b) ∧ Wf n a ∧ Wf n b ∧
      a.toList = nd.toList.take pos ∧ b.toList = nd.toList.drop pos ∧ a.slots ≤ nd.slots ∧
      b.slots ≤ nd.slots := by
  intro n
  induction n with
  | zero =>
    intro fuel nd hf h pos hp
    obtain ⟨fuel, rfl⟩ : ∃ k, fuel = k + 1 := ⟨fuel - 1, by omega⟩
    obtain ⟨l, hI⟩ := wf_zero.1 h
    rw [hI.toList] at hp ⊢
    obtain ⟨a, b, e, r1, r2⟩ := hI.split (i := pos) (by omega)
    refine ⟨a, b, ?_, r1.wf, r2.wf, r1.toList, r2.toList, ?_, ?_⟩
    · obtain ⟨b, rfl, hb⟩ := hI
      rw [splitAtPositionAux]; exact e
    · rw [r1.slots, hI.slots]; simp; omega
    · rw [r2.slots, hI.slots]; simp
  | succ n ih =>
    intro fuel nd hf h pos hpos
    obtain ⟨fuel, rfl⟩ : ∃ k, fuel = k + 1 := ⟨fuel - 1, by omega⟩
    obtain ⟨ks, hk⟩ := wf_succ.1 h
    have htl := hk.toList
    have hsl := hk.slots
    have hle := hk.le
    cases hp : SizeTable.findPos (ks.map size) pos with
    | none =>
      rw [SizeTable.findPos_none, ← flatMap_length, ← htl] at hp; omega
    | some p =>
      obtain ⟨i, j⟩ := p
      obtain ⟨A, k, B, rfl, rfl, rfl, hj⟩ := findPos_kids hp
      obtain ⟨a, b, e1, r1, r2⟩ := hk.split (i := A.length) (by simp)
      simp only [List.take_left', List.drop_left'] at r1 r2
      obtain ⟨b1, e2, r3⟩ := Kids.pop (sd := .front) (c := k) (ks := B) r2
      have hkc := hk.child (k := k) (by simp)
      -- the final pair of nodes
      have key : ∃ fa fb, (if (j == 0) = true then (do
            let result ← b1.pushChild .front k
            .ok (a, result) : M (Node α × Node α))
          else if (j == k.toList.length) = true then (do
            let self ← a.pushChild .back k
            .ok (self, b1) : M (Node α × Node α))
          else (do
            let sub ← splitAtPositionAux fuel k j
            let self ← a.pushChild .back sub.1
            let result ← b1.pushChild .front sub.2
            .ok (self, result))) = .ok (fa, fb) ∧ Wf (n + 1) fa ∧ Wf (n + 1) fb ∧
          fa.toList = nd.toList.take ((A.flatMap Node.toList).length + j) ∧
          fb.toList = nd.toList.drop ((A.flatMap Node.toList).length + j) ∧
          fa.slots ≤ nd.slots ∧ fb.slots ≤ nd.slots := by
        simp at hle
        by_cases hj0 : j = 0
        · subst hj0
          obtain ⟨b2, e3, r4⟩ := r3.push .front hkc.1 hkc.2 (by omega)
          refine ⟨a, b2, by simp [e3], r1.wf, r4.wf, ?_, ?_, ?_, ?_⟩
          · rw [r1.toList, htl]; simp
          · rw [r4.toList, htl]; simp [Side.cons]
          · rw [r1.slots, hsl]; simp
          · rw [r4.slots, hsl]; simp [Side.cons]
        · obtain ⟨sa, sb, e3, w1, w2, t1, t2, _, _⟩ := ih fuel (by omega) hkc.1 j hj
          have n1 : sa.toList ≠ [] := by
            rw [t1]; intro e
            have := congrArg List.length e
            rw [List.length_take, List.length_nil] at this; omega
          have n2 : sb.toList ≠ [] := by
            rw [t2]; intro e
            have := congrArg List.length e
            rw [List.length_drop, List.length_nil] at this; omega
          obtain ⟨a2, e4, r4⟩ := r1.push .back w1 n1 (by omega)
          obtain ⟨b2, e5, r5⟩ := r3.push .front w2 n2 (by omega)
          refine ⟨a2, b2, ?_, r4.wf, r5.wf, ?_, ?_, ?_, ?_⟩
          · rw [if_neg (by simpa using hj0), if_neg (by simp; omega)]
            simp [e3, e4, e5]
          · rw [r4.toList, htl]
            simp [Side.cons, t1, List.take_append, List.take_of_length_le]
            left; omega
          · rw [r5.toList, htl]
            simp [Side.cons, t2, List.drop_append, List.drop_of_length_le]
            have : j - k.toList.length = 0 := by omega
            simp [this]
          · rw [r4.slots, hsl]; simp [Side.cons]
          · rw [r5.slots, hsl]; simp [Side.cons]
      obtain ⟨fa, fb, ef, q1, q2, q3, q4, q5, q6⟩ := key
      refine ⟨fa, fb, ?_, q1, q2, q3, q4, q5, q6⟩
      have c1 := debugCheck_ok q1
      have c2 := debugCheck_ok q2
      rw [q3, List.length_take, Nat.min_eq_left (by omega)] at c1
      rw [q4, List.length_drop] at c2
      have hlen := h.len
      obtain ⟨s, c, rfl, g1, g2, g3⟩ := hk
      unfold splitAtPositionAux
      rw [hlen]
      simp only [ok_bind]
      rw [massert_ok (by simp only [decide_eq_true_eq]; omega), SizeTable.positionInfoFor_ok g1, hp]
      simp only [ok_bind, unwrap_some, e1, e2, hkc.1.len, ef, c1]
      rw [usub_ok (by omega)]
      simp only [ok_bind, c2]

theorem splitAtPosition_ok {n : Nat} {nd : Node α} (h : Wf n nd) {pos : Nat}
    (hp : pos < nd.toList.length) : ∃ a b, nd.splitAtPosition pos = .ok (a, b) ∧ Wf n a ∧ Wf n b ∧
      a.toList = nd.toList.take pos ∧ b.toList = nd.toList.drop pos ∧ a.slots ≤ nd.slots ∧
      b.slots ≤ nd.slots :=
  splitAtPositionAux_ok n _ (by rw [h.level]; omega) h pos hp

end Node
end Librrb
