import Verif.Proof.Lookup
import Verif.Proof.Append

/-! # Splitting a vector -/
namespace Librrb
namespace RVec

theorem emptyLeaf_wf : (Node.emptyLeaf : Node α).Wf 0 := Node.wf_zero.2 ⟨[], Node.emptyLeaf_items⟩

@[simp] theorem emptyLeaf_toList : (Node.emptyLeaf : Node α).toList = [] := Node.emptyLeaf_items.toList

theorem dropEmpty_ok (s : Side) : ∀ (sp : List (Node α)) (j : Nat), Spine j sp →
    ∃ sp' j', dropEmpty sp = .ok sp' ∧ Spine j' sp' ∧ HeadOk sp' ∧ j' + sp'.length = j + sp.length ∧
      spineList s sp' = spineList s sp := by
  intro sp
  induction sp with
  | nil => intro j h; exact ⟨[], j, rfl, trivial, by simp, rfl, rfl⟩
  | cons x xs ih =>
    intro j h
    by_cases h0 : x.slots = 0
    · obtain ⟨sp', j', e1, e2, e3, e4, e5⟩ := ih (j + 1) h.2.2
      refine ⟨sp', j', by simp [dropEmpty, h.1.isEmpty', h0, e1], e2, e3, by simp; omega, ?_⟩
      rw [e5, spineList_cons, h.1.slots_eq_zero.1 h0]; simp
    · exact ⟨x :: xs, j, by simp [dropEmpty, h.1.isEmpty', h0], h, by simpa using h0, rfl, rfl⟩

theorem popTops_done {v : RVec α} {r : Nat} (hr : v.root.Wf r)
    (h : v.root.slots ≠ 0 ∨ (v.left ≠ [] ∧ v.right ≠ [])) (fuel : Nat) : popTops fuel v = .ok v := by
  cases fuel <;> rcases h with h | ⟨h1, h2⟩ <;> simp [popTops, hr.isEmpty', *]

theorem popTops_step {v : RVec α} {r : Nat} (hr : v.root.Wf r) (s : Side) (hs : v.spine s = [])
    (h0 : v.root.slots = 0) {op : List (Node α)} {t : Node α} (ho : v.spine s.negate = op ++ [t])
    (fuel : Nat) :
    popTops (fuel + 1) v = popTops fuel (({ v with root := t }).withSpine s.negate op) := by
  cases s
  · simp at hs ho
    simp [popTops, hr.isEmpty', hs, ho, h0, withSpine]
  · simp at hs ho
    simp [popTops, hr.isEmpty', hs, ho, h0, withSpine]

theorem popTops_ok (s : Side) : ∀ (n : Nat) {v : RVec α} {r fuel : Nat},
    (v.spine s.negate).length = n → v.spine s = [] →
    Spine 0 (v.spine s.negate) → HeadOk (v.spine s.negate) → v.root.Wf r →
    (v.root.slots = 0 ∨ r = n) → (r ≠ 0 → v.root.slots ≤ 63) → v.toList ≠ [] → n < fuel →
    ∃ v' h', popTops fuel v = .ok v' ∧ v'.spine s = [] ∧ (v'.spine s.negate).length = h' ∧
      Spine 0 (v'.spine s.negate) ∧ HeadOk (v'.spine s.negate) ∧ v'.root.Wf h' ∧ v'.root.slots ≠ 0 ∧
      (h' ≠ 0 → v'.root.slots ≤ 63) ∧ v'.toList = v.toList ∧ v'.len = v.len ∧ h' ≤ n := by
  intro n
  induction n with
  | zero =>
    intro v r fuel hl hs hS hH hw hor h63 hne hf
    have hop := List.eq_nil_of_length_eq_zero hl
    have ht : v.toList = v.root.toList := by rw [toList_eq v s, hs, hop]; simp
    have h0 : v.root.slots ≠ 0 := fun e => hne (by rw [ht, hw.slots_eq_zero.1 e])
    obtain rfl : r = 0 := by rcases hor with h | h; exact absurd h h0; exact h
    exact ⟨v, 0, popTops_done hw (.inl h0) _, hs, hl, hS, hH, hw, h0, h63, rfl, rfl, Nat.le_refl _⟩
  | succ n ih =>
    intro v r fuel hl hs hS hH hw hor h63 hne hf
    by_cases h0 : v.root.slots = 0
    · obtain ⟨fuel, rfl⟩ : ∃ f, fuel = f + 1 := ⟨fuel - 1, by omega⟩
      rcases List.eq_nil_or_concat (v.spine s.negate) with e | ⟨op, t, e⟩
      · rw [e] at hl; simp at hl
      rw [List.concat_eq_append] at e
      rw [e] at hl hS hH
      simp at hl
      rw [spine_append] at hS
      rw [popTops_step hw s hs h0 e]
      have hsp1 : (({ v with root := t }).withSpine s.negate op).spine s = [] := by
        rw [withSpine_other', setRoot_spine, hs]
      have ht : (({ v with root := t }).withSpine s.negate op).toList = v.toList := by
        rw [toList_eq _ s, toList_eq v s, hsp1, hs, e, hw.slots_eq_zero.1 h0]
        simp [spineList_append, Side.negate_add]
      obtain ⟨v', h', g1, g2, g3, g4, g5, g6, g7, g8, g9, g10, g11⟩ :=
        ih (v := ({ v with root := t }).withSpine s.negate op) (r := n) (fuel := fuel)
          (by simpa using hl) hsp1 (by simpa using hS.1) (by
            rw [withSpine_same]
            cases op with
            | nil => simp
            | cons x xs => simpa using hH) (by simpa [hl] using hS.2.1) (.inr rfl)
          (by simpa [hl] using hS.2.2.1) (by rw [ht]; exact hne) (by omega)
      exact ⟨v', h', g1, g2, g3, g4, g5, g6, g7, g8, by rw [g9, ht], by rw [g10]; simp, by omega⟩
    · obtain rfl : r = n + 1 := by rcases hor with h | h; exact absurd h h0; exact h
      exact ⟨v, n + 1, popTops_done hw (.inl h0) _, hs, hl, hS, hH, hw, h0, h63, rfl, rfl, Nat.le_refl _⟩

/-- Refilling a spine from its lowest node `p`. -/
theorem fillLoop_spine (s : Side) : ∀ (m : Nat) (p : Node α) (rest : List (Node α)) (root : Node α),
    p.Wf m → p.slots ≠ 0 →
    ∃ D p', fillLoop s (m + 1) (p :: rest) root = .ok (false, D ++ p' :: rest, root) ∧ D.length = m ∧
      Spine 0 D ∧ HeadOk (D ++ p' :: rest) ∧ p'.Wf m ∧ (m = 0 → p' = p) ∧
      (m ≠ 0 → p'.slots + 1 = p.slots) ∧ p.toList = s.add (spineList s D) p'.toList := by
  intro m
  induction m with
  | zero =>
    intro p rest root hp hne
    refine ⟨[], p, ?_, rfl, trivial, by simpa using hne, hp, fun _ => rfl, fun h => absurd rfl h, by simp⟩
    obtain ⟨l, hI⟩ := Node.wf_zero.1 hp
    cases p with
    | leaf b =>
      simp only [Node.slots] at hne
      simp [fillLoop, hne]
    | internal a t c => exact absurd (Node.wf_zero.1 hp) (by rintro ⟨_, _, e, -⟩; cases e)
  | succ m ih =>
    intro p rest root hp hne
    obtain ⟨c, p1, e1, wc, nc, wp, sp, tp⟩ := Node.popChild_ok hp s hne
    obtain ⟨D, c', e2, hD, sD, hh, wc', h0, h1, tc⟩ := ih c (p1 :: rest) root wc
      (fun e => nc (wc.slots_eq_zero.1 e))
    have hc64 := wc.slots_le
    refine ⟨D ++ [c'], p1, ?_, by simp [hD], ?_, by simpa using hh, wp, fun h => by omega, fun _ => sp, ?_⟩
    · cases p with
      | leaf b => exact absurd hp.level (by simp [Node.level])
      | internal a t ch =>
        unfold fillLoop
        simp only [List.head?_cons, Option.getD_some, e1, ok_bind]
        rw [e2]
        simp
    · rw [spine_append]
      refine ⟨sD, ?_⟩
      rw [hD]
      refine ⟨by simpa using wc', fun hm => ?_, trivial⟩
      have := h1 (by omega)
      omega
    · rw [tp, tc, spineList_append, Side.add_assoc]
      simp [Side.add_assoc]

/-- Refilling a whole spine from the root. -/
theorem fillLoop_root (s : Side) (m : Nat) (root : Node α) (hp : root.Wf m) (hne : root.slots ≠ 0)
    (h63 : m ≠ 0 → root.slots ≤ 63) :
    ∃ D root', fillLoop s (m + 1) [] root = .ok (false, D, root') ∧ D.length = m ∧ Spine 0 D ∧
      HeadOk D ∧ root'.Wf m ∧ (m ≠ 0 → root'.slots ≤ 62) ∧
      root.toList = s.add (spineList s D) root'.toList := by
  cases m with
  | zero =>
    refine ⟨[], root, ?_, rfl, trivial, by simp, hp, fun h => absurd rfl h, by simp⟩
    cases root with
    | leaf b =>
      simp only [Node.slots] at hne
      simp [fillLoop, hne]
    | internal a t c => exact absurd (Node.wf_zero.1 hp) (by rintro ⟨_, _, e, -⟩; cases e)
  | succ m =>
    obtain ⟨c, p1, e1, wc, nc, wp, sp, tp⟩ := Node.popChild_ok hp s hne
    obtain ⟨D, c', e2, hD, sD, hh, wc', h0, h1, tc⟩ := fillLoop_spine s m c [] p1 wc
      (fun e => nc (wc.slots_eq_zero.1 e))
    have hc64 := wc.slots_le
    have := h63 (by omega)
    refine ⟨D ++ [c'], p1, ?_, by simp [hD], ?_, by simpa using hh, wp, fun _ => by omega, ?_⟩
    · cases root with
      | leaf b => exact absurd hp.level (by simp [Node.level])
      | internal a t ch =>
        unfold fillLoop
        simp only [List.head?_nil, Option.getD_none, e1, ok_bind]
        rw [e2]
    · rw [spine_append]
      refine ⟨sD, ?_⟩
      rw [hD]
      refine ⟨by simpa using wc', fun hm => ?_, trivial⟩
      have := h1 (by omega)
      omega
    · rw [tp, tc, spineList_append]
      simp [Side.add_assoc]

/-- A cut part becomes a vector again. -/
theorem repair_ok (s : Side) {v : RVec α} {h r j : Nat} (hl : (v.spine s.negate).length = h)
    (hS : Spine 0 (v.spine s.negate)) (hH : HeadOk (v.spine s.negate)) (hj : Spine j (v.spine s))
    (hw : v.root.Wf r) (h63 : r ≠ 0 → v.root.slots ≤ 63)
    (hcase : (v.spine s = [] ∧ (v.root.slots = 0 ∨ r = h)) ∨
      (v.spine s ≠ [] ∧ j + (v.spine s).length = h ∧ r = h ∧ v.root.slots ≤ 62))
    (hne : v.toList ≠ []) (hlen : v.len = v.toList.length) (hlt : v.len < USIZE_LIMIT) :
    ∃ v' h', v.repair s = .ok v' ∧ InvH v' h' ∧ v'.toList = v.toList ∧ h' ≤ h := by
  obtain ⟨sp, j', e1, S1, H1, l1, t1⟩ := dropEmpty_ok s (v.spine s) j hj
  have ht1 : (v.withSpine s sp).toList = v.toList := by
    rw [toList_eq _ s, toList_eq v s]; simp [t1]
  have hlen1 : h ≤ (v.withSpine s sp).left.length + (v.withSpine s sp).right.length := by
    rw [← hl]; cases s <;> simp [withSpine]
  unfold repair
  simp only [e1, ok_bind]
  by_cases hsp : sp = []
  · subst hsp
    obtain ⟨v1, h1, g1, g2, g3, g4, g5, g6, g7, g8, g9, g10, g11⟩ :=
      popTops_ok s h (v := v.withSpine s [])
        (fuel := (v.withSpine s []).left.length + (v.withSpine s []).right.length + 1)
        (by simpa using hl) (by simp) (by simpa using hS) (by simpa using hH) (by simpa using hw)
        (by
          rcases hcase with ⟨-, h⟩ | ⟨-, -, h, -⟩
          · simpa using h
          · exact .inr h) (by simpa using h63) (by rw [ht1]; exact hne) (by omega)
    rw [g1]
    simp only [ok_bind]
    obtain ⟨D, r', e2, lD, SD, HD, wr', h62, tr'⟩ := fillLoop_root s h1 v1.root g6 g7 g8
    unfold fillSpine
    simp only [g2, List.head?_nil, Option.getD_none, g6.level, e2, ok_bind, Bool.false_and,
      Bool.false_eq_true, if_false]
    have ht2 : (({ v1 with root := r' }).withSpine s D).toList = v.toList := by
      rw [← ht1, ← g9, toList_eq _ s, toList_eq v1 s, g2, tr']
      simp [Side.add_assoc]
    obtain ⟨v', h', q1, q2, q3, q4⟩ := fixup_inv (v := ({ v1 with root := r' }).withSpine s D) (h := h1)
      ⟨by rw [Side.forall s]; simp [lD, g3],
        by rw [Side.forall s]; simpa using ⟨SD, g4⟩,
        by simpa using wr', by simpa using h62⟩
      (by rw [Side.forall s]; simpa using ⟨HD, g5⟩)
      (by rw [ht2]; simpa [g10] using hlen)
      (by simpa [g10] using hlt)
    exact ⟨v', h', q1, q3, by rw [q4, ht2], by omega⟩
  · rcases hcase with ⟨hnil, -⟩ | ⟨-, hj2, rfl, h62⟩
    · rw [hnil] at e1
      simp [dropEmpty] at e1
      exact absurd e1 hsp
    obtain ⟨p, rest, rfl⟩ := List.exists_cons_of_ne_nil hsp
    have hop : v.spine s.negate ≠ [] := by
      intro e
      rw [e] at hl; simp at hl l1; omega
    rw [popTops_done (by simpa using hw) (.inr (by
      cases s
      · simpa [withSpine] using hop
      · simpa [withSpine] using hop))]
    simp only [ok_bind]
    obtain ⟨D, p', e2, lD, SD, HD, wp', hp0, hp1, tp'⟩ := fillLoop_spine s j' p rest v.root S1.1 (by simpa using H1)
    unfold fillSpine
    simp only [withSpine_same, List.head?_cons, Option.getD_some, S1.1.level, withSpine_root, e2,
      ok_bind, Bool.false_and, Bool.false_eq_true, if_false]
    have ht2 : ((v.withSpine s (p :: rest)).withSpine s (D ++ p' :: rest)).toList = v.toList := by
      rw [← ht1, toList_eq _ s, toList_eq (v.withSpine s (p :: rest)) s]
      simp [Side.add_assoc, spineList_append, tp']
    have hl2 : D.length + (rest.length + 1) = r := by simp at l1; omega
    obtain ⟨v', h', q1, q2, q3, q4⟩ := fixup_inv
      (v := (v.withSpine s (p :: rest)).withSpine s (D ++ p' :: rest)) (h := r)
      ⟨by rw [Side.forall s]; simp [hl, hl2],
        by
          rw [Side.forall s]
          simp only [withSpine_same, withSpine_other, spine_append, lD]
          refine ⟨⟨SD, ?_⟩, hS⟩
          rw [Nat.zero_add]
          refine ⟨wp', fun h0 => ?_, S1.2.2⟩
          have := hp1 h0
          have := S1.1.slots_le
          omega,
        by simpa using hw, by simpa using fun _ => h62⟩
      (by rw [Side.forall s]; simpa using ⟨HD, hH⟩)
      (by rw [ht2]; simpa using hlen)
      (by simpa using hlt)
    have heq : ({ v.withSpine s (p :: rest) with root := v.root } : RVec α) = v.withSpine s (p :: rest) := by
      cases s <;> rfl
    rw [heq]
    exact ⟨v', h', q1, q3, by rw [q4, ht2], by omega⟩

theorem new_inv : InvH (RVec.new : RVec α) 0 := by
  refine ⟨⟨?_, ?_, ?_, ?_⟩, ?_, ?_, ?_, ?_⟩
  · rw [Side.forall .front]; exact ⟨rfl, rfl⟩
  · rw [Side.forall .front]; exact ⟨trivial, trivial⟩
  · exact emptyLeaf_wf
  · exact fun h => absurd rfl h
  · rw [Side.forall .front]; simp [RVec.new]
  · exact fun h => absurd rfl h
  · simp [RVec.new, RVec.toList]
  · simp [RVec.new]

theorem new_toList : (RVec.new : RVec α).toList = [] := by
  simp [RVec.new, RVec.toList]

theorem cut_ok {v : RVec α} {h : Nat} (i : InvH v h) {k sub : Nat} {pos} (f : Found v k pos sub)
    (h0 : k ≠ 0) : ∃ a b a' b' ha hb, v.cut pos sub k = .ok (a, b) ∧
      a.repair .back = .ok a' ∧ b.repair .front = .ok b' ∧
      InvH a' ha ∧ InvH b' hb ∧ a'.toList = v.toList.take k ∧ b'.toList = v.toList.drop k ∧
      ha ≤ h ∧ hb ≤ h := by
  have hsl := i.spine .front
  have hsr := i.spine .back
  have hll := i.length .front
  have hlr := i.length .back
  have hhl := i.head .front
  have hhr := i.head .back
  have hlt := i.lt
  have hT : v.toList = spineList .front v.left ++ v.root.toList ++ spineList .back v.right := by
    rw [toList_eq v .front]; simp [Side.add]
  simp only [spine_front, spine_back] at hsl hsr hll hlr hhl hhr
  -- it is enough that the two cut parts have the right items and can be repaired
  suffices H : ∃ a b, v.cut pos sub k = .ok (a, b) ∧ a.len = k ∧ b.len = v.len - k ∧
      (∃ pre, v.toList = pre ++ b.toList ∧ pre.length = k ∧ a.toList = pre) ∧
      b.toList ≠ [] ∧
      (a.len = a.toList.length → a.len < USIZE_LIMIT → a.toList ≠ [] →
        ∃ a' ha, a.repair .back = .ok a' ∧ InvH a' ha ∧ a'.toList = a.toList ∧ ha ≤ h) ∧
      (b.len = b.toList.length → b.len < USIZE_LIMIT → b.toList ≠ [] →
        ∃ b' hb, b.repair .front = .ok b' ∧ InvH b' hb ∧ b'.toList = b.toList ∧ hb ≤ h) by
    obtain ⟨a, b, e1, e2, e3, ⟨pre, e4, e5, e6⟩, e7, e8, e9⟩ := H
    obtain ⟨a', ha, r1, r2, r3, r4⟩ := e8 (by rw [e2, e6, e5]) (by
      have := i.len; rw [e4, List.length_append] at this; omega)
      (by rw [e6]; intro e; rw [e] at e5; exact h0 e5.symm)
    obtain ⟨b', hb, s1, s2, s3, s4⟩ := e9 (by
      have := i.len; rw [e4, List.length_append] at this; omega) (by omega) e7
    refine ⟨a, b, a', b', ha, hb, e1, r1, s1, r2, s2, ?_, ?_, r4, s4⟩
    · rw [r3, e6, e4, ← e5]; simp
    · rw [s3, e4, ← e5]; simp
  have hu : usub v.len k = .ok (v.len - k) := by
    apply usub_ok
    rw [i.len, hT]
    cases f with
    | front A B nd _ e hi hs => rw [e, spineList_append]; simp [Side.add]; omega
    | root _ hi hs => simp; omega
    | back A B nd _ e hi hs => rw [e, spineList_append]; simp [Side.add]; omega
  cases f with
  | front A B nd _ e hi hs =>
    rw [e] at hsl hhl hll
    rw [spine_append] at hsl
    simp only [Nat.zero_add, spine_cons] at hsl
    obtain ⟨a, b, q1, wa, wb, ta, tb, sa, sb⟩ := Node.splitAtPosition_ok hsl.2.1 hs
    have hbne : b.toList ≠ [] := by
      rw [tb]; intro e; have := congrArg List.length e; simp at this; omega
    have hab : nd.toList = a.toList ++ b.toList := by rw [ta, tb]; simp
    refine ⟨{ left := A, right := [], root := a, len := k },
      { left := b :: B, right := v.right, root := v.root, len := v.len - k }, ?_, rfl, rfl,
      ⟨spineList .front A ++ a.toList, ?_, ?_, ?_⟩, ?_, ?_, ?_⟩
    · simp [cut, hu, e, q1]
    · rw [hT, e, toList_eq _ .front]
      simp [Side.add, spineList_append, hab]
    · simp [ta]; omega
    · rw [toList_eq _ .front]; simp [Side.add]
    · rw [toList_eq _ .front]; simp [Side.add, hbne]
    · intro g1 g2 g3
      obtain ⟨a', h', t1, t2, t3, t4⟩ := repair_ok .back (j := 0) (h := A.length)
        (v := { left := A, right := [], root := a, len := k }) rfl hsl.1
        (by
          cases A with
          | nil => simp
          | cons x xs => simpa using hhl) trivial wa
        (fun h0 => by have := hsl.2.2.1 h0; show a.slots ≤ 63; omega) (.inl ⟨rfl, .inr rfl⟩) g3 g1 g2
      exact ⟨a', h', t1, t2, t3, by simp at hll; omega⟩
    · intro g1 g2 g3
      exact repair_ok .front (j := A.length) (h := h)
        (v := { left := b :: B, right := v.right, root := v.root, len := v.len - k }) hlr hsr hhr
        ⟨wb, fun h0 => by have := hsl.2.2.1 h0; omega, hsl.2.2.2⟩ i.root
        (fun h0 => by have := i.room h0; show v.root.slots ≤ 63; omega)
        (.inr ⟨by simp, by simp at hll ⊢; omega, rfl, i.room (by simp at hll; omega)⟩) g3 g1 g2
  | root _ hi hs =>
    obtain ⟨a, b, q1, wa, wb, ta, tb, sa, sb⟩ := Node.splitAtPosition_ok i.root hs
    have hbne : b.toList ≠ [] := by
      rw [tb]; intro e; have := congrArg List.length e; simp at this; omega
    have hab : v.root.toList = a.toList ++ b.toList := by rw [ta, tb]; simp
    refine ⟨{ left := v.left, right := [], root := a, len := k },
      { left := [], right := v.right, root := b, len := v.len - k }, ?_, rfl, rfl,
      ⟨spineList .front v.left ++ a.toList, ?_, ?_, ?_⟩, ?_, ?_, ?_⟩
    · simp [cut, hu, q1]
    · rw [hT, toList_eq _ .front]
      simp [Side.add, hab]
    · simp [ta]; omega
    · rw [toList_eq _ .front]; simp [Side.add]
    · rw [toList_eq _ .front]; simp [Side.add, hbne]
    · intro g1 g2 g3
      exact repair_ok .back (j := 0) (h := h)
        (v := { left := v.left, right := [], root := a, len := k }) hll hsl hhl trivial wa
        (fun h0 => by have := i.room h0; show a.slots ≤ 63; omega) (.inl ⟨rfl, .inr rfl⟩) g3 g1 g2
    · intro g1 g2 g3
      exact repair_ok .front (j := 0) (h := h)
        (v := { left := [], right := v.right, root := b, len := v.len - k }) hlr hsr hhr trivial wb
        (fun h0 => by have := i.room h0; show b.slots ≤ 63; omega) (.inl ⟨rfl, .inr rfl⟩) g3 g1 g2
  | back A B nd _ e hi hs =>
    rw [e] at hsr hhr hlr
    rw [spine_append] at hsr
    simp only [Nat.zero_add, spine_cons] at hsr
    obtain ⟨a, b, q1, wa, wb, ta, tb, sa, sb⟩ := Node.splitAtPosition_ok hsr.2.1 hs
    have hbne : b.toList ≠ [] := by
      rw [tb]; intro e; have := congrArg List.length e; simp at this; omega
    have hab : nd.toList = a.toList ++ b.toList := by rw [ta, tb]; simp
    refine ⟨{ left := v.left, right := a :: B, root := v.root, len := k },
      { left := [], right := A ++ [b], root := Node.emptyLeaf, len := v.len - k }, ?_, rfl, rfl,
      ⟨spineList .front v.left ++ v.root.toList ++ spineList .back B ++ a.toList, ?_, ?_, ?_⟩, ?_, ?_, ?_⟩
    · simp [cut, hu, e, q1]
    · rw [hT, e, toList_eq _ .front]
      simp [Side.add, spineList_append, hab]
    · simp [ta]; omega
    · rw [toList_eq _ .front]; simp [Side.add]
    · rw [toList_eq _ .front]; simp [Side.add, spineList_append, hbne]
    · intro g1 g2 g3
      exact repair_ok .back (j := A.length) (h := h)
        (v := { left := v.left, right := a :: B, root := v.root, len := k }) hll hsl hhl
        ⟨wa, fun h0 => by have := hsr.2.2.1 h0; omega, hsr.2.2.2⟩ i.root
        (fun h0 => by have := i.room h0; show v.root.slots ≤ 63; omega)
        (.inr ⟨by simp, by simp at hlr ⊢; omega, rfl, i.room (by simp at hlr; omega)⟩) g3 g1 g2
    · intro g1 g2 g3
      obtain ⟨b', h', t1, t2, t3, t4⟩ := repair_ok .front (j := 0) (h := A.length + 1)
        (v := { left := [], right := A ++ [b], root := Node.emptyLeaf, len := v.len - k }) (by simp)
        (by
          simp only [Side.negate_front, spine_back, spine_append, Nat.zero_add]
          exact ⟨hsr.1, wb, fun h0 => by have := hsr.2.2.1 h0; omega, trivial⟩)
        (by
          simp only [Side.negate_front, spine_back]
          cases A with
          | nil =>
            simp only [List.nil_append, headOk_cons]
            exact fun e => hbne (wb.slots_eq_zero.1 e)
          | cons x xs => simpa using hhr) trivial emptyLeaf_wf (fun h => absurd rfl h)
        (.inl ⟨rfl, .inl rfl⟩) g3 g1 g2
      exact ⟨b', h', t1, t2, t3, by simp at hlr; omega⟩

/-- `split_off` splits. -/
theorem splitOff_ok {v : RVec α} {h : Nat} (i : InvH v h) (k : Nat) :
    ∃ a b ha hb, v.splitOff k = .ok (a, b) ∧ InvH a ha ∧ InvH b hb ∧
      a.toList = v.toList.take k ∧ b.toList = v.toList.drop k ∧ ha ≤ h ∧ hb ≤ h := by
  unfold splitOff
  by_cases h0 : k = 0
  · subst h0
    exact ⟨RVec.new, v, 0, h, by simp, new_inv, i, by simp [new_toList], by simp, by omega, Nat.le_refl _⟩
  rw [if_neg (by simpa using h0)]
  by_cases h1 : k ≥ v.len
  · rw [if_pos h1]
    rw [i.len] at h1
    exact ⟨v, RVec.new, h, 0, rfl, i, new_inv, by rw [List.take_of_length_le h1],
      by rw [List.drop_of_length_le h1, new_toList], Nat.le_refl _, by omega⟩
  rw [if_neg h1]
  obtain ⟨pos, sub, e, f⟩ := findNodeInfo_ok i (index := k) (by rw [← i.len]; omega)
  obtain ⟨a, b, a', b', ha, hb, g1, g2, g3, g4, g5, g6, g7, g8, g9⟩ := cut_ok i f h0
  exact ⟨a', b', ha, hb, by simp [e, g1, g2, g3], g4, g5, g6, g7, g8, g9⟩

end RVec
end Librrb
