import Verif.Proof.PushPop

/-! # Finding, reading and replacing items of a vector -/
namespace Librrb
namespace RVec

/-- What `find_node_info_for_index` promises: the node and the index inside it. -/
inductive Found (v : RVec α) (index : Nat) : Option (Side × Nat) → Nat → Prop
  | front (A B : List (Node α)) (nd : Node α) (sub : Nat) (e : v.left = A ++ nd :: B)
      (hi : index = (spineList .front A).length + sub) (hs : sub < nd.toList.length) :
      Found v index (some (.front, A.length)) sub
  | root (sub : Nat) (hi : index = (spineList .front v.left).length + sub)
      (hs : sub < v.root.toList.length) : Found v index none sub
  | back (A B : List (Node α)) (nd : Node α) (sub : Nat) (e : v.right = A ++ nd :: B)
      (hi : index = (spineList .front v.left).length + v.root.toList.length +
        (spineList .back B).length + sub) (hs : sub < nd.toList.length) :
      Found v index (some (.back, A.length)) sub

theorem findLoop_ok {v : RVec α} {index : Nat} (hix : index < v.toList.length) :
    ∀ (ls rs A A' : List (Node α)) (n : Nat), v.left = A ++ ls → v.right = A' ++ rs →
    A.length = A'.length → ls.length = rs.length → Spine n ls → Spine n rs →
    (spineList .front A).length ≤ index →
    index < v.toList.length - (spineList .back A').length →
    ∃ pos sub, findLoop index ls rs A.length (spineList .front A).length
      (v.toList.length - (spineList .back A').length) = .ok (pos, sub) ∧ Found v index pos sub := by
  have hT : v.toList.length = (spineList .front v.left).length + v.root.toList.length +
      (spineList .back v.right).length := by
    rw [toList_eq v .front]; simp; omega
  intro ls
  induction ls with
  | nil =>
    intro rs A A' n hA hA' hl hl2 s1 s2 h1 h2
    have : rs = [] := List.eq_nil_of_length_eq_zero (by simpa using hl2.symm)
    subst this
    simp at hA hA'
    subst hA hA'
    refine ⟨none, _, ?_, .root (index - (spineList .front v.left).length) (by omega) (by omega)⟩
    simp only [findLoop]
    rw [massert_ok (by simp; omega), usub_ok (by omega)]
    rfl
  | cons l ls ih =>
    intro rs A A' n hA hA' hl hl2 s1 s2 h1 h2
    cases rs with
    | nil => simp at hl2
    | cons r rs =>
      simp only [findLoop]
      rw [s1.1.len, s2.1.len]
      simp only [ok_bind]
      by_cases hf : index < (spineList .front A).length + l.toList.length
      · rw [if_pos hf, usub_ok h1]
        exact ⟨_, _, rfl, .front A ls l _ hA (by omega) (by omega)⟩
      · rw [if_neg hf]
        have hr : (spineList .back v.right).length = (spineList .back A').length + r.toList.length +
            (spineList .back rs).length := by
          rw [hA', spineList_append]; simp; omega
        rw [usub_ok (by omega)]
        simp only [ok_bind]
        by_cases hb : index ≥ v.toList.length - (spineList .back A').length - r.toList.length
        · rw [if_pos hb, usub_ok hb, hl]
          exact ⟨_, _, rfl, .back A' rs r _ hA' (by omega) (by omega)⟩
        · rw [if_neg hb]
          have e1 : (spineList .front (A ++ [l])).length = (spineList .front A).length + l.toList.length := by
            rw [spineList_append]; simp
          have e2 : (spineList .back (A' ++ [r])).length = (spineList .back A').length + r.toList.length := by
            rw [spineList_append]; simp
          have := ih rs (A ++ [l]) (A' ++ [r]) (n + 1) (by simp [hA]) (by simp [hA']) (by simp [hl])
            (by simpa using hl2) s1.2.2 s2.2.2 (by omega) (by omega)
          rw [e1, e2, List.length_append, ← Nat.sub_sub] at this
          exact this

theorem findNodeInfo_ok {v : RVec α} {h : Nat} (i : InvH v h) {index : Nat}
    (hix : index < v.toList.length) :
    ∃ pos sub, v.findNodeInfoForIndex index = .ok (some (pos, sub)) ∧ Found v index pos sub := by
  unfold findNodeInfoForIndex
  rw [i.len, if_neg (by omega)]
  have hl := i.length .front
  have hr := i.length .back
  obtain ⟨pos, sub, e, hf⟩ := findLoop_ok hix v.left v.right [] [] 0 rfl rfl rfl
    (by simp at hl hr; omega) (i.spine .front) (i.spine .back) (by simp) (by simpa using hix)
  simp at e
  exact ⟨pos, sub, by simp [e], hf⟩

theorem findNodeInfo_none {v : RVec α} {h : Nat} (i : InvH v h) {index : Nat}
    (hix : v.toList.length ≤ index) : v.findNodeInfoForIndex index = .ok none := by
  unfold findNodeInfoForIndex
  rw [i.len, if_pos hix]

/-- The node found, as a node of the tree. -/
theorem Found.node {v : RVec α} {h : Nat} (i : InvH v h) {index sub : Nat} {pos}
    (f : Found v index pos sub) : ∃ nd n pre post, v.nodeAt pos = .ok nd ∧ nd.Wf n ∧
      v.toList = pre ++ nd.toList ++ post ∧ index = pre.length + sub ∧ sub < nd.toList.length ∧
      ∀ nd', nd'.Wf n → nd'.slots = nd.slots →
        (v.withNodeAt pos nd').toList = pre ++ nd'.toList ++ post ∧
        (nd'.toList.length = nd.toList.length → InvH (v.withNodeAt pos nd') h) := by
  have hsl := i.spine .front
  have hsr := i.spine .back
  have key : ∀ {v' : RVec α}, Core v' h → (∀ s, HeadOk (v'.spine s)) → Top v' h → v'.len = v.len →
      v'.toList.length = v.toList.length → InvH v' h := by
    intro v' c hh t hl ht
    exact { c with head := hh, top := t, len := by rw [hl, ht, i.len], lt := by rw [hl]; exact i.lt }
  have hsub : ∀ (A B : List (Node α)) (nd nd' : Node α), nd'.slots = nd.slots →
      (HeadOk (A ++ nd :: B) → HeadOk (A ++ nd' :: B)) ∧
      (∀ b', (A ++ nd' :: B).getLast? = some b' →
        ∃ b, (A ++ nd :: B).getLast? = some b ∧ b'.slots = b.slots) := by
    intro A B nd nd' e
    constructor
    · cases A <;> simp [e]
    · intro b' hb
      rcases List.eq_nil_or_concat B with rfl | ⟨B, z, rfl⟩
      · simp at hb; subst hb; exact ⟨nd, by simp, e⟩
      · rw [List.concat_eq_append] at hb ⊢
        have e1 : ∀ q : Node α, (A ++ q :: (B ++ [z])).getLast? = some z := by
          intro q
          rw [show A ++ q :: (B ++ [z]) = (A ++ q :: B) ++ [z] by simp, List.getLast?_concat]
        rw [e1] at hb; cases hb
        exact ⟨_, e1 _, rfl⟩
  have hspn : ∀ (A B : List (Node α)) (nd nd' : Node α) , nd'.slots = nd.slots →
      Spine 0 (A ++ nd :: B) → nd'.Wf A.length → Spine 0 (A ++ nd' :: B) := by
    intro A B nd nd' e hs hw
    rw [spine_append] at hs ⊢
    refine ⟨hs.1, ?_⟩
    have h2 := hs.2
    simp only [spine_cons, Nat.zero_add] at h2 ⊢
    exact ⟨hw, by rw [e]; exact h2.2.1, h2.2.2⟩
  cases f with
  | front A B nd sub e hi hs =>
    have hw : nd.Wf A.length := by
      simp only [spine_front] at hsl
      rw [e, spine_append] at hsl
      simpa using hsl.2.1
    refine ⟨nd, A.length, spineList .front A, spineList .front B ++ v.root.toList ++ spineList .back v.right,
      ?_, hw, ?_, hi, hs, ?_⟩
    · simp [nodeAt, e]
    · rw [toList_eq v .front, spine_front, e, spineList_append]; simp [Side.add]
    · intro nd' hw' hs'
      have e' : (v.withNodeAt (some (.front, A.length)) nd') = { v with left := A ++ nd' :: B } := by
        simp [withNodeAt, e]
      rw [e']
      have ht : ({ v with left := A ++ nd' :: B }).toList =
          spineList .front A ++ nd'.toList ++ (spineList .front B ++ v.root.toList ++ spineList .back v.right) := by
        rw [toList_eq _ .front, spine_front, spineList_append]; simp [Side.add]
      refine ⟨ht, fun hlen => ?_⟩
      have h1 := i.head .front
      have h2 := i.top
      obtain ⟨g1, g2⟩ := hsub A B nd nd' hs'
      simp only [spine_front] at hsl h1
      rw [e] at hsl h1
      refine key ⟨?_, ?_, i.root, i.room⟩ ?_ ?_ rfl ?_
      · rw [Side.forall .front]
        have := i.length .front
        simp only [spine_front] at this
        rw [e] at this
        exact ⟨by simpa using this, i.length .back⟩
      · rw [Side.forall .front]; exact ⟨hspn A B nd nd' hs' hsl hw', hsr⟩
      · rw [Side.forall .front]; exact ⟨g1 h1, i.head .back⟩
      · intro p0 pr s a b
        cases s
        · intro ha hb
          obtain ⟨a0, ha0, hs0⟩ := g2 a ha
          have := h2 p0 pr .front a0 b (by simp only [spine_front]; rw [e]; exact ha0) hb
          rw [hs0]; exact this
        · intro ha hb
          obtain ⟨b0, hb0, hs0⟩ := g2 b hb
          have := h2 p0 pr .back a b0 ha (by simp only [Side.negate_back, spine_front]; rw [e]; exact hb0)
          rw [hs0]; exact this
      · rw [ht, toList_eq v .front, spine_front, e, spineList_append]
        simp [Side.add, hlen]
  | root sub hi hs =>
    refine ⟨v.root, h, spineList .front v.left, spineList .back v.right, rfl, i.root, ?_, hi, hs, ?_⟩
    · rw [toList_eq v .front]; simp [Side.add]
    · intro nd' hw' hs'
      have ht : (v.withNodeAt none nd').toList =
          spineList .front v.left ++ nd'.toList ++ spineList .back v.right := by
        rw [toList_eq _ .front]; simp [Side.add, withNodeAt]
      refine ⟨ht, fun hlen => key ⟨?_, ?_, hw', ?_⟩ ?_ ?_ rfl ?_⟩
      · rw [Side.forall .front]; exact ⟨i.length .front, i.length .back⟩
      · rw [Side.forall .front]; exact ⟨hsl, hsr⟩
      · show h ≠ 0 → nd'.slots ≤ 62; rw [hs']; exact i.room
      · rw [Side.forall .front]; exact ⟨i.head .front, i.head .back⟩
      · intro p0 pr s a b
        have pr' : v.root.slots = 0 := by rw [← hs']; exact pr
        cases s
        · exact i.top p0 pr' .front a b
        · exact i.top p0 pr' .back a b
      · rw [ht, toList_eq v .front]; simp [Side.add, hlen]
  | back A B nd sub e hi hs =>
    have hw : nd.Wf A.length := by
      simp only [spine_back] at hsr
      rw [e, spine_append] at hsr
      simpa using hsr.2.1
    refine ⟨nd, A.length, spineList .front v.left ++ v.root.toList ++ spineList .back B, spineList .back A,
      ?_, hw, ?_, by simp; omega, hs, ?_⟩
    · simp [nodeAt, e]
    · rw [toList_eq v .back, spine_back, e, spineList_append]; simp [Side.add]
    · intro nd' hw' hs'
      have e' : (v.withNodeAt (some (.back, A.length)) nd') = { v with right := A ++ nd' :: B } := by
        simp [withNodeAt, e]
      rw [e']
      have ht : ({ v with right := A ++ nd' :: B }).toList =
          spineList .front v.left ++ v.root.toList ++ spineList .back B ++ nd'.toList ++ spineList .back A := by
        rw [toList_eq _ .back, spine_back, spineList_append]; simp [Side.add]
      refine ⟨ht, fun hlen => ?_⟩
      have h1 := i.head .back
      have h2 := i.top
      obtain ⟨g1, g2⟩ := hsub A B nd nd' hs'
      simp only [spine_back] at hsr h1
      rw [e] at hsr h1
      refine key ⟨?_, ?_, i.root, i.room⟩ ?_ ?_ rfl ?_
      · rw [Side.forall .front]
        have := i.length .back
        simp only [spine_back] at this
        rw [e] at this
        exact ⟨i.length .front, by simpa using this⟩
      · rw [Side.forall .front]; exact ⟨hsl, hspn A B nd nd' hs' hsr hw'⟩
      · rw [Side.forall .front]; exact ⟨i.head .front, g1 h1⟩
      · intro p0 pr s a b
        cases s
        · intro ha hb
          obtain ⟨b0, hb0, hs0⟩ := g2 b hb
          have := h2 p0 pr .front a b0 ha (by simp only [Side.negate_front, spine_back]; rw [e]; exact hb0)
          rw [hs0]; exact this
        · intro ha hb
          obtain ⟨a0, ha0, hs0⟩ := g2 a ha
          have := h2 p0 pr .back a0 b (by simp only [spine_back]; rw [e]; exact ha0) hb
          rw [hs0]; exact this
      · rw [ht, toList_eq v .back, spine_back, e, spineList_append]
        simp [Side.add, hlen]

theorem getElem?_mid (pre l post : List α) {sub : Nat} (hs : sub < l.length) :
    (pre ++ l ++ post)[pre.length + sub]? = l[sub]? := by
  rw [List.append_assoc, List.getElem?_append_right (by omega), Nat.add_sub_cancel_left,
    List.getElem?_append_left hs]

theorem set_mid (pre l post : List α) {sub : Nat} (hs : sub < l.length) (x : α) :
    (pre ++ l ++ post).set (pre.length + sub) x = pre ++ l.set sub x ++ post := by
  rw [List.append_assoc, List.set_append_right _ _ (by omega), Nat.add_sub_cancel_left,
    List.set_append_left _ _ hs, List.append_assoc]

/-- `get` returns the item at the index. -/
theorem get_ok {v : RVec α} {h : Nat} (i : InvH v h) (idx : Nat) : v.get idx = .ok v.toList[idx]? := by
  unfold get
  by_cases hix : idx < v.toList.length
  · obtain ⟨pos, sub, e, hf⟩ := findNodeInfo_ok i hix
    obtain ⟨nd, n, pre, post, e2, hw, ht, rfl, hs, -⟩ := hf.node i
    rw [e]
    simp only [ok_bind, e2, Node.get_ok hw]
    rw [ht, getElem?_mid _ _ _ hs, List.getElem?_eq_getElem hs]
    rfl
  · rw [findNodeInfo_none i (by omega), List.getElem?_eq_none (by omega)]
    rfl

/-- Writing through `get_mut` replaces exactly the item at the index. -/
theorem set_ok {v : RVec α} {h : Nat} (i : InvH v h) {idx : Nat} (x : α) (hix : idx < v.toList.length) :
    ∃ v', v.set idx x = .ok (some v') ∧ InvH v' h ∧ v'.toList = v.toList.set idx x := by
  unfold set
  obtain ⟨pos, sub, e, hf⟩ := findNodeInfo_ok i hix
  obtain ⟨nd, n, pre, post, e2, hw, ht, rfl, hs, hput⟩ := hf.node i
  obtain ⟨nd', e3, w', t', s'⟩ := Node.set_ok hw x hs
  obtain ⟨h1, h2⟩ := hput nd' w' s'
  refine ⟨v.withNodeAt pos nd', ?_, h2 (by rw [t']; simp), ?_⟩
  · rw [e]; simp only [ok_bind, e2, e3, unwrap_some]
  · rw [h1, ht, t', set_mid _ _ _ hs]

theorem set_none {v : RVec α} {h : Nat} (i : InvH v h) {idx : Nat} (x : α) (hix : v.toList.length ≤ idx) :
    v.set idx x = .ok none := by
  unfold set
  rw [findNodeInfo_none i hix]; rfl

/-! ### front and back -/

/-- The leaf at an end holds the items of that end. -/
theorem InvH.leaf_end {v : RVec α} {h : Nat} (i : InvH v h) (s : Side) :
    ∃ rest, v.toList = s.add (v.leafNode s).toList rest ∧ ((v.leafNode s).toList = [] → v.toList = []) ∧
      ∀ nd', nd'.Wf 0 → nd'.slots = (v.leafNode s).slots →
        (v.withLeafNode s nd').toList = s.add nd'.toList rest ∧
        InvH (v.withLeafNode s nd') h := by
  have hlf := i.leafNode s
  have hlen : ∀ nd' : Node α, nd'.Wf 0 → nd'.slots = (v.leafNode s).slots →
      nd'.toList.length = (v.leafNode s).toList.length := by
    intro nd' hw hs
    obtain ⟨l1, k1⟩ := Node.wf_zero.1 hw
    obtain ⟨l2, k2⟩ := Node.wf_zero.1 hlf
    rw [k1.toList, k2.toList, ← k1.slots, ← k2.slots, hs]
  cases hsp : v.spine s with
  | nil =>
    have hl := i.length s
    have h0 : h = 0 := by rw [hsp] at hl; simpa using hl.symm
    subst h0
    have hop : v.spine s.negate = [] := List.eq_nil_of_length_eq_zero (i.length _)
    have hln : v.leafNode s = v.root := by simp [leafNode, hsp]
    have hspl : ∀ nd' t, ({ v with root := nd' }).spine t = [] := by
      intro nd'
      rw [Side.forall s]
      exact ⟨by rw [← hsp]; cases s <;> rfl, by rw [← hop]; cases s <;> rfl⟩
    refine ⟨[], ?_, ?_, ?_⟩
    · rw [toList_eq v s, hsp, hop, hln]; simp
    · intro e; rw [toList_eq v s, hsp, hop, ← hln, e]; simp
    · intro nd' hw hs
      have e' : v.withLeafNode s nd' = { v with root := nd' } := by simp [withLeafNode, hsp]
      rw [e']
      have ht : ({ v with root := nd' }).toList = nd'.toList := by
        rw [toList_eq _ s, hspl, hspl]; simp
      refine ⟨by rw [ht]; simp, ⟨⟨?_, ?_, hw, fun h => absurd rfl h⟩, ?_, fun h => absurd rfl h, ?_, i.lt⟩⟩
      · intro t; rw [hspl]; rfl
      · intro t; rw [hspl]; trivial
      · intro t; rw [hspl]; simp
      · rw [ht, hlen nd' hw hs, hln]
        show v.len = _
        rw [i.len, toList_eq v s, hsp, hop]; simp
  | cons y rest =>
    have hln : v.leafNode s = y := by simp [leafNode, hsp]
    have h1 := i.head s
    have h2 := i.spine s
    rw [hsp] at h1 h2
    refine ⟨s.add (spineList s rest) (s.add v.root.toList (spineList s.negate (v.spine s.negate))), ?_, ?_, ?_⟩
    · rw [toList_eq v s, hsp, hln]; simp [Side.add_assoc]
    · rw [hln]; intro e
      simp at h1
      exact absurd (h2.1.slots_eq_zero.2 e) h1
    · intro nd' hw hs
      have e' : v.withLeafNode s nd' = v.withSpine s (nd' :: rest) := by simp [withLeafNode, hsp]
      rw [e']
      have ht : (v.withSpine s (nd' :: rest)).toList = s.add nd'.toList
          (s.add (spineList s rest) (s.add v.root.toList (spineList s.negate (v.spine s.negate)))) := by
        rw [toList_eq _ s]; simp [Side.add_assoc]
      refine ⟨ht, ⟨⟨?_, ?_, by simpa using i.root, by simpa using i.room⟩, ?_, ?_, ?_, by simpa using i.lt⟩⟩
      · rw [Side.forall s]; simp only [withSpine_same, withSpine_other]
        have := i.length s
        rw [hsp] at this
        exact ⟨by simpa using this, i.length _⟩
      · rw [Side.forall s]; simp only [withSpine_same, withSpine_other]
        exact ⟨⟨hw, fun h => absurd rfl h, h2.2.2⟩, i.spine _⟩
      · rw [Side.forall s]; simp only [withSpine_same, withSpine_other]
        rw [hln] at hs
        exact ⟨by simpa [hs] using h1, i.head _⟩
      · intro p0 pr
        have pr' : v.root.slots = 0 := by simpa using pr
        have hg : ∀ a, (nd' :: rest).getLast? = some a → ∃ a0, (v.spine s).getLast? = some a0 ∧ a.slots = a0.slots := by
          intro a ha
          rw [hsp]
          cases rest with
          | nil => simp at ha; subst ha; exact ⟨y, rfl, by rw [hs, hln]⟩
          | cons z zs =>
            rw [List.getLast?_cons_cons] at ha
            exact ⟨a, by rw [List.getLast?_cons_cons]; exact ha, rfl⟩
        rw [Side.forall s]
        simp only [withSpine_same, withSpine_other, Side.negate_negate]
        constructor
        · intro a b ha hb
          obtain ⟨a0, ha0, hs0⟩ := hg a ha
          rw [hs0]; exact i.top p0 pr' s a0 b ha0 hb
        · intro a b ha hb
          obtain ⟨b0, hb0, hs0⟩ := hg b hb
          rw [hs0]; exact i.top p0 pr' s.negate a b0 ha (by simpa using hb0)
      · have hl := i.len
        rw [toList_eq v s, hsp] at hl
        rw [ht]
        simp only [withSpine_len, hl, Side.length_add, spineList_cons, hlen nd' hw hs, hln]
        omega

/-- The item at an end of a list. -/
def endOf (s : Side) (l : List α) : Option α :=
  match s with
  | .front => l.head?
  | .back => l.getLast?

theorem frontBack_ok {v : RVec α} {h : Nat} (i : InvH v h) (s : Side) :
    v.frontBack s = .ok (endOf s v.toList) := by
  obtain ⟨rest, ht, he, -⟩ := i.leaf_end s
  obtain ⟨l, hI⟩ := Node.wf_zero.1 (i.leafNode s)
  rw [hI.toList] at ht he
  unfold frontBack
  obtain ⟨b, e, hb⟩ := hI
  rw [e]
  cases s with
  | front =>
    simp only [leafEnd, CB.get_ok hb, ht, endOf, Side.add]
    cases l with
    | nil => rw [he rfl] at ht; simp [Side.add] at ht; simp [ht]
    | cons x l => simp
  | back =>
    simp only [leafEnd, CB.get_ok hb, ht, endOf, Side.add, hb.len_eq]
    rcases List.eq_nil_or_concat l with rfl | ⟨l, x, rfl⟩
    · rw [he rfl] at ht; simp [Side.add] at ht; simp [ht]
    · rw [List.concat_eq_append, ← List.append_assoc, List.getLast?_concat]; simp

theorem setFrontBack_ok {v : RVec α} {h : Nat} (i : InvH v h) (s : Side) (x : α) {y : α} {l : List α}
    (he : v.toList = s.cons y l) :
    ∃ v', v.setFrontBack s x = .ok (some v') ∧ InvH v' h ∧ v'.toList = s.cons x l := by
  obtain ⟨rest, ht, hem, hput⟩ := i.leaf_end s
  obtain ⟨m, hI⟩ := Node.wf_zero.1 (i.leafNode s)
  have hIs := hI.slots
  rw [hI.toList] at ht hem
  have hm : m ≠ [] := by
    intro e
    have := hem e
    rw [he] at this
    have := congrArg List.length this
    simp at this
  obtain ⟨z, m, rfl⟩ := s.exists_cons hm
  obtain ⟨b, e, hb⟩ := hI
  have hl : l = s.add m rest := by
    rw [he] at ht
    cases s
    · simp [Side.cons, Side.add] at ht; exact ht.2
    · rw [Side.cons, Side.add, Side.cons, ← List.append_assoc] at ht
      exact (List.append_inj' ht rfl).1
  have key : ∀ b', b'.Rep (s.cons x m) → setLeafEnd s x (.leaf b) = .ok (some (.leaf b')) →
      ∃ v', v.setFrontBack s x = .ok (some v') ∧ InvH v' h ∧ v'.toList = s.cons x l := by
    intro b' hb' e1
    have hI' : Node.Items (.leaf b') (s.cons x m) := ⟨b', rfl, hb'⟩
    obtain ⟨h1, h2⟩ := hput _ hI'.wf (by rw [hI'.slots, hIs]; simp)
    refine ⟨_, ?_, h2, ?_⟩
    · unfold setFrontBack; rw [e, e1]; rfl
    · rw [h1, hI'.toList, hl, Side.cons_add]
  cases s with
  | front =>
    obtain ⟨b', e1, r1⟩ := CB.set_ok hb (i := 0) (by simp [Side.cons]) x
    exact key b' (by simpa [Side.cons] using r1) (by simp [setLeafEnd, e1])
  | back =>
    obtain ⟨b', e1, r1⟩ := CB.set_ok hb (i := b.len - 1) (by rw [hb.len_eq]; simp [Side.cons]) x
    refine key b' ?_ (by simp [setLeafEnd, e1])
    rw [hb.len_eq] at r1
    simpa [Side.cons] using r1

theorem setFrontBack_none {v : RVec α} {h : Nat} (i : InvH v h) (s : Side) (x : α)
    (he : v.toList = []) : v.setFrontBack s x = .ok none := by
  obtain ⟨rest, ht, hem, -⟩ := i.leaf_end s
  obtain ⟨m, hI⟩ := Node.wf_zero.1 (i.leafNode s)
  rw [hI.toList, he] at ht
  have hm : m = [] := (s.add_eq_nil.1 ht.symm).1
  subst hm
  obtain ⟨b, e, hb⟩ := hI
  have h0 : b.len = 0 := hb.len_eq
  unfold setFrontBack
  rw [e]
  cases s <;> simp [setLeafEnd, h0, CB.set_none hb (i := 0) (by simp)]

end RVec
end Librrb
