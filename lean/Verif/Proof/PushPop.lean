import Verif.Proof.Spine

/-! # Pushing and popping on either side -/
namespace Librrb
namespace RVec

theorem Core.leafNode {v : RVec α} {h : Nat} (c : Core v h) (s : Side) : (v.leafNode s).Wf 0 := by
  have hl := c.length s
  have hs := c.spine s
  unfold RVec.leafNode
  cases hsp : v.spine s with
  | nil =>
    rw [hsp] at hl
    have : h = 0 := by simpa using hl.symm
    subst this
    exact c.root
  | cons x xs => rw [hsp] at hs; exact hs.1

theorem leafFreeSpace_ok {nd : Node α} (h : nd.Wf 0) : leafFreeSpace nd = .ok (64 - nd.slots) := by
  have := h.freeSlots
  obtain ⟨l, b, rfl, hb⟩ := Node.wf_zero.1 h
  exact this

theorem emptyInternal_wf (n : Nat) : ∃ nd, (Node.emptyInternal (n + 1) : M (Node α)) = .ok nd ∧
    nd.Wf (n + 1) ∧ nd.toList = [] ∧ nd.slots = 0 := by
  obtain ⟨nd, e, hk⟩ := Node.emptyInternal_ok (α := α) n
  exact ⟨nd, e, hk.wf, hk.toList, hk.slots⟩

/-! ### complete_leaf -/

theorem completeLoop_ok (s : Side) : ∀ (rest : List (Node α)) (x : Node α) (m : Nat) {root : Node α},
    x.Wf m → Spine (m + 1) rest → root.Wf (m + 1 + rest.length) → root.slots ≤ 62 →
    ∃ x' rest' root', completeLoop s (rest.length + 1) (x :: rest) root = .ok (x' :: rest', root') ∧
      rest'.length = rest.length ∧ x'.Wf m ∧ x'.slots ≤ 63 ∧ Spine (m + 1) rest' ∧
      root'.Wf (m + 1 + rest.length) ∧ root'.slots ≤ 63 ∧
      s.add (spineList s (x' :: rest')) root'.toList = s.add (spineList s (x :: rest)) root.toList ∧
      (x.slots = 64 → rest = [] → root'.slots ≠ 0) ∧
      (root'.slots = 0 → root' = root ∧ ∀ a a', (x :: rest).getLast? = some a →
        (x' :: rest').getLast? = some a' → a.slots ≤ a'.slots) := by
  intro rest
  induction rest with
  | nil =>
    intro x m root hx hr hroot h62
    have hxs := hx.slots_le
    by_cases hf : x.slots = 64
    · have hne : x.toList ≠ [] := fun e => by have := hx.slots_eq_zero.2 e; omega
      obtain ⟨root', e, w, sl, tl⟩ := Node.pushChild_ok hroot s hx hne (by omega)
      obtain ⟨n1, n2, n3⟩ := hx.newEmpty
      refine ⟨x.newEmpty, [], root', ?_, rfl, n1, by omega, trivial, w, by omega, ?_, ?_, ?_⟩
      · simp [completeLoop, hx.freeSlots, hf, e]
      · simp [n2, tl]
      · intro _ _; omega
      · intro h; omega
    · refine ⟨x, [], root, ?_, rfl, hx, by omega, trivial, hroot, by omega, rfl, fun h => absurd h hf, ?_⟩
      · have : 64 - x.slots ≠ 0 := by omega
        simp [completeLoop, hx.freeSlots, this]
      · intro _; refine ⟨rfl, ?_⟩
        intro a a' h1 h2; rw [h1] at h2; cases h2; exact Nat.le_refl _
  | cons p rest ih =>
    intro x m root hx hr hroot h62
    have hxs := hx.slots_le
    have hp := hr.1
    have hp63 := hr.2.1 (by omega)
    by_cases hf : x.slots = 64
    · have hne : x.toList ≠ [] := fun e => by have := hx.slots_eq_zero.2 e; omega
      obtain ⟨p', e, w, sl, tl⟩ := Node.pushChild_ok hp s hx hne (by omega)
      obtain ⟨n1, n2, n3⟩ := hx.newEmpty
      obtain ⟨x2, rest', root', e2, q1, q2, q3, q4, q5, q6, q7, q8, q9⟩ := ih p' (m + 1) w hr.2.2
        (by rw [List.length_cons] at hroot
            rw [show m + 1 + 1 + rest.length = m + 1 + (rest.length + 1) by omega]; exact hroot) h62
      refine ⟨x.newEmpty, x2 :: rest', root', ?_, by simp [q1], n1, by omega, ⟨q2, fun _ => q3, q4⟩, ?_,
        q6, ?_, fun _ h => by simp at h, ?_⟩
      · have : (List.cons p rest).length + 1 = (rest.length + 1) + 1 := rfl
        rw [this, completeLoop]
        simp [hx.freeSlots, hf, e, e2]
      · rw [List.length_cons, show m + 1 + (rest.length + 1) = m + 1 + 1 + rest.length by omega]; exact q5
      · rw [spineList_cons, n2, Side.add_nil_left, q7]
        simp [tl, Side.add_assoc]
      · intro h0
        obtain ⟨g1, g2⟩ := q9 h0
        refine ⟨g1, ?_⟩
        intro a a' h1 h2
        rw [List.getLast?_cons_cons] at h1 h2
        cases rest with
        | nil =>
          simp at h1
          subst h1
          have := g2 p' a' rfl h2
          omega
        | cons y rest =>
          rw [List.getLast?_cons_cons] at h1
          exact g2 a a' (by rw [List.getLast?_cons_cons]; exact h1) h2
    · refine ⟨x, p :: rest, root, ?_, rfl, hx, by omega, hr, hroot, by omega, rfl,
        fun h => absurd h hf, ?_⟩
      · have : 64 - x.slots ≠ 0 := by omega
        simp [completeLoop, hx.freeSlots, this]
      · intro _; refine ⟨rfl, ?_⟩
        intro a a' h1 h2; rw [h1] at h2; cases h2; exact Nat.le_refl _

theorem InvH.tops_ne {v : RVec α} {h : Nat} (i : InvH v (h + 1)) (hr : v.root.slots = 0) (s : Side) :
    ∀ a, (v.spine s).getLast? = some a → 30 ≤ a.slots := by
  intro a ha
  obtain ⟨L, l, eL, -⟩ := i.toCore.tops s.negate
  have := i.top (by omega) hr s.negate l a (by simp [eL]) (by simpa using ha)
  have h2 : 62 ≤ minTop (h + 1) := by unfold minTop; split <;> omega
  omega

/-- After completing a full leaf there is room for an item; the spine of that side may end in an
empty leaf. -/
theorem completeLeaf_ok {v : RVec α} {h : Nat} (i : InvH v h) (s : Side)
    (hfull : (v.leafNode s).slots = 64) :
    ∃ v' h', v.completeLeaf s = .ok v' ∧ Core v' h' ∧ (h' ≠ 1 → Top v' h') ∧
      v'.toList = v.toList ∧ v'.len = v.len ∧ HeadOk (v'.spine s.negate) ∧ h ≤ h' ∧ h' ≤ h + 1 ∧
      ∃ x rest, v'.spine s = x :: rest ∧ x.slots ≤ 63 := by
  have hll := i.length .front
  have hlr := i.length .back
  simp only [spine_front, spine_back] at hll hlr
  have hlen := i.length s
  have hlen' := i.length s.negate
  unfold completeLeaf
  rw [massert_ok (by simp [hll, hlr]), leafFreeSpace_ok (i.leafNode s), hfull]
  simp only [Nat.sub_self, ok_bind, beq_self_eq_true, massert_true]
  -- the raise, common to both cases
  have raise : ∀ (sp : List (Node α)) (root : Node α) (n : Nat), root.Wf n → 63 ≤ root.slots →
      root.slots ≤ 64 → (n ≠ 0 → root.slots = 63) → (n = 0 → root.slots = 64) → sp.length = n →
      Spine 0 sp → (v.spine s.negate).length = n →
      s.add (spineList s sp) root.toList = s.add (spineList s (v.spine s)) v.root.toList →
      ∃ v', (do
        let newRoot ← Node.emptyInternal (root.level + 1)
        let q ← root.shareChildrenWith root.newEmpty s.negate (64 / 2)
        .ok ((({ v with root := newRoot }).withSpine s (sp ++ [q.2.1])).withSpine s.negate
          (v.spine s.negate ++ [q.2.2])) : M (RVec α)) = .ok v' ∧ Core v' (n + 1) ∧
        Top v' (n + 1) ∧ v'.toList = v.toList ∧ v'.len = v.len ∧ HeadOk (v'.spine s.negate) ∧
        ∃ t, v'.spine s = sp ++ [t] ∧ t.slots ≤ 32 := by
    intro sp root n wr h1 h2 h3 h3' h4 h5 h6 h7
    rw [wr.level]
    obtain ⟨nr, e1, w1, t1, s1⟩ := emptyInternal_wf (α := α) n
    obtain ⟨n1, n2, n3⟩ := wr.newEmpty
    obtain ⟨k, a', b', e2, wa, wb, hk, sa, sb, mv, q1, q2⟩ := Node.share_ok wr n1 s.negate (64 / 2)
    have hk' : k = 32 := by omega
    refine ⟨_, by simp only [e1, e2, ok_bind]; rfl, ?_, ?_, ?_, by simp, ?_, a', ?_, ?_⟩
    · refine ⟨?_, ?_, ?_, ?_⟩
      · rw [Side.forall s]; simp [h4, h6]
      · rw [Side.forall s]
        simp only [withSpine_other', withSpine_same, spine_append, h5, h4, h6, spine_cons, Nat.zero_add]
        refine ⟨⟨trivial, wa, fun h0 => ?_, trivial⟩, i.spine _, wb, fun h0 => ?_, trivial⟩
        · have := h3 h0; omega
        · omega
      · simpa using w1
      · intro _; simp [s1]
    · intro _ _ t a b
      have key : a'.slots ≤ b'.slots + 1 ∧ b'.slots ≤ a'.slots + 1 ∧
          minTop (n + 1) ≤ a'.slots + b'.slots := by
        by_cases h0 : n = 0
        · have := h3' h0
          refine ⟨by omega, by omega, ?_⟩
          unfold minTop; rw [if_pos (by omega)]; omega
        · have := h3 h0
          refine ⟨by omega, by omega, ?_⟩
          unfold minTop; rw [if_neg (by omega)]; omega
      revert a b
      revert t
      rw [Side.forall s]
      simp
      constructor
      · exact ⟨key.1, key.2.2⟩
      · exact ⟨key.2.1, by omega⟩
    · rw [toList_eq _ s, toList_eq v s]
      simp only [withSpine_other', withSpine_same, withSpine_root, t1, spineList_append,
        spineList_cons, spineList_nil, Side.add_nil_right, Side.add_nil_left]
      rw [← Side.add_assoc s (spineList s (v.spine s)), ← h7, q1, q2, n2]
      simp only [Side.negate_negate, Side.negate_add, Side.add_nil_right, Side.add_assoc]
    · simp only [withSpine_same]
      have := i.head s.negate
      cases hsp : v.spine s.negate with
      | nil => simp; omega
      | cons y ys => rw [hsp] at this; simpa using this
    · simp
    · omega
  cases h with
  | zero =>
    have e0 : v.spine s = [] := List.eq_nil_of_length_eq_zero hlen
    have hroot : v.root.slots = 64 := by
      have := hfull
      simp [leafNode, e0] at this
      exact this
    rw [e0]
    simp only [List.length_nil, completeLoop, ok_bind]
    rw [if_pos (by omega)]
    obtain ⟨v', e, r1, r2, r3, r4, r5, t, r6, r7⟩ := raise [] v.root 0 i.root (by omega) (by omega)
      (fun h => absurd rfl h) (fun _ => hroot) rfl trivial hlen' (by rw [e0])
    exact ⟨v', 1, e, r1, fun _ => r2, r3, r4, r5, by omega, by omega, t, [], by simpa using r6, by omega⟩
  | succ h =>
    obtain ⟨x, rest, hsp⟩ : ∃ x rest, v.spine s = x :: rest :=
      List.exists_cons_of_ne_nil (fun e => by rw [e] at hlen; simp at hlen)
    have hxs : x.slots = 64 := by
      have := hfull
      simp [leafNode, hsp] at this
      exact this
    have hspine := i.spine s
    rw [hsp] at hspine hlen
    have hrl : rest.length = h := by simpa using hlen
    obtain ⟨x', rest', root', e, q1, q2, q3, q4, q5, q6, q7, q8, q9⟩ :=
      completeLoop_ok s rest x 0 (root := v.root) hspine.1 hspine.2.2
        (by have := i.root; rw [show 0 + 1 + rest.length = h + 1 by omega]; exact this)
        (i.room (by omega))
    rw [show 0 + 1 + rest.length = h + 1 by omega] at q5
    rw [hsp, List.length_cons, e]
    simp only [ok_bind]
    have hS : Spine 0 (x' :: rest') := ⟨q2, fun h => absurd rfl h, q4⟩
    by_cases h63 : root'.slots = 63
    · rw [if_pos (by omega)]
      obtain ⟨v', e, r1, r2, r3, r4, r5, t, r6, r7⟩ := raise (x' :: rest') root' (h + 1) q5 (by omega)
        (by omega) (fun _ => h63) (fun h => by omega) (by simp [q1, hrl]) hS hlen' (by rw [q7, hsp])
      exact ⟨v', h + 2, e, r1, fun _ => r2, r3, r4, r5, by omega, by omega, x', rest' ++ [t],
        by simpa using r6, q3⟩
    · rw [if_neg (by omega)]
      have hcore : Core (({ v with root := root' }).withSpine s (x' :: rest')) (h + 1) := by
        refine ⟨?_, ?_, ?_, ?_⟩
        · rw [Side.forall s]; simp [q1, hrl, hlen']
        · rw [Side.forall s]
          simp only [withSpine_same, withSpine_other, setRoot_spine]
          exact ⟨hS, i.spine _⟩
        · simpa using q5
        · intro _; simp; omega
      have htl : (({ v with root := root' }).withSpine s (x' :: rest')).toList = v.toList := by
        rw [toList_eq _ s, toList_eq v s]
        simp only [withSpine_same, withSpine_other, setRoot_spine, withSpine_root]
        rw [← Side.add_assoc, q7, hsp, Side.add_assoc]
      by_cases h0 : root'.slots = 0
      · rw [if_pos (by simpa using h0)]
        obtain ⟨rfl, g2⟩ := q9 h0
        have hh : h ≠ 0 := by
          rintro rfl
          exact q8 hxs (List.eq_nil_of_length_eq_zero hrl) h0
        obtain ⟨v', e', r1, r2, r3, r4, r5, r6, r7⟩ := fixup_balance hcore (by simpa using h0) (by
          have key : ∀ t a b, ((({ v with root := v.root }).withSpine s (x' :: rest')).spine t).getLast?
              = some a → ((({ v with root := v.root }).withSpine s (x' :: rest')).spine t.negate).getLast?
              = some b → minTop (h + 1) ≤ a.slots + b.slots := by
            rw [Side.forall s]
            have base : ∀ a b, (x' :: rest').getLast? = some a →
                (v.spine s.negate).getLast? = some b → minTop (h + 1) ≤ a.slots + b.slots := by
              intro a b ha hb
              obtain ⟨z, hz⟩ : ∃ z, (x :: rest).getLast? = some z := ⟨_, List.getLast?_eq_some_getLast (by simp)⟩
              have h1 := g2 z a hz ha
              have h2 := (i.top (by omega) h0 s z b (by rw [hsp]; exact hz) hb).2
              omega
            simp only [withSpine_same, withSpine_other, setRoot_spine, Side.negate_negate]
            exact ⟨base, fun a b ha hb => by have := base b a hb ha; omega⟩
          exact key .front)
        refine ⟨v', h + 1, e', r1, fun _ => r2, by rw [r3, htl], by rw [r4]; simp, ?_, by omega, by omega, ?_⟩
        · intro y hy
          rw [r7 hh s.negate] at hy
          simp only [withSpine_other, setRoot_spine] at hy
          exact i.head _ y hy
        · have := r7 hh s
          simp only [withSpine_same, List.head?_cons] at this
          cases hv' : v'.spine s with
          | nil => rw [hv'] at this; simp at this
          | cons y ys =>
            rw [hv'] at this
            simp at this
            subst this
            exact ⟨_, _, rfl, q3⟩
      · rw [if_neg (by simpa using h0)]
        refine ⟨_, h + 1, rfl, hcore, fun _ _ hr => ?_, htl, by simp, ?_, by omega, by omega, x', rest', by simp, q3⟩
        · simp at hr; exact absurd hr h0
        · simp only [withSpine_other, setRoot_spine]; exact i.head _

/-- `push_side` puts the item at the end of that side. -/
theorem pushSide_ok {v : RVec α} {h : Nat} (i : InvH v h) (s : Side) (x : α)
    (hlt : v.toList.length + 1 < USIZE_LIMIT) :
    ∃ v' h', v.pushSide s x = .ok v' ∧ InvH v' h' ∧ v'.toList = s.cons x v.toList ∧ h' ≤ h + 1 := by
  unfold pushSide
  rw [leafFreeSpace_ok (i.leafNode s)]
  simp only [ok_bind]
  have hle := (i.leafNode s).slots_le
  -- first step
  obtain ⟨v1, h1, e1, c1, t1, tl1, l1, hd1, hle1, lf1⟩ : ∃ v1 h1,
      (if (64 - (v.leafNode s).slots == 0) = true then v.completeLeaf s else .ok v) = .ok v1 ∧
      Core v1 h1 ∧ (h1 ≠ 1 → Top v1 h1) ∧ v1.toList = v.toList ∧ v1.len = v.len ∧
      HeadOk (v1.spine s.negate) ∧ h1 ≤ h + 1 ∧ (v1.leafNode s).slots ≤ 63 := by
    by_cases hf : (v.leafNode s).slots = 64
    · rw [if_pos (by simp [hf])]
      obtain ⟨v', h', e, r1, r2, r3, r4, r5, r6, r6', y, rest, r7, r8⟩ := completeLeaf_ok i s hf
      exact ⟨v', h', e, r1, r2, r3, r4, r5, r6', by simpa [leafNode, r7] using r8⟩
    · rw [if_neg (by simp; omega)]
      exact ⟨v, h, rfl, i.toCore, fun _ => i.top, rfl, rfl, i.head _, by omega, by omega⟩
  rw [e1]
  simp only [ok_bind]
  have w1 := c1.leafNode s
  obtain ⟨nd, e2, w2, s2, t2⟩ := Node.leafPush_ok w1 s x (by omega)
  rw [e2, l1]
  have hlen := i.len
  rw [uadd_ok (by rw [hlen]; exact hlt)]
  simp only [ok_bind]
  have hl := c1.length s
  cases hsp : v1.spine s with
  | nil =>
    have h0 : h1 = 0 := by rw [hsp] at hl; simpa using hl.symm
    subst h0
    have hln : v1.leafNode s = v1.root := by simp [leafNode, hsp]
    have hop : v1.spine s.negate = [] := List.eq_nil_of_length_eq_zero (c1.length _)
    have hv : v1.withLeafNode s nd = { v1 with root := nd } := by simp [withLeafNode, hsp]
    rw [hv]
    have hspl : ∀ t, ({ v1 with root := nd, len := v.len + 1 }).spine t = [] := by
      rw [Side.forall s]
      exact ⟨by rw [← hsp]; cases s <;> rfl, by rw [← hop]; cases s <;> rfl⟩
    have htl : ({ v1 with root := nd, len := v.len + 1 }).toList = s.cons x v.toList := by
      rw [toList_eq _ s, ← tl1, toList_eq v1 s, hspl, hspl, hsp, hop]
      simp [t2, hln]
    rw [if_neg (by rw [hspl]; simp)]
    refine ⟨_, 0, rfl, ⟨⟨?_, ?_, w2, fun h => absurd rfl h⟩, ?_, fun h => absurd rfl h, ?_, ?_⟩, htl, by omega⟩
    · intro t; rw [hspl]; rfl
    · intro t; rw [hspl]; trivial
    · intro t; rw [hspl]; simp
    · rw [htl]; simp [hlen]
    · rw [hlen]; exact hlt
  | cons y rest =>
    have hln : v1.leafNode s = y := by simp [leafNode, hsp]
    have hv : v1.withLeafNode s nd = v1.withSpine s (nd :: rest) := by simp [withLeafNode, hsp]
    rw [hv]
    rw [hln] at s2 t2 lf1
    have hsp1 : ({ v1.withSpine s (nd :: rest) with len := v.len + 1 }).spine s = nd :: rest := by
      rw [setLen_spine]; simp
    have hsp2 : ({ v1.withSpine s (nd :: rest) with len := v.len + 1 }).spine s.negate
        = v1.spine s.negate := by
      rw [setLen_spine]; simp
    have hspine := c1.spine s
    rw [hsp] at hspine hl
    have c2 : Core { v1.withSpine s (nd :: rest) with len := v.len + 1 } h1 := by
      refine ⟨?_, ?_, ?_, ?_⟩
      · rw [Side.forall s, hsp1, hsp2]; exact ⟨by simpa using hl, c1.length _⟩
      · rw [Side.forall s, hsp1, hsp2]; exact ⟨⟨w2, fun h => absurd rfl h, hspine.2.2⟩, c1.spine _⟩
      · simpa using c1.root
      · simpa using c1.room
    have hh2 : ∀ t, HeadOk (({ v1.withSpine s (nd :: rest) with len := v.len + 1 }).spine t) := by
      rw [Side.forall s, hsp1, hsp2]
      refine ⟨?_, hd1⟩
      simp; omega
    have htl : ({ v1.withSpine s (nd :: rest) with len := v.len + 1 }).toList = s.cons x v.toList := by
      rw [toList_eq _ s, ← tl1, toList_eq v1 s, hsp1, hsp2, hsp]
      simp [t2, Side.cons_add]
    have hl2 : ({ v1.withSpine s (nd :: rest) with len := v.len + 1 }).len
        = ({ v1.withSpine s (nd :: rest) with len := v.len + 1 }).toList.length := by
      rw [htl]; simp [hlen]
    rw [hsp1]
    by_cases hone : (nd :: rest).length = 1
    · rw [if_pos (by simpa using hone)]
      obtain ⟨v', h', e, r0, r1, r2⟩ := fixup_inv c2 hh2 hl2 (by show v.len + 1 < _; rw [hlen]; exact hlt)
      exact ⟨v', h', e, r1, by rw [r2, htl], by omega⟩
    · rw [if_neg (by simpa using hone)]
      refine ⟨_, h1, rfl, { c2 with head := hh2, top := ?_, len := hl2, lt := ?_ }, htl, by omega⟩
      · have ht1 := t1 (by simp at hl hone; rintro rfl; apply hone; exact List.eq_nil_of_length_eq_zero (by omega))
        intro g0 gr
        have gr' : v1.root.slots = 0 := by simpa using gr
        have hrest : rest ≠ [] := by rintro rfl; simp at hone
        obtain ⟨z, zs, rfl⟩ := List.exists_cons_of_ne_nil hrest
        have hlast : (nd :: z :: zs).getLast? = (v1.spine s).getLast? := by
          rw [hsp, List.getLast?_cons_cons, List.getLast?_cons_cons]
        rw [Side.forall s, hsp1, hsp2, hlast, Side.negate_negate, hsp1, hlast]
        refine ⟨ht1 g0 gr' s, ?_⟩
        have := ht1 g0 gr' s.negate
        rw [Side.negate_negate] at this
        exact this
      · show v.len + 1 < _; rw [hlen]; exact hlt

/-! ### empty_leaf -/

theorem lastEmpty_ok : ∀ (vs : List (Node α)) (i : Nat), 1 ≤ i → ∃ E rest, vs = E ++ rest ∧
    (∀ x ∈ E, x.slots = 0) ∧ (rest = [] ∨ ∃ p r, rest = p :: r ∧ p.slots ≠ 0) ∧
    lastEmpty vs i (i + vs.length - 1) + 1 = i + E.length := by
  intro vs
  induction vs with
  | nil => intro i hi; exact ⟨[], [], rfl, by simp, .inl rfl, by simp [lastEmpty]; omega⟩
  | cons v vs ih =>
    intro i hi
    by_cases hv : v.slots = 0
    · obtain ⟨E, rest, e, h1, h2, h3⟩ := ih (i + 1) (by omega)
      refine ⟨v :: E, rest, by simp [e], ?_, h2, ?_⟩
      · intro x hx; simp at hx; rcases hx with rfl | hx; exact hv; exact h1 x hx
      · simp only [lastEmpty, hv]
        simp only [bne_self_eq_false, Bool.false_eq_true, if_false, List.length_cons]
        rw [show i + (vs.length + 1) - 1 = i + 1 + vs.length - 1 by omega, h3]
        omega
    · refine ⟨[], v :: vs, rfl, by simp, .inr ⟨v, vs, rfl, hv⟩, ?_⟩
      simp [lastEmpty, hv]; omega

/-- Refilling the low end of a spine from the node `p` above it. -/
theorem emptyLeafLoop_spine (s : Side) : ∀ (m : Nat) (E : List (Node α)) (p : Node α)
    (r : List (Node α)) (root : Node α), E.length = m → p.Wf m → p.slots ≠ 0 →
    ∃ D p', emptyLeafLoop s m (E ++ p :: r) root = .ok (D ++ p' :: r, root) ∧ D.length = m ∧
      Spine 0 D ∧ HeadOk (D ++ p' :: r) ∧ p'.Wf m ∧ (m = 0 → p' = p) ∧
      (m ≠ 0 → p'.slots + 1 = p.slots) ∧ p.toList = s.add (spineList s D) p'.toList := by
  intro m
  induction m with
  | zero =>
    intro E p r root hE hp hne
    obtain rfl := List.eq_nil_of_length_eq_zero hE
    exact ⟨[], p, rfl, rfl, trivial, by simpa using hne, hp, fun _ => rfl, fun h => absurd rfl h, by simp⟩
  | succ m ih =>
    intro E p r root hE hp hne
    rcases List.eq_nil_or_concat E with rfl | ⟨E, y, rfl⟩
    · simp at hE
    simp at hE
    obtain ⟨c, p1, e1, wc, nc, wp, sp, tp⟩ := Node.popChild_ok hp s hne
    obtain ⟨D, c', e2, hD, sD, hh, wc', h0, h1, tc⟩ := ih E c (p1 :: r) root hE wc
      (fun e => nc (wc.slots_eq_zero.1 e))
    have hc64 := wc.slots_le
    refine ⟨D ++ [c'], p1, ?_, by simp [hD], ?_, by simpa using hh, wp, fun h => by omega, fun _ => sp, ?_⟩
    · unfold emptyLeafLoop
      rw [massert_ok (by simp; omega)]
      have : (E.concat y ++ p :: r)[m + 1]? = some p := by
        rw [List.getElem?_append_right (by simp [hE])]; simp [hE]
      simp only [ok_bind, this, e1]
      have e3 : ((E.concat y ++ p :: r).set (m + 1) p1).set m c = E ++ c :: p1 :: r := by
        rw [List.concat_eq_append, List.set_append_right _ _ (by simp [hE])]
        rw [List.append_assoc, List.set_append_right _ _ (by simp [hE])]
        simp [hE]
      rw [e3, e2]
      simp
    · rw [spine_append]
      refine ⟨sD, ?_⟩
      rw [hD]
      refine ⟨by simpa using wc', fun hm => ?_, trivial⟩
      have := h1 (by omega)
      omega
    · rw [tp, tc, spineList_append, Side.add_assoc]
      simp [Side.add_assoc]

/-- Refilling a whole spine from the root. -/
theorem emptyLeafLoop_root (s : Side) (m : Nat) (E : List (Node α)) (root : Node α)
    (hE : E.length = m + 1) (hp : root.Wf (m + 1)) (hne : root.slots ≠ 0) :
    ∃ D root', emptyLeafLoop s (m + 1) E root = .ok (D, root') ∧ D.length = m + 1 ∧ Spine 0 D ∧
      HeadOk D ∧ root'.Wf (m + 1) ∧ root'.slots + 1 = root.slots ∧
      root.toList = s.add (spineList s D) root'.toList := by
  rcases List.eq_nil_or_concat E with rfl | ⟨E, y, rfl⟩
  · simp at hE
  simp at hE
  obtain ⟨c, p1, e1, wc, nc, wp, sp, tp⟩ := Node.popChild_ok hp s hne
  obtain ⟨D, c', e2, hD, sD, hh, wc', h0, h1, tc⟩ := emptyLeafLoop_spine s m E c [] p1 hE wc
    (fun e => nc (wc.slots_eq_zero.1 e))
  have hc64 := wc.slots_le
  refine ⟨D ++ [c'], p1, ?_, by simp [hD], ?_, by simpa using hh, wp, sp, ?_⟩
  · unfold emptyLeafLoop
    rw [massert_ok (by simp; omega)]
    have : (E.concat y)[m + 1]? = none := by simp [hE]
    simp only [ok_bind, this, e1]
    have e3 : (E.concat y).set m c = E ++ [c] := by
      rw [List.concat_eq_append, List.set_append_right _ _ (by simp [hE])]
      simp [hE]
    rw [e3, e2]
  · rw [spine_append]
    refine ⟨sD, ?_⟩
    rw [hD]
    refine ⟨by simpa using wc', fun hm => ?_, trivial⟩
    have := h1 (by omega)
    omega
  · rw [tp, tc, spineList_append]
    simp [Side.add_assoc]

theorem emptyLeaf_ok {v : RVec α} {h : Nat} (c : Core v h) (s : Side) {x : Node α}
    {rest : List (Node α)} (hsp : v.spine s = x :: rest) (hx : x.slots = 0)
    (hh : HeadOk (v.spine s.negate))
    (hne : v.root.slots ≠ 0 ∨ ∃ a, (v.spine s).getLast? = some a ∧ a.slots ≠ 0) :
    ∃ v' h', v.emptyLeaf s = .ok v' ∧ h' ≤ h ∧ Core v' h' ∧ Top v' h' ∧
      (∀ s, HeadOk (v'.spine s)) ∧ v'.toList = v.toList ∧ v'.len = v.len := by
  have hll := c.length .front
  have hlr := c.length .back
  simp only [spine_front, spine_back] at hll hlr
  have hlen := c.length s
  have hspine := c.spine s
  rw [hsp] at hlen hspine
  obtain ⟨z, hz⟩ : ∃ z, (x :: rest).getLast? = some z := ⟨_, List.getLast?_eq_some_getLast (by simp)⟩
  have hchk : (v.root.slots != 0 || z.slots != 0) = true := by
    rcases hne with h | ⟨a, ha, h⟩
    · simp [h]
    · rw [hsp, hz] at ha; cases ha; simp [h]
  unfold emptyLeaf
  rw [massert_ok (by simp [hll, hlr])]
  simp only [hsp, ok_bind, List.head?_cons, unwrap_some, hz, hchk, massert_true, hx, beq_self_eq_true]
  rw [usub_ok (by simp)]
  simp only [ok_bind, List.tail_cons]
  obtain ⟨E, r, e, hE, hr, hcnt⟩ := lastEmpty_ok rest 1 (Nat.le_refl _)
  rw [show (x :: rest).length - 1 = 1 + rest.length - 1 by simp, hcnt]
  have hEe : ∀ y ∈ x :: E, y.slots = 0 := by
    intro y hy; simp at hy; rcases hy with rfl | hy; exact hx; exact hE y hy
  have hwE : Spine 0 (x :: E) ∧ Spine (E.length + 1) r := by
    have : Spine 0 ((x :: E) ++ r) := by simpa [e] using hspine
    rw [spine_append] at this
    simpa using this
  have hEt : ∀ y ∈ x :: E, y.toList = [] := by
    intro y hy
    obtain ⟨j, hj, rfl⟩ := List.getElem_of_mem hy
    exact (hwE.1.getElem hj).1.slots_eq_zero.1 (hEe _ hy)
  have hEl : spineList s (x :: E) = [] := (spineList_eq_nil s).2 hEt
  -- the refilled spine and root
  obtain ⟨sp', root', e', hl', hS', hH', hw', hs', ht'⟩ : ∃ sp' root',
      emptyLeafLoop s (1 + E.length) (x :: rest) v.root = .ok (sp', root') ∧ sp'.length = h ∧
      Spine 0 sp' ∧ HeadOk sp' ∧ root'.Wf h ∧ root'.slots ≤ v.root.slots ∧
      s.add (spineList s sp') root'.toList = s.add (spineList s (x :: rest)) v.root.toList := by
    rcases hr with rfl | ⟨p, r, rfl, hp⟩
    · simp at e
      subst e
      have hlast : z.slots = 0 := hEe z (List.mem_of_getLast? hz)
      have hroot : v.root.slots ≠ 0 := by simpa [hlast] using hchk
      have hh : h = rest.length + 1 := by simpa using hlen.symm
      subst hh
      obtain ⟨D, root', q1, q2, q3, q4, q5, q6, q7⟩ := emptyLeafLoop_root s rest.length (x :: rest)
        v.root (by simp) c.root hroot
      exact ⟨D, root', by rw [Nat.add_comm]; exact q1, q2, q3, q4, q5, by omega,
        by rw [hEl, q7]; simp⟩
    · have hp' : p.Wf (E.length + 1) := hwE.2.1
      have hp63 := hwE.2.2.1 (by omega)
      obtain ⟨D, p', q1, q2, q3, q4, q5, -, q7, q8⟩ := emptyLeafLoop_spine s (E.length + 1) (x :: E) p r
        v.root (by simp) hp' hp
      have hlen2 : E.length + 1 + (r.length + 1) = h := by rw [← hlen, e]; simp; omega
      refine ⟨D ++ p' :: r, v.root, ?_, ?_, ?_, q4, c.root, Nat.le_refl _, ?_⟩
      · rw [Nat.add_comm, e]; exact q1
      · simp [q2]; omega
      · rw [spine_append, q2, Nat.zero_add]
        exact ⟨q3, q5, fun _ => by have := q7 (by omega); omega, hwE.2.2.2⟩
      · have : x :: rest = (x :: E) ++ p :: r := by simp [e]
        rw [this, spineList_append, spineList_append, hEl]
        simp [q8, Side.add_assoc]
  rw [e']
  simp only [ok_bind]
  have c' : Core (({ v with root := root' }).withSpine s sp') h := by
    refine ⟨?_, ?_, ?_, ?_⟩
    · rw [Side.forall s]; simp [hl', c.length]
    · rw [Side.forall s]
      simp only [withSpine_same, withSpine_other, setRoot_spine]
      exact ⟨hS', c.spine _⟩
    · simpa using hw'
    · intro h0; have := c.room h0; simp; omega
  obtain ⟨v', h', r0, r1, r2, r3, r4, r5, r6⟩ := fixup_ok c' (by
    rw [Side.forall s]
    simp only [withSpine_same, withSpine_other, setRoot_spine]
    exact ⟨hH', hh⟩)
  refine ⟨v', h', r0, r1, r2, r3, r4, ?_, by rw [r6]; simp⟩
  rw [r5, toList_eq _ s, toList_eq v s]
  simp only [withSpine_same, withSpine_other, setRoot_spine, withSpine_root]
  rw [← Side.add_assoc, ht', hsp, Side.add_assoc]

/-- `pop_side` on an empty vector. -/
theorem popSide_empty {v : RVec α} {h : Nat} (i : InvH v h) (s : Side) (he : v.toList = []) :
    v.popSide s = .ok (none, v) := by
  have hll := i.length .front
  have hlr := i.length .back
  have hl := i.length s
  simp only [spine_front, spine_back] at hll hlr
  unfold popSide
  rw [massert_ok (by simp [hll, hlr])]
  have hr : v.root.toList = [] := by simp [toList] at he; tauto
  have hs : v.spine s = [] := by
    cases hsp : v.spine s with
    | nil => rfl
    | cons x xs =>
      have h1 := i.head s
      have h2 := i.spine s
      rw [hsp] at h1 h2
      rw [toList_eq v s, hsp] at he
      simp [Side.add_eq_nil] at he
      simp at h1
      exact absurd (h2.1.slots_eq_zero.2 he.1.1) h1
  simp [hs, i.root.isEmpty, hr]

/-- `pop_side` removes the item at the end of that side. -/
theorem popSide_ok {v : RVec α} {h : Nat} (i : InvH v h) (s : Side) {x : α} {l : List α}
    (he : v.toList = s.cons x l) :
    ∃ v' h', v.popSide s = .ok (some x, v') ∧ InvH v' h' ∧ v'.toList = l ∧ h' ≤ h := by
  have hll := i.length .front
  have hlr := i.length .back
  have hl := i.length s
  simp only [spine_front, spine_back] at hll hlr
  unfold popSide
  rw [massert_ok (by simp [hll, hlr])]
  have hlen := i.len
  rw [he] at hlen
  simp at hlen
  have hlt := i.lt
  have cons_inj : ∀ {y : α} {l' : List α}, s.cons y l' = s.cons x l → y = x ∧ l' = l := by
    intro y l' hh
    cases s
    · simp [Side.cons] at hh; exact hh
    · simp [Side.cons] at hh; exact ⟨hh.2, hh.1⟩
  cases hsp : v.spine s with
  | nil =>
    have h0 : h = 0 := by rw [hsp] at hl; simpa using hl.symm
    subst h0
    have hop : v.spine s.negate = [] := List.eq_nil_of_length_eq_zero (i.length _)
    have hrt : v.root.toList = s.cons x l := by
      rw [← he, toList_eq v s, hsp, hop]; simp
    have hne : v.root.slots ≠ 0 := by
      intro e
      have := i.root.slots_eq_zero.1 e
      rw [this] at hrt
      have := congrArg List.length hrt
      simp at this
    obtain ⟨y, nd, e1, w1, s1, t1⟩ := Node.leafPop_ok i.root s hne
    obtain ⟨rfl, rfl⟩ := cons_inj (y := y) (l' := nd.toList) (by rw [← hrt, t1])
    refine ⟨{ v with root := nd, len := v.len - 1 }, 0, ?_, ?_⟩
    · have : v.root.toList ≠ [] := fun e => hne (i.root.slots_eq_zero.2 e)
      simp [i.root.isEmpty, this, e1, usub_ok (show 1 ≤ v.len by omega)]
    · have hspl : ∀ t, ({ v with root := nd, len := v.len - 1 }).spine t = [] := by
        rw [Side.forall s]
        exact ⟨by rw [← hsp]; cases s <;> rfl, by rw [← hop]; cases s <;> rfl⟩
      have htl : ({ v with root := nd, len := v.len - 1 }).toList = nd.toList := by
        rw [toList_eq _ s, hspl, hspl]; simp
      refine ⟨⟨⟨?_, ?_, w1, fun h => absurd rfl h⟩, ?_, fun h => absurd rfl h, ?_, ?_⟩, htl, Nat.le_refl _⟩
      · intro t; rw [hspl]; rfl
      · intro t; rw [hspl]; trivial
      · intro t; rw [hspl]; simp
      · rw [htl]; show v.len - 1 = _; omega
      · show v.len - 1 < _; omega
  | cons y rest =>
    simp only [ok_bind, List.isEmpty_cons, Bool.false_eq_true, if_false]
    have hln : v.leafNode s = y := by simp [leafNode, hsp]
    have hspine := i.spine s
    have hhead := i.head s
    rw [hsp] at hspine hhead hl
    simp at hhead
    obtain ⟨z, nd, e1, w1, s1, t1⟩ := Node.leafPop_ok hspine.1 s hhead
    have hv : v.withLeafNode s nd = v.withSpine s (nd :: rest) := by simp [withLeafNode, hsp]
    rw [hln, e1]
    simp only [ok_bind, hv, w1.isEmpty']
    have htl : (v.withSpine s (nd :: rest)).toList = l ∧ z = x := by
      have h1 : v.toList = s.cons z (v.withSpine s (nd :: rest)).toList := by
        rw [toList_eq v s, toList_eq _ s, hsp]
        simp [t1, Side.cons_add]
      rw [he] at h1
      obtain ⟨h2, h3⟩ := cons_inj h1.symm
      exact ⟨h3, h2⟩
    obtain ⟨htl, rfl⟩ := htl
    have c2 : Core (v.withSpine s (nd :: rest)) h := by
      refine ⟨?_, ?_, ?_, ?_⟩
      · rw [Side.forall s]; simp only [withSpine_same, withSpine_other]; exact ⟨by simpa using hl, i.length _⟩
      · rw [Side.forall s]; simp only [withSpine_same, withSpine_other]
        exact ⟨⟨w1, fun h => absurd rfl h, hspine.2.2⟩, i.spine _⟩
      · simpa using i.root
      · simpa using i.room
    -- the repaired vector
    obtain ⟨v2, h2, e2, k0, k1, k2, k3, k4, k5⟩ : ∃ v2 h2,
        (if decide (nd.slots = 0) = true then (v.withSpine s (nd :: rest)).emptyLeaf s
          else if (((v.withSpine s (nd :: rest)).spine s).length == 1) = true then
            (v.withSpine s (nd :: rest)).fixupSpineTops
          else .ok (v.withSpine s (nd :: rest))) = .ok v2 ∧ h2 ≤ h ∧ Core v2 h2 ∧ Top v2 h2 ∧
        (∀ s, HeadOk (v2.spine s)) ∧ v2.toList = l ∧ v2.len = v.len := by
      by_cases h0 : nd.slots = 0
      · rw [if_pos (by simpa using h0)]
        obtain ⟨v', h', r0, r1, r2, r3, r4, r5, r6⟩ := emptyLeaf_ok c2 s (x := nd) (rest := rest)
          (by simp) h0 (by simp only [withSpine_other]; exact i.head _) (by
            by_cases hr : v.root.slots = 0
            · right
              obtain ⟨h', rfl⟩ : ∃ k, h = k + 1 := ⟨h - 1, by simp at hl; omega⟩
              have key := i.tops_ne hr s
              rw [hsp] at key
              cases rest with
              | nil => have := key y rfl; omega
              | cons w rest =>
                obtain ⟨a, ha⟩ : ∃ a, (w :: rest).getLast? = some a :=
                  ⟨_, List.getLast?_eq_some_getLast (by simp)⟩
                have := key a (by rw [List.getLast?_cons_cons]; exact ha)
                exact ⟨a, by rw [withSpine_same, List.getLast?_cons_cons]; exact ha, by omega⟩
            · left; simpa using hr)
        exact ⟨v', h', r0, r1, r2, r3, r4, by rw [r5, htl], by rw [r6]; simp⟩
      · rw [if_neg (by simpa using h0)]
        have hh2 : ∀ t, HeadOk ((v.withSpine s (nd :: rest)).spine t) := by
          rw [Side.forall s]; simp only [withSpine_same, withSpine_other]
          exact ⟨by simpa using h0, i.head _⟩
        by_cases hone : (nd :: rest).length = 1
        · rw [if_pos (by simpa using hone)]
          obtain ⟨v', h', r0, r1, r2, r3, r4, r5, r6⟩ := fixup_ok c2 hh2
          exact ⟨v', h', r0, r1, r2, r3, r4, by rw [r5, htl], by rw [r6]; simp⟩
        · rw [if_neg (by simpa using hone)]
          refine ⟨_, h, rfl, Nat.le_refl _, c2, ?_, hh2, htl, by simp⟩
          intro g0 gr
          have gr' : v.root.slots = 0 := by simpa using gr
          have hrest : rest ≠ [] := by rintro rfl; simp at hone
          obtain ⟨w, zs, rfl⟩ := List.exists_cons_of_ne_nil hrest
          have hlast : (nd :: w :: zs).getLast? = (v.spine s).getLast? := by
            rw [hsp, List.getLast?_cons_cons, List.getLast?_cons_cons]
          rw [Side.forall s]
          simp only [withSpine_same, withSpine_other, Side.negate_negate]
          rw [hlast]
          refine ⟨i.top g0 gr' s, ?_⟩
          have := i.top g0 gr' s.negate
          rw [Side.negate_negate] at this
          exact this
    rw [e2]
    simp only [ok_bind, k5]
    rw [usub_ok (by omega)]
    refine ⟨{ v2 with len := v.len - 1 }, h2, rfl, ?_, ?_, k0⟩
    · refine ⟨⟨?_, ?_, k1.root, k1.room⟩, ?_, ?_, ?_, ?_⟩
      · intro t; rw [setLen_spine]; exact k1.length t
      · intro t; rw [setLen_spine]; exact k1.spine t
      · intro t; rw [setLen_spine]; exact k3 t
      · intro g0 gr t; rw [setLen_spine, setLen_spine]; exact k2 g0 gr t
      · show v.len - 1 = v2.toList.length; rw [k4]; omega
      · show v.len - 1 < _; omega
    · exact k4

end RVec
end Librrb
