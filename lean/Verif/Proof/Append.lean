import Verif.Proof.PushPop

/-! # Concatenation -/
namespace Librrb
namespace RVec

/-! ### Making the spines the same length -/

/-- One raise of the tree: the root is shared out to the two spines and a new empty root is put on
top. -/
theorem raiseStep_ok {v : RVec α} {h : Nat} (c : Core v h) (hh : ∀ s, HeadOk (v.spine s))
    (h2 : h = 0 → 2 ≤ v.root.slots) (s : Side) :
    ∃ nr k a b, Node.emptyInternal (v.root.level + 1) = .ok nr ∧
      v.root.shareChildrenWith v.root.newEmpty s.negate (v.root.slots / 2) = .ok (k, a, b) ∧
      ∀ v' : RVec α, v'.root = nr → v'.spine s = v.spine s ++ [a] →
        v'.spine s.negate = v.spine s.negate ++ [b] →
        Core v' (h + 1) ∧ (∀ s, HeadOk (v'.spine s)) ∧ v'.toList = v.toList := by
  obtain ⟨nr, e1, w1, t1, s1⟩ := emptyInternal_wf (α := α) h
  obtain ⟨n1, n2, n3⟩ := c.root.newEmpty
  obtain ⟨k, a, b, e2, wa, wb, hk, sa, sb, mv, q1, q2⟩ :=
    Node.share_ok c.root n1 s.negate (v.root.slots / 2)
  refine ⟨nr, k, a, b, by rw [c.root.level]; exact e1, e2, ?_⟩
  intro v' hr hs hn
  have h64 := c.root.slots_le
  refine ⟨⟨?_, ?_, ?_, ?_⟩, ?_, ?_⟩
  · rw [Side.forall s, hs, hn]; simp [c.length]
  · rw [Side.forall s, hs, hn, spine_append, spine_append, c.length, c.length]
    refine ⟨⟨c.spine _, ?_, fun h0 => ?_, trivial⟩, c.spine _, ?_, fun h0 => ?_, trivial⟩
    · simpa using wa
    · have := c.room (by omega); omega
    · simpa using wb
    · have := c.room (by omega); omega
  · rw [hr]; exact w1
  · intro _; rw [hr, s1]; omega
  · rw [Side.forall s, hs, hn]
    by_cases h0 : h = 0
    · have := h2 h0
      have hl := c.length s
      have hl' := c.length s.negate
      rw [h0] at hl hl'
      rw [List.eq_nil_of_length_eq_zero hl, List.eq_nil_of_length_eq_zero hl']
      simp; omega
    · constructor
      · have := hh s
        cases hsp : v.spine s with
        | nil => have := c.length s; rw [hsp] at this; exact absurd this.symm h0
        | cons x xs => rw [hsp] at this; simpa using this
      · have := hh s.negate
        cases hsp : v.spine s.negate with
        | nil => have := c.length s.negate; rw [hsp] at this; exact absurd this.symm h0
        | cons x xs => rw [hsp] at this; simpa using this
  · rw [toList_eq v' s, toList_eq v s, hr, t1, hs, hn, spineList_append, spineList_append, q1]
    cases s <;> simp_all [Side.add]

theorem raiseSelf_ok : ∀ (fuel : Nat) {v : RVec α} {h target : Nat}, Core v h →
    (∀ s, HeadOk (v.spine s)) → (h = 0 → 2 ≤ v.root.slots) → target - h ≤ fuel →
    ∃ v', raiseSelf fuel target v = .ok v' ∧ Core v' (max h target) ∧ (∀ s, HeadOk (v'.spine s)) ∧
      v'.toList = v.toList ∧ (max h target = 0 → 2 ≤ v'.root.slots) := by
  intro fuel
  induction fuel with
  | zero =>
    intro v h target c hh h2 hf
    have hl := c.length .back
    simp only [spine_back] at hl
    refine ⟨v, ?_, by rw [Nat.max_eq_left (by omega)]; exact c, hh, rfl,
      by rw [Nat.max_eq_left (by omega)]; exact h2⟩
    unfold raiseSelf; rw [if_neg (by omega)]
  | succ fuel ih =>
    intro v h target c hh h2 hf
    have hl := c.length .back
    simp only [spine_back] at hl
    unfold raiseSelf
    by_cases hlt : h < target
    · rw [if_pos (by omega)]
      obtain ⟨nr, k, a, b, e1, e2, hv⟩ := raiseStep_ok c hh h2 .front
      simp only [Side.negate_front] at e2
      simp only [e1, e2, ok_bind]
      obtain ⟨c', hh', t'⟩ := hv { v with root := nr, left := v.left ++ [a], right := v.right ++ [b] }
        rfl rfl rfl
      obtain ⟨v', r1, r2, r3, r4, r5⟩ := ih c' hh' (fun h => by omega) (target := target) (by omega)
      rw [show max (h + 1) target = max h target by omega] at r2 r5
      exact ⟨v', r1, r2, r3, by rw [r4, t'], r5⟩
    · rw [if_neg (by omega)]
      exact ⟨v, rfl, by rw [Nat.max_eq_left (by omega)]; exact c, hh, rfl,
        by rw [Nat.max_eq_left (by omega)]; exact h2⟩

theorem raiseOther_ok : ∀ (fuel : Nat) {v : RVec α} {h target : Nat}, Core v h →
    (∀ s, HeadOk (v.spine s)) → (h = 0 → 2 ≤ v.root.slots) → target - h ≤ fuel →
    ∃ v', raiseOther fuel target v = .ok v' ∧ Core v' (max h target) ∧ (∀ s, HeadOk (v'.spine s)) ∧
      v'.toList = v.toList ∧ (max h target = 0 → 2 ≤ v'.root.slots) := by
  intro fuel
  induction fuel with
  | zero =>
    intro v h target c hh h2 hf
    have hl := c.length .front
    simp only [spine_front] at hl
    refine ⟨v, ?_, by rw [Nat.max_eq_left (by omega)]; exact c, hh, rfl,
      by rw [Nat.max_eq_left (by omega)]; exact h2⟩
    unfold raiseOther; rw [if_neg (by omega)]
  | succ fuel ih =>
    intro v h target c hh h2 hf
    have hl := c.length .front
    simp only [spine_front] at hl
    unfold raiseOther
    by_cases hlt : h < target
    · rw [if_pos (by omega)]
      obtain ⟨nr, k, a, b, e1, e2, hv⟩ := raiseStep_ok c hh h2 .back
      simp only [Side.negate_back] at e2
      simp only [e1, e2, ok_bind]
      obtain ⟨c', hh', t'⟩ := hv { v with root := nr, left := v.left ++ [b], right := v.right ++ [a] }
        rfl rfl rfl
      obtain ⟨v', r1, r2, r3, r4, r5⟩ := ih c' hh' (fun h => by omega) (target := target) (by omega)
      rw [show max (h + 1) target = max h target by omega] at r2 r5
      exact ⟨v', r1, r2, r3, by rw [r4, t'], r5⟩
    · rw [if_neg (by omega)]
      exact ⟨v, rfl, by rw [Nat.max_eq_left (by omega)]; exact c, hh, rfl,
        by rw [Nat.max_eq_left (by omega)]; exact h2⟩

/-! ### Joining two nodes of the same level -/

theorem stealLoop_full {n : Nat} {lrm right : Node α} (hw : lrm.Wf n) (hr : right.Wf (n + 1))
    (hf : lrm.slots = 64) (fuel : Nat) : stealLoop fuel lrm right = .ok (lrm, right) := by
  cases fuel <;> simp [stealLoop, hw.isFull, hf, hr.isEmpty]

theorem stealLoop_ok {n : Nat} : ∀ (fuel : Nat) {lrm right : Node α}, lrm.Wf n → right.Wf (n + 1) →
    right.slots ≤ fuel → ∃ lrm' right', stealLoop fuel lrm right = .ok (lrm', right') ∧ lrm'.Wf n ∧
      right'.Wf (n + 1) ∧ lrm.slots ≤ lrm'.slots ∧
      lrm'.toList ++ right'.toList = lrm.toList ++ right.toList := by
  intro fuel
  induction fuel with
  | zero =>
    intro lrm right hw hr hf
    have : right.slots = 0 := by omega
    exact ⟨lrm, right, by simp [stealLoop, hw.isFull, hr.isEmpty', this], hw, hr, Nat.le_refl _, rfl⟩
  | succ fuel ih =>
    intro lrm right hw hr hf
    have h64 := hw.slots_le
    by_cases hfull : lrm.slots = 64
    · exact ⟨lrm, right, stealLoop_full hw hr hfull _, hw, hr, Nat.le_refl _, rfl⟩
    by_cases hemp : right.slots = 0
    · exact ⟨lrm, right, by simp [stealLoop, hw.isFull, hr.isEmpty', hemp], hw, hr, Nat.le_refl _, rfl⟩
    obtain ⟨c, r1, e1, wc, nc, wr1, sr1, tr1⟩ := Node.popChild_ok hr .front hemp
    obtain ⟨k, c', l', e2, wc', wl', hk, sc', sl', mv, q1, q2⟩ := Node.share_ok wc hw .front c.slots
    have hr64 := hr.slots_le
    simp only [Side.add, Side.negate_front] at tr1 q1 q2
    unfold stealLoop
    simp only [hw.isFull, hr.isEmpty', ok_bind, hfull, hemp, decide_false, Bool.not_false,
      Bool.and_self, if_true, e1, e2, wc'.isEmpty']
    by_cases hce : c'.slots = 0
    · have hct := wc'.slots_eq_zero.1 hce
      rw [if_neg (by simp [hce])]
      simp only [ok_bind]
      obtain ⟨lf, rf, g1, g2, g3, g4, g5⟩ := ih wl' wr1 (by omega)
      exact ⟨lf, rf, g1, g2, g3, by omega, by rw [g5, q2, tr1, q1, hct]; simp⟩
    · rw [if_pos (by simp [hce])]
      obtain ⟨r2, e3, wr2, sr2, tr2⟩ := Node.pushChild_ok wr1 .front wc'
        (fun e => hce (wc'.slots_eq_zero.2 e)) (by omega)
      simp only [e3, ok_bind]
      exact ⟨l', r2, stealLoop_full wl' wr2 (by omega) _, wl', wr2, by omega,
        by simp [tr2, q2, tr1, q1, Side.add]⟩

theorem joinLevel_ok {n : Nat} {left right : Node α} (hl : left.Wf (n + 1)) (hr : right.Wf (n + 1))
    (hne : left.slots ≠ 0) : ∃ left' right', joinLevel left right = .ok (left', right') ∧
      left'.Wf (n + 1) ∧ right'.Wf (n + 1) ∧ left'.slots ≠ 0 ∧
      left'.toList ++ right'.toList = left.toList ++ right.toList := by
  obtain ⟨ks, hk⟩ := Node.wf_succ.1 hl
  obtain ⟨l1, ks1, e1, k1, t1, -, -⟩ := Node.pack_ok hk
  have hne1 : l1.slots ≠ 0 := by
    intro e
    have := k1.wf.slots_eq_zero.1 e
    rw [t1] at this
    exact hne (hl.slots_eq_zero.2 this)
  obtain ⟨lrm, l2, e2, wlrm, nlrm, wl2, sl2, tl2⟩ := Node.popChild_ok k1.wf .back hne1
  obtain ⟨lrm', r1, e3, wlrm', wr1, hle, ht⟩ := stealLoop_ok (right.slots + 1) wlrm hr (by omega)
  have nlrm' : lrm'.toList ≠ [] := by
    intro e
    have h1 := wlrm'.slots_eq_zero.2 e
    exact nlrm (wlrm.slots_eq_zero.1 (by omega))
  have h64 := k1.wf.slots_le
  obtain ⟨l3, e4, wl3, sl3, tl3⟩ := Node.pushChild_ok wl2 .back wlrm' nlrm' (by omega)
  obtain ⟨ks2, hk2⟩ := Node.wf_succ.1 wr1
  obtain ⟨r2, ks3, e5, k3, t3, -, -⟩ := Node.pack_ok hk2
  obtain ⟨k, r3, l4, e6, wr3, wl4, hkk, sr3, sl4, mv, q1, q2⟩ := Node.share_ok k3.wf wl3 .front r2.slots
  refine ⟨l4, r3, ?_, wl4, wr3, by omega, ?_⟩
  · simp [joinLevel, e1, e2, e3, e4, e5, e6]
  · simp only [Side.add, Side.negate_front] at q1 q2 tl3 tl2
    rw [q2, List.append_assoc, ← q1, t3, tl3, List.append_assoc, ht, ← t1, tl2, List.append_assoc]

theorem pushUp_nil {m : Nat} (s : Side) {child root : Node α} (hc : child.Wf m) (hr : root.Wf (m + 1))
    (h63 : root.slots ≤ 63) : ∃ root', pushUp s child [] root = .ok ([], root') ∧ root'.Wf (m + 1) ∧
      root'.slots ≤ root.slots + 1 ∧ (child.slots ≠ 0 → root'.slots ≠ 0) ∧
      root'.toList = s.add child.toList root.toList := by
  by_cases h0 : child.slots = 0
  · refine ⟨root, by simp [pushUp, hc.isEmpty', h0], hr, by omega, fun h => absurd h0 h, ?_⟩
    rw [hc.slots_eq_zero.1 h0]; simp
  · obtain ⟨r', e, w, sl, tl⟩ := Node.pushChild_ok hr s hc (fun e => h0 (hc.slots_eq_zero.2 e)) (by omega)
    exact ⟨r', by simp [pushUp, hc.isEmpty', h0, e], w, by omega, fun _ => by omega, tl⟩

theorem pushUp_cons {m : Nat} (s : Side) {child p root : Node α} {rest : List (Node α)}
    (hc : child.Wf m) (hp : p.Wf (m + 1))
    (h63 : p.slots ≤ 63) : ∃ p', pushUp s child (p :: rest) root = .ok (p' :: rest, root) ∧
      p'.Wf (m + 1) ∧ (child.slots ≠ 0 → p'.slots ≠ 0) ∧
      p'.toList = s.add child.toList p.toList := by
  by_cases h0 : child.slots = 0
  · refine ⟨p, by simp [pushUp, hc.isEmpty', h0], hp, fun h => absurd h0 h, ?_⟩
    rw [hc.slots_eq_zero.1 h0]; simp
  · obtain ⟨r', e, w, sl, tl⟩ := Node.pushChild_ok hp s hc (fun e => h0 (hc.slots_eq_zero.2 e)) (by omega)
    exact ⟨r', by simp [pushUp, hc.isEmpty', h0, e], w, fun _ => by omega, tl⟩

theorem appendLoop_ok : ∀ (ls qs : List (Node α)) {m : Nat} {l q root oroot : Node α},
    ls.length = qs.length → l.Wf (m + 1) → q.Wf (m + 1) → l.slots ≠ 0 → Spine (m + 2) ls →
    Spine (m + 2) qs → root.Wf (m + 2 + ls.length) → oroot.Wf (m + 2 + ls.length) →
    root.slots ≤ 62 → oroot.slots ≤ 62 →
    ∃ r o, appendLoop (ls.length + 1) (l :: ls) (q :: qs) root oroot = .ok (r, o) ∧
      r.Wf (m + 2 + ls.length) ∧ o.Wf (m + 2 + ls.length) ∧ r.slots ≤ 63 ∧ o.slots ≤ 63 ∧
      r.slots ≠ 0 ∧ r.toList ++ o.toList = root.toList ++ spineList .back (l :: ls) ++
        spineList .front (q :: qs) ++ oroot.toList := by
  intro ls
  induction ls with
  | nil =>
    intro qs m l q root oroot hlen hl hq hne _ _ hr ho h62 h62'
    obtain rfl := List.eq_nil_of_length_eq_zero hlen.symm
    obtain ⟨l', q', e1, wl, wq, nl, t1⟩ := joinLevel_ok hl hq hne
    obtain ⟨r, e2, wr, sr, nr, tr⟩ := pushUp_nil .back (root := root) wl hr (by omega)
    obtain ⟨o, e3, wo, so, -, tlo⟩ := pushUp_nil .front (root := oroot) wq ho (by omega)
    refine ⟨r, o, ?_, wr, wo, by omega, by omega, nr nl, ?_⟩
    · simp [appendLoop, e1, e2, e3]
    · rw [tr, tlo]
      simp only [Side.add, spineList_cons, spineList_nil, List.append_nil, List.nil_append]
      rw [List.append_assoc, ← List.append_assoc l'.toList, t1]
      simp
  | cons p ls ih =>
    intro qs m l q root oroot hlen hl hq hne hs1 hs2 hr ho h62 h62'
    cases qs with
    | nil => simp at hlen
    | cons p2 qs =>
      obtain ⟨l', q', e1, wl, wq, nl, t1⟩ := joinLevel_ok hl hq hne
      obtain ⟨p', e2, wp, np, tp⟩ := pushUp_cons .back (root := root) (rest := ls) wl hs1.1 (hs1.2.1 (by omega))
      obtain ⟨p2', e3, wp2, -, tp2⟩ := pushUp_cons .front (root := oroot) (rest := qs) wq hs2.1 (hs2.2.1 (by omega))
      have he : m + 2 + (p :: ls).length = m + 1 + 2 + ls.length := by simp; omega
      rw [he] at hr ho
      obtain ⟨r, o, e4, g1, g2, g3, g4, g5, g6⟩ := ih qs (m := m + 1) (by simpa using hlen) wp wp2 (np nl)
        hs1.2.2 hs2.2.2 hr ho h62 h62'
      rw [he]
      refine ⟨r, o, ?_, g1, g2, g3, g4, g5, ?_⟩
      · rw [List.length_cons]
        unfold appendLoop
        simp only [List.head?_cons, unwrap_some, ok_bind, e1, e2, List.tail_cons, e3]
        exact e4
      · rw [g6]
        simp only [spineList_cons, tp, tp2, Side.add, List.append_assoc]
        rw [← List.append_assoc l'.toList, t1]
        simp

/-- The right spine of one vector joined with the left spine of the other. -/
theorem joinSpines_ok {h : Nat} {R L : List (Node α)} {root oroot : Node α} (hR : R.length = h)
    (hL : L.length = h) (sR : Spine 0 R) (sL : Spine 0 L) (hdR : HeadOk R)
    (wr : root.Wf h) (wo : oroot.Wf h) (h62 : h ≠ 0 → root.slots ≤ 62) (h62' : h ≠ 0 → oroot.slots ≤ 62)
    (hne : h = 0 → root.slots ≠ 0) :
    ∃ r s roots,
      firstUp .back R root = .ok r ∧ firstUp .front L oroot = .ok s ∧
      appendLoop r.1.length r.1 s.1 r.2 s.2 = .ok roots ∧ roots.1.Wf h ∧ roots.2.Wf h ∧
      (h ≠ 0 → roots.1.slots ≤ 63) ∧ (h ≠ 0 → roots.2.slots ≤ 63) ∧ roots.1.slots ≠ 0 ∧
      roots.1.toList ++ roots.2.toList =
        root.toList ++ spineList .back R ++ spineList .front L ++ oroot.toList := by
  cases R with
  | nil =>
    have h0 : h = 0 := by simpa using hR.symm
    subst h0
    obtain rfl := List.eq_nil_of_length_eq_zero hL
    exact ⟨_, _, (root, oroot), rfl, rfl, by simp [appendLoop], wr, wo, fun h => absurd rfl h,
      fun h => absurd rfl h, hne rfl, by simp⟩
  | cons x R =>
    cases L with
    | nil => simp at hR hL; omega
    | cons y L =>
      simp at hdR
      cases R with
      | nil =>
        have h0 : h = 1 := by simpa using hR.symm
        subst h0
        have hL0 : L = [] := List.eq_nil_of_length_eq_zero (by simpa using hL)
        subst hL0
        obtain ⟨r, e2, w2, s2, n2, t2⟩ := pushUp_nil .back (root := root) sR.1 wr (by have := h62 (by omega); omega)
        obtain ⟨o, e3, w3, s3, -, t3⟩ := pushUp_nil .front (root := oroot) sL.1 wo (by have := h62' (by omega); omega)
        refine ⟨_, _, (r, o), e2, e3, by simp [appendLoop], w2, w3,
          fun _ => by have := h62 (by omega); show r.slots ≤ 63; omega,
          fun _ => by have := h62' (by omega); show o.slots ≤ 63; omega, n2 hdR, ?_⟩
        simp [t2, t3, Side.add]
      | cons p R =>
        cases L with
        | nil => simp at hR hL; omega
        | cons p2 L =>
          have hh : h = R.length + 2 := by simpa using hR.symm
          subst hh
          have hlen : R.length = L.length := by simp at hL; omega
          obtain ⟨p', e2, wp, np, tp⟩ := pushUp_cons .back (root := root) (rest := R) sR.1 sR.2.2.1
            (sR.2.2.2.1 (by omega))
          obtain ⟨p2', e3, wp2, -, tp2⟩ := pushUp_cons .front (root := oroot) (rest := L) sL.1 sL.2.2.1
            (sL.2.2.2.1 (by omega))
          have hr2 : root.Wf (0 + 2 + R.length) := by
            rw [show 0 + 2 + R.length = R.length + 2 by omega]; exact wr
          have ho2 : oroot.Wf (0 + 2 + R.length) := by
            rw [show 0 + 2 + R.length = R.length + 2 by omega]; exact wo
          obtain ⟨r, o, e4, g1, g2, g3, g4, g5, g6⟩ := appendLoop_ok R L (m := 0) hlen wp wp2 (np hdR)
            sR.2.2.2.2 sL.2.2.2.2 hr2 ho2 (h62 (by omega)) (h62' (by omega))
          rw [show 0 + 2 + R.length = R.length + 2 by omega] at g1 g2
          refine ⟨_, _, (r, o), e2, e3, e4, g1, g2, fun _ => g3, fun _ => g4, g5, ?_⟩
          rw [g6]
          simp [tp, tp2, Side.add]

/-! ### append -/

theorem InvH.root_ge {v : RVec α} (i : InvH v 0) : v.toList.length = v.root.slots := by
  have h1 := List.eq_nil_of_length_eq_zero (i.length .front)
  have h2 := List.eq_nil_of_length_eq_zero (i.length .back)
  rw [toList_eq v .front, Side.negate_front, h1, h2]
  obtain ⟨l, hI⟩ := Node.wf_zero.1 i.root
  simp only [spineList_nil, Side.add_nil_left, Side.add_nil_right]
  rw [hI.toList, hI.slots]

theorem appendMain_ok {v other : RVec α} {h1 h2 : Nat} (i1 : InvH v h1) (i2 : InvH other h2)
    (l1 : 2 ≤ v.toList.length) (l2 : 2 ≤ other.toList.length)
    (hlt : v.toList.length + other.toList.length < USIZE_LIMIT) :
    ∃ v' h', appendMain v other = .ok v' ∧ InvH v' h' ∧ v'.toList = v.toList ++ other.toList ∧
      h' ≤ max h1 h2 + 1 := by
  have hol := i2.length .front
  simp only [spine_front] at hol
  unfold appendMain
  rw [i1.len, i2.len, uadd_ok hlt]
  simp only [ok_bind]
  obtain ⟨v1, e1, c1, hh1, t1, r1⟩ := raiseSelf_ok other.left.length (target := other.left.length)
    i1.toCore i1.head (by rintro rfl; have := i1.root_ge; omega) (by omega)
  rw [hol] at e1 c1 r1
  rw [hol, e1]
  simp only [ok_bind]
  have hv1r := c1.length .back
  have hv1l := c1.length .front
  simp only [spine_back, spine_front] at hv1r hv1l
  rw [hv1r]
  obtain ⟨o1, e2, c2, hh2, t2, r2⟩ := raiseOther_ok (max h1 h2) (target := max h1 h2)
    i2.toCore i2.head (by rintro rfl; have := i2.root_ge; omega) (by omega)
  rw [show max h2 (max h1 h2) = max h1 h2 by omega] at c2 r2
  rw [e2]
  have ho1r := c2.length .back
  have ho1l := c2.length .front
  simp only [spine_back, spine_front] at ho1r ho1l
  simp only [ok_bind]
  rw [massert_ok (by simp [ho1l, ho1r]), massert_ok (by simp [ho1l])]
  simp only [ok_bind]
  generalize hH : max h1 h2 = h at *
  have hs1 := c1.spine .back
  have hs2 := c2.spine .front
  simp only [spine_back, spine_front] at hs1 hs2
  obtain ⟨r, s, roots, e3, e4, e5, wr, wo, h63, h63', nr, tt⟩ := joinSpines_ok hv1r ho1l hs1 hs2
    (hh1 .back) c1.root c2.root c1.room c2.room (fun h => by have := r1 h; omega)
  rw [e3, e4]
  simp only [ok_bind, e5]
  obtain ⟨k, o2, r2, e6, wo2, wr2, hk, so2, sr2, mv, q1, q2⟩ := Node.share_ok wo wr .front 64
  rw [e6]
  have hr64 := wr.slots_le
  have ho64 := wo.slots_le
  simp only [ok_bind, wr2.freeSlots]
  simp only [Side.add, Side.negate_front] at q1 q2
  obtain ⟨p1, p2, e7, wp1, wp2, np1, hp63, hp63', hp62, tp⟩ : ∃ p1 p2,
      (if 64 - r2.slots < 2 then do
          let t ← r2.shareChildrenWith o2 .back 1
          .ok (t.2.1, t.2.2)
        else .ok (r2, o2) : M (Node α × Node α)) = .ok (p1, p2) ∧ p1.Wf h ∧ p2.Wf h ∧ p1.slots ≠ 0 ∧
      (h ≠ 0 → p1.slots ≤ 63) ∧ (h ≠ 0 → p2.slots ≤ 63) ∧ (h ≠ 0 → p2.slots = 0 → p1.slots ≤ 62) ∧
      p1.toList ++ p2.toList = roots.1.toList ++ roots.2.toList := by
    by_cases hfree : 64 - r2.slots < 2
    · rw [if_pos hfree]
      obtain ⟨k2, r3, o3, e8, wr3, wo3, hk2, sr3, so3, mv2, q3, q4⟩ := Node.share_ok wr2 wo2 .back 1
      simp only [Side.add, Side.negate_back] at q3 q4
      refine ⟨r3, o3, by simp [e8], wr3, wo3, by omega, ?_, ?_, ?_, ?_⟩
      · intro h0; have := h63 h0; have := h63' h0; omega
      · intro h0; have := h63 h0; have := h63' h0; omega
      · intro h0; have := h63 h0; have := h63' h0; omega
      · rw [q4, ← List.append_assoc, ← q3, q2, q1]; simp
    · rw [if_neg hfree]
      refine ⟨r2, o2, rfl, wr2, wo2, by omega, ?_, ?_, ?_, ?_⟩
      · intro h0; omega
      · intro h0; have := h63' h0; omega
      · intro h0 _; omega
      · rw [q2, q1]; simp
  rw [e7]
  simp only [ok_bind, wp2.isEmpty']
  have hvt : v.toList = spineList .front v1.left ++ v1.root.toList ++ spineList .back v1.right := by
    rw [← t1, toList_eq v1 .front]; simp [Side.add]
  have hot : other.toList = spineList .front o1.left ++ o1.root.toList ++ spineList .back o1.right := by
    rw [← t2, toList_eq o1 .front]; simp [Side.add]
  have htot : spineList .front v1.left ++ (p1.toList ++ p2.toList) ++ spineList .back o1.right =
      v.toList ++ other.toList := by
    rw [tp, tt, hvt, hot]; simp
  have hsl1 := c1.spine .front
  have hsr2 := c2.spine .back
  have hhl1 := hh1 .front
  have hhr2 := hh2 .back
  simp only [spine_front, spine_back] at hsl1 hsr2 hhl1 hhr2
  by_cases hemp : p2.slots = 0
  · rw [if_neg (by simp [hemp])]
    simp only [ok_bind]
    have hp2t := wp2.slots_eq_zero.1 hemp
    have htl : (⟨v1.left, o1.right, p1, v.toList.length + other.toList.length⟩ : RVec α).toList =
        v.toList ++ other.toList := by
      rw [← htot, hp2t, toList_eq _ .front]; simp [Side.add]
    obtain ⟨v', h', g1, g2, g3, g4⟩ := fixup_inv (v := ⟨v1.left, o1.right, p1, v.toList.length + other.toList.length⟩)
      (h := h) ⟨by rw [Side.forall .front]; exact ⟨hv1l, ho1r⟩, by rw [Side.forall .front]; exact ⟨hsl1, hsr2⟩,
        wp1, fun h0 => hp62 h0 hemp⟩ (by rw [Side.forall .front]; exact ⟨hhl1, hhr2⟩)
      (by rw [htl]; simp) hlt
    exact ⟨v', h', g1, g3, by rw [g4, htl], by omega⟩
  · rw [if_pos (by simp [hemp])]
    obtain ⟨nr', e8, w8, t8, s8⟩ := emptyInternal_wf (α := α) h
    rw [wp1.level, e8]
    simp only [ok_bind]
    have htl : (⟨v1.left ++ [p1], o1.right ++ [p2], nr', v.toList.length + other.toList.length⟩ : RVec α).toList =
        v.toList ++ other.toList := by
      rw [← htot, toList_eq _ .front]
      simp [Side.add, spineList_append, t8]
    obtain ⟨v', h', g1, g2, g3, g4⟩ := fixup_inv
      (v := ⟨v1.left ++ [p1], o1.right ++ [p2], nr', v.toList.length + other.toList.length⟩)
      (h := h + 1) ⟨by rw [Side.forall .front]; simp [hv1l, ho1r],
        by
          rw [Side.forall .front]
          simp only [spine_front, spine_back, Side.negate_front, spine_append, hv1l, ho1r, Nat.zero_add]
          exact ⟨⟨hsl1, wp1, hp63, trivial⟩, hsr2, wp2, hp63', trivial⟩,
        w8, fun _ => by show nr'.slots ≤ 62; omega⟩
      (by
        rw [Side.forall .front]
        simp only [spine_front, spine_back, Side.negate_front]
        constructor
        · cases hq : v1.left with
          | nil => simpa using np1
          | cons x xs => rw [hq] at hhl1; simpa using hhl1
        · cases hq : o1.right with
          | nil => simpa using hemp
          | cons x xs => rw [hq] at hhr2; simpa using hhr2)
      (by rw [htl]; simp) hlt
    exact ⟨v', h', g1, g3, by rw [g4, htl], by omega⟩

theorem InvH.isEmpty {v : RVec α} {h : Nat} (i : InvH v h) : v.isEmpty = decide (v.toList = []) := by
  unfold RVec.isEmpty
  rw [i.len]
  cases v.toList <;> simp

/-- `append` concatenates. -/
theorem append_ok {v other : RVec α} {h1 h2 : Nat} (i1 : InvH v h1) (i2 : InvH other h2)
    (hlt : v.toList.length + other.toList.length < USIZE_LIMIT) :
    ∃ v' h', v.append other = .ok v' ∧ InvH v' h' ∧ v'.toList = v.toList ++ other.toList ∧
      h' ≤ max h1 h2 + 1 := by
  unfold append
  rw [i1.isEmpty, i2.isEmpty]
  by_cases e1 : v.toList = []
  · rw [if_pos (by simpa using e1)]
    exact ⟨other, h2, rfl, i2, by simp [e1], by omega⟩
  rw [if_neg (by simpa using e1)]
  by_cases e2 : other.toList = []
  · rw [if_pos (by simpa using e2)]
    exact ⟨v, h1, rfl, i1, by simp [e2], by omega⟩
  rw [if_neg (by simpa using e2)]
  by_cases e3 : v.toList.length = 1
  · rw [if_pos (by simp [i1.len, e3])]
    obtain ⟨x, hx⟩ := List.length_eq_one_iff.1 e3
    obtain ⟨v1, k1, g1, g2, g3, g4⟩ := popSide_ok i1 .back (x := x) (l := []) (by simp [hx, Side.cons])
    obtain ⟨v2, k2, g5, g6, g7, g8⟩ := pushSide_ok i2 .front x (by omega)
    exact ⟨v2, k2, by simp [popBack, pushFront, g1, g5], g6, by rw [g7, hx]; rfl, by omega⟩
  rw [if_neg (by simp [i1.len, e3])]
  by_cases e4 : other.toList.length = 1
  · rw [if_pos (by simp [i2.len, e4])]
    obtain ⟨x, hx⟩ := List.length_eq_one_iff.1 e4
    obtain ⟨v1, k1, g1, g2, g3, g4⟩ := popSide_ok i2 .back (x := x) (l := []) (by simp [hx, Side.cons])
    obtain ⟨v2, k2, g5, g6, g7, g8⟩ := pushSide_ok i1 .back x (by omega)
    exact ⟨v2, k2, by simp [popBack, pushBack, g1, g5], g6, by rw [g7, hx]; rfl, by omega⟩
  rw [if_neg (by simp [i2.len, e4])]
  have n1 : v.toList.length ≠ 0 := by simpa using e1
  have n2 : other.toList.length ≠ 0 := by simpa using e2
  exact appendMain_ok i1 i2 (by omega) (by omega) hlt

end RVec
end Librrb
