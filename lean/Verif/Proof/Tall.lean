import Verif.Proof.Dense

/-! # What concatenation does to the height -/
namespace Librrb

open Node

namespace RVec

theorem pushUp_nil_slots {m : Nat} {s : Side} {child root : Node α} {r : List (Node α) × Node α}
    (hc : child.Wf m) (h0 : child.slots ≠ 0) (e : pushUp s child [] root = .ok r) :
    r.2.slots = root.slots + 1 := by
  unfold pushUp at e
  rw [hc.isEmpty'] at e
  simp [h0] at e
  obtain ⟨r', e1, e⟩ := bind_ok e
  cases e
  exact Node.pushChild_slots e1

/-- Joining the spines puts one more child into the root. -/
theorem appendLoop_slots : ∀ (ls qs : List (Node α)) {m : Nat} {l q root oroot : Node α} {ro : Node α × Node α},
    ls.length = qs.length → l.Wf (m + 1) → q.Wf (m + 1) → l.slots ≠ 0 → Spine (m + 2) ls →
    Spine (m + 2) qs → root.Wf (m + 2 + ls.length) → oroot.Wf (m + 2 + ls.length) →
    appendLoop (ls.length + 1) (l :: ls) (q :: qs) root oroot = .ok ro →
    ro.1.slots = root.slots + 1 := by
  intro ls
  induction ls with
  | nil =>
    intro qs m l q root oroot ro hlen hl hq hne _ _ hr ho e
    obtain rfl := List.eq_nil_of_length_eq_zero hlen.symm
    obtain ⟨l', q', e1, wl, wq, nl, t1⟩ := joinLevel_ok hl hq hne
    simp only [List.length_nil, Nat.zero_add, appendLoop, List.head?_cons, unwrap_some, ok_bind, e1, List.tail_cons] at e
    obtain ⟨r, e2, e⟩ := bind_ok e
    obtain ⟨s, e3, e⟩ := bind_ok e
    have h1 := pushUp_nil_slots wl nl e2
    unfold pushUp at e2 
    rw [wl.isEmpty'] at e2
    simp [nl] at e2
    obtain ⟨r', e4, e2⟩ := bind_ok e2
    cases e2
    simp only [appendLoop] at e
    obtain ⟨_, _, e⟩ := bind_ok e
    cases e
    exact h1
  | cons p ls ih =>
    intro qs m l q root oroot ro hlen hl hq hne hs1 hs2 hr ho e
    cases qs with
    | nil => simp at hlen
    | cons p2 qs =>
      obtain ⟨l', q', e1, wl, wq, nl, t1⟩ := joinLevel_ok hl hq hne
      obtain ⟨p', e2, wp, np, tp⟩ := pushUp_cons .back (root := root) (rest := ls) wl hs1.1 (hs1.2.1 (by omega))
      obtain ⟨p2', e3, wp2, -, tp2⟩ := pushUp_cons .front (root := oroot) (rest := qs) wq hs2.1 (hs2.2.1 (by omega))
      have he : m + 2 + (p :: ls).length = m + 1 + 2 + ls.length := by simp; omega
      rw [he] at hr ho
      rw [List.length_cons] at e
      unfold appendLoop at e
      simp only [List.head?_cons, unwrap_some, ok_bind, e1, e2, List.tail_cons, e3] at e
      exact ih qs (m := m + 1) (by simpa using hlen) wp wp2 (np nl) hs1.2.2 hs2.2.2 hr ho e

theorem joinSpines_slots {h : Nat} {R L : List (Node α)} {root oroot : Node α} (hR : R.length = h)
    (hL : L.length = h) (sR : Spine 0 R) (sL : Spine 0 L) (hdR : HeadOk R)
    (wr : root.Wf h) (wo : oroot.Wf h) (h1 : 1 ≤ h) {r s : List (Node α) × Node α} {roots : Node α × Node α}
    (e1 : firstUp .back R root = .ok r) (e2 : firstUp .front L oroot = .ok s)
    (e3 : appendLoop r.1.length r.1 s.1 r.2 s.2 = .ok roots) : roots.1.slots = root.slots + 1 := by
  cases R with
  | nil => simp at hR; omega
  | cons x R =>
    cases L with
    | nil => simp at hL; omega
    | cons y L =>
      simp at hdR
      cases R with
      | nil =>
        have h2 := pushUp_nil_slots sR.1 hdR e1
        simp only [firstUp, pushUp] at e1
        rw [sR.1.isEmpty'] at e1
        simp [hdR] at e1
        obtain ⟨r', e4, e1⟩ := bind_ok e1
        cases e1
        simp only [List.length_nil, appendLoop] at e3
        obtain ⟨_, _, e3⟩ := bind_ok e3
        cases e3
        exact h2
      | cons p R =>
        cases L with
        | nil => simp at hR hL; omega
        | cons p2 L =>
          have hh : h = R.length + 2 := by simpa using hR.symm
          subst hh
          have hlen : R.length = L.length := by simp at hL; omega
          obtain ⟨p', e4, wp, np, tp⟩ := pushUp_cons .back (root := root) (rest := R) sR.1 sR.2.2.1
            (sR.2.2.2.1 (by omega))
          obtain ⟨p2', e5, wp2, -, tp2⟩ := pushUp_cons .front (root := oroot) (rest := L) sL.1 sL.2.2.1
            (sL.2.2.2.1 (by omega))
          have hr2 : root.Wf (0 + 2 + R.length) := by
            rw [show 0 + 2 + R.length = R.length + 2 by omega]; exact wr
          have ho2 : oroot.Wf (0 + 2 + R.length) := by
            rw [show 0 + 2 + R.length = R.length + 2 by omega]; exact wo
          simp only [firstUp] at e1 e2
          rw [e4] at e1; cases e1
          rw [e5] at e2; cases e2
          exact appendLoop_slots R L (m := 0) hlen wp wp2 (np hdR) sR.2.2.2.2 sL.2.2.2.2 hr2 ho2 e3

/-- With enough children in the two tops `fixup_spine_tops` keeps the height. -/
theorem fixup_keep {v v' : RVec α} {A B : List (Node α)} {a b : Node α} (hl : v.left = A ++ [a])
    (hr : v.right = B ++ [b]) (h62 : 62 ≤ a.slots + b.slots) (hlev : v.root.level ≠ 1)
    (e : v.fixupSpineTops = .ok v') : v'.left.length = v.left.length := by
  unfold fixupSpineTops at e
  simp only [fixupLoop] at e
  split at e
  · obtain ⟨r, e1, e⟩ := bind_ok e
    unfold fixupStep at e1
    simp only [hl, hr, List.getLast?_append, List.getLast?_singleton, Option.or_some, Option.some_or, unwrap_some, ok_bind] at e1
    generalize (if a.slots > b.slots then a.slots - b.slots else b.slots - a.slots) = d at e1
    rw [if_neg (by rw [if_neg (by simpa using hlev)]; omega)] at e1
    have : r.2 = false ∧ r.1.left.length = v.left.length := by
      split at e1
      · split at e1
        · obtain ⟨q, e2, e1⟩ := bind_ok e1
          cases e1
          simp [hl]
        · obtain ⟨q, e2, e1⟩ := bind_ok e1
          cases e1
          simp [hl]
      · cases e1
        simp [hl]
    rw [this.1] at e
    simp at e
    cases e
    exact this.2
  · cases e; rfl

theorem fixup_id {v : RVec α} (h : v.root.slots ≠ 0) : v.fixupSpineTops = .ok v := by
  unfold fixupSpineTops fixupLoop
  rw [if_neg (by simp [h])]

/-- Every concatenation puts one more child into the root or raises the tree. -/
theorem appendMain_tall {v other v' : RVec α} {h1 h2 : Nat} (i1 : InvH v h1) (i2 : InvH other h2)
    (l1 : 2 ≤ v.toList.length) (l2 : 2 ≤ other.toList.length) (h0 : 1 ≤ h1)
    (hlt : v.toList.length + other.toList.length < USIZE_LIMIT) (e : appendMain v other = .ok v') :
    63 * v.left.length + v.root.slots + 1 ≤ 63 * v'.left.length + v'.root.slots ∧
      v.left.length ≤ v'.left.length := by
  have hol := i2.length .front
  have hvl := i1.length .front
  simp only [spine_front] at hol hvl
  unfold appendMain at e
  rw [i1.len, i2.len, uadd_ok hlt] at e
  simp only [ok_bind] at e
  obtain ⟨v1, e1, c1, hh1, t1, r1⟩ := raiseSelf_ok other.left.length (target := other.left.length)
    i1.toCore i1.head (by rintro rfl; omega) (by omega)
  rw [hol] at e1 c1 r1
  rw [hol, e1] at e
  simp only [ok_bind] at e
  have hkeep : h2 ≤ h1 → v1 = v := by
    intro hle
    have hr := i1.length .back
    simp only [spine_back] at hr
    cases h2 with
    | zero => simp only [raiseSelf] at e1; rw [if_neg (by omega)] at e1; cases e1; rfl
    | succ h2 => simp only [raiseSelf] at e1; rw [if_neg (by omega)] at e1; cases e1; rfl
  have hv1r := c1.length .back
  have hv1l := c1.length .front
  simp only [spine_back, spine_front] at hv1r hv1l
  rw [hv1r] at e
  obtain ⟨o1, e2, c2, hh2, t2, r2⟩ := raiseOther_ok (max h1 h2) (target := max h1 h2)
    i2.toCore i2.head (by rintro rfl; have := i2.root_ge; omega) (by omega)
  rw [show max h2 (max h1 h2) = max h1 h2 by omega] at c2 r2
  rw [e2] at e
  have ho1r := c2.length .back
  have ho1l := c2.length .front
  simp only [spine_back, spine_front] at ho1r ho1l
  simp only [ok_bind] at e
  rw [massert_ok (by simp [ho1l, ho1r]), massert_ok (by simp [ho1l])] at e
  simp only [ok_bind] at e
  have hgrow : 63 * h1 + v.root.slots ≤ 63 * max h1 h2 + v1.root.slots ∧ v.root.slots ≤ 62 := by
    have := i1.room (by omega)
    refine ⟨?_, this⟩
    by_cases hle : h2 ≤ h1
    · rw [hkeep hle]; omega
    · omega
  generalize hH : max h1 h2 = h at *
  have hs1 := c1.spine .back
  have hs2 := c2.spine .front
  simp only [spine_back, spine_front] at hs1 hs2
  have hroom := c1.room (by omega)
  obtain ⟨r, s, roots, e3, e4, e5, wr, wo, h63, h63', nr, tt⟩ := joinSpines_ok hv1r ho1l hs1 hs2
    (hh1 .back) c1.root c2.root c1.room c2.room (fun h => by have := r1 h; omega)
  have hsl := joinSpines_slots hv1r ho1l hs1 hs2 (hh1 .back) c1.root c2.root (by omega) e3 e4 e5
  rw [e3, e4] at e
  simp only [ok_bind, e5] at e
  obtain ⟨k, o2, r2, e6, wo2, wr2, hk, so2, sr2, mv, q1, q2⟩ := Node.share_ok wo wr .front 64
  rw [e6] at e
  have hr64 := wr.slots_le
  have ho64 := wo.slots_le
  simp only [ok_bind, wr2.freeSlots] at e
  obtain ⟨p, e7, e⟩ := bind_ok e
  obtain ⟨em, e8, e⟩ := bind_ok e
  obtain ⟨v2, e9, e⟩ := bind_ok e
  rw [hvl]
  split at e7
  · rename_i hfree
    obtain ⟨k2, r3, o3, e10, wr3, wo3, hk2, sr3, so3, mv2, -, -⟩ := Node.share_ok wr2 wo2 .back 1
    rw [e10] at e7
    cases e7
    rw [wo3.isEmpty'] at e8
    cases e8
    have ho0 : o3.slots ≠ 0 := by omega
    rw [if_pos (by simp [ho0])] at e9
    obtain ⟨nr', e11, w11, t11, s11⟩ := emptyInternal_wf (α := α) h
    dsimp only at e9
    rw [wr3.level, e11] at e9
    cases e9
    have := fixup_keep (A := v1.left) (B := o1.right) (a := r3) (b := o3) rfl rfl (by omega)
      (by show nr'.level ≠ 1; rw [w11.level]; omega) e
    simp [hv1l] at this
    omega
  · rename_i hfree
    cases e7
    rw [wo2.isEmpty'] at e8
    cases e8
    have ho0 : o2.slots = 0 := by omega
    rw [if_neg (by simp [ho0])] at e9
    cases e9
    rw [fixup_id (by show r2.slots ≠ 0; omega)] at e
    cases e
    show _ ≤ 63 * v1.left.length + r2.slots ∧ _ ≤ v1.left.length
    omega

theorem append_tall {v other v' : RVec α} {h1 h2 : Nat} (i1 : InvH v h1) (i2 : InvH other h2)
    (l1 : 2 ≤ v.toList.length) (l2 : 2 ≤ other.toList.length) (h0 : 1 ≤ h1)
    (hlt : v.toList.length + other.toList.length < USIZE_LIMIT) (e : v.append other = .ok v') :
    63 * v.left.length + v.root.slots + 1 ≤ 63 * v'.left.length + v'.root.slots ∧
      v.left.length ≤ v'.left.length := by
  unfold append at e
  rw [i1.isEmpty, i2.isEmpty, if_neg (by simp; intro e; rw [e] at l1; simp at l1),
    if_neg (by simp; intro e; rw [e] at l2; simp at l2), if_neg (by simp [i1.len]; omega),
    if_neg (by simp [i2.len]; omega)] at e
  exact appendMain_tall i1 i2 l1 l2 h0 hlt e

/-- Both leaves of a vector with spines hold something. -/
theorem InvH.two_le {v : RVec α} {h : Nat} (i : InvH v h) (h1 : 1 ≤ h) : 2 ≤ v.toList.length := by
  have key : ∀ s, 1 ≤ (spineList s (v.spine s)).length := by
    intro s
    have h2 := i.length s
    have h3 := i.head s
    have h4 := i.spine s
    cases hs : v.spine s with
    | nil => rw [hs] at h2; simp at h2; omega
    | cons x xs =>
      rw [hs] at h3 h4
      simp at h3
      have : x.toList ≠ [] := fun e => h3 (h4.1.slots_eq_zero.2 e)
      have := List.length_pos_iff.2 this
      simp only [spineList_cons, Side.length_add]
      omega
  have h1 := key .front
  have h2 := key .back
  rw [toList_eq v .front]
  simp only [Side.length_add, Side.negate]
  omega

end RVec
end Librrb
