import Verif.Proof.Compound
import Verif.Spec

/-! # Reachable vectors satisfy the invariant -/
namespace Librrb
namespace RVec

theorem rangeStart_first {sb : Bound} (hs : sb.first < USIZE_LIMIT) : rangeStart sb = .ok sb.first := by
  cases sb with
  | excluded x => exact uadd_ok hs
  | _ => rfl

theorem rangeEnd_afterLast {n : Nat} {eb : Bound} (he : eb.afterLast n < USIZE_LIMIT) : rangeEnd n eb = .ok (eb.afterLast n) := by
  cases eb with
  | included x => exact uadd_ok he
  | _ => rfl

theorem bind_ok {x : M α} {f : α → M β} {b : β} (h : (x >>= f) = .ok b) :
    ∃ a, x = .ok a ∧ f a = .ok b := by
  cases x with
  | error e => cases h
  | ok a => exact ⟨a, rfl, h⟩

theorem uadd_lt {a b c : Nat} (h : uadd a b = .ok c) : a + b < USIZE_LIMIT := by
  unfold uadd at h
  split at h
  · assumption
  · cases h

theorem pushSide_lt {v v' : RVec α} {h : Nat} (i : InvH v h) {s : Side} {x : α}
    (e : v.pushSide s x = .ok v') : v.toList.length + 1 < USIZE_LIMIT := by
  have hlen := i.len
  by_cases hl : v.toList.length + 1 < USIZE_LIMIT
  · exact hl
  exfalso
  unfold pushSide at e
  obtain ⟨fr, e0, e⟩ := bind_ok e
  obtain ⟨v1, e1, e⟩ := bind_ok e
  obtain ⟨nd, -, e⟩ := bind_ok e
  obtain ⟨n, e2, e⟩ := bind_ok e
  have h1 := uadd_lt e2
  have h2 : v1.len = v.len := by
    rw [leafFreeSpace_ok (i.leafNode s)] at e0
    cases e0
    have hle := (i.leafNode s).slots_le
    by_cases hf : (64 - (v.leafNode s).slots == 0) = true
    · rw [if_pos hf] at e1
      obtain ⟨v', h', e', -, -, -, r4, -⟩ := completeLeaf_ok i s (by simp at hf; omega)
      rw [e'] at e1
      cases e1
      exact r4
    · rw [if_neg hf] at e1
      cases e1; rfl
  omega


theorem append_lt {v w v' : RVec α} {h1 h2 : Nat} (i1 : InvH v h1) (i2 : InvH w h2)
    (e : v.append w = .ok v') : v.toList.length + w.toList.length < USIZE_LIMIT := by
  by_cases hl : v.toList.length + w.toList.length < USIZE_LIMIT
  · exact hl
  have hv := i1.len
  have hw := i2.len
  have hv' := i1.lt
  have hw' := i2.lt
  by_cases a1 : 2 ≤ v.toList.length
  · by_cases a2 : 2 ≤ w.toList.length
    · rw [append_overflow i1 i2 a1 a2 (by omega)] at e; cases e
    · -- `w` has one item
      have w1 : w.toList.length = 1 := by omega
      obtain ⟨x, hx⟩ := List.length_eq_one_iff.1 w1
      obtain ⟨w', k1, g1, -⟩ := popSide_ok i2 .back (x := x) (l := []) (by simp [hx, Side.cons])
      have n1 : v.toList ≠ [] := by intro h; simp [h] at a1
      have n2 : w.toList ≠ [] := by simp [hx]
      have n3 : ¬ v.toList.length = 1 := by omega
      simp only [append, i1.isEmpty, i2.isEmpty, n1, n2, hv, hw, n3, w1, popBack, g1, decide_false,
        Bool.false_eq_true, beq_iff_eq, if_false, if_true, ok_bind, unwrap_some, pushBack] at e
      have := pushSide_lt i1 e
      omega
  · by_cases a0 : v.toList = []
    · simp [a0]; omega
    · have v1 : v.toList.length = 1 := by
        have : v.toList.length ≠ 0 := by simpa using a0
        omega
      obtain ⟨x, hx⟩ := List.length_eq_one_iff.1 v1
      obtain ⟨w', k1, g1, -⟩ := popSide_ok i1 .back (x := x) (l := []) (by simp [hx, Side.cons])
      have n2 : w.toList ≠ [] := by intro h; simp [h] at hl; omega
      simp only [append, i1.isEmpty, i2.isEmpty, a0, n2, hv, hw, v1, popBack, g1, decide_false,
        Bool.false_eq_true, beq_iff_eq, if_false, beq_self_eq_true, if_true, ok_bind, unwrap_some,
        pushFront] at e
      have := pushSide_lt i2 e
      omega

theorem pushAll_ok : ∀ (l : List α) {v : RVec α} {h : Nat}, InvH v h →
    v.toList.length + l.length < USIZE_LIMIT →
    ∃ v' h', v.pushAll l = .ok v' ∧ InvH v' h' ∧ v'.toList = v.toList ++ l := by
  intro l
  induction l with
  | nil => intro v h i _; exact ⟨v, h, rfl, i, by simp⟩
  | cons x xs ih =>
    intro v h i hl
    simp at hl
    obtain ⟨v1, h1, e1, i1, t1, -⟩ := pushSide_ok i .back x (by omega)
    simp only [Side.cons] at t1
    obtain ⟨v2, h2, e2, i2, t2⟩ := ih i1 (by rw [t1]; simp; omega)
    exact ⟨v2, h2, by simp [pushAll, pushBack, e1, e2], i2, by simp [t2, t1]⟩

theorem pushAll_lt : ∀ (l : List α) {v v' : RVec α} {h : Nat}, InvH v h → v.pushAll l = .ok v' →
    v.toList.length + l.length < USIZE_LIMIT := by
  intro l
  induction l with
  | nil => intro v v' h i _; have := i.len; have := i.lt; simp; omega
  | cons x xs ih =>
    intro v v' h i e
    simp only [pushAll, pushBack] at e
    obtain ⟨v1, e1, e2⟩ := bind_ok e
    have hl := pushSide_lt i e1
    obtain ⟨v2, h2, e3, i2, t2, -⟩ := pushSide_ok i .back x hl
    rw [e1] at e3; cases e3
    have := ih i2 e2
    rw [t2] at this
    simp [Side.cons] at this ⊢
    omega

theorem shows_iff {v : RVec α} {h : Nat} (i : InvH v h) {l : List α} : Shows v l ↔ v.toList = l := by
  constructor
  · rintro ⟨-, e⟩
    apply List.ext_getElem?
    intro j
    have := e j
    rw [get_ok i] at this
    exact Except.ok.inj this
  · rintro rfl
    exact ⟨i.len, fun j => get_ok i j⟩

end RVec

open RVec

/-- Every reachable vector satisfies the invariant. -/
theorem Built.inv {v : RVec α} (b : Built v) : Inv v := by
  induction b with
  | new => exact ⟨0, new_inv⟩
  | singleton e =>
    obtain ⟨v, h, e', i, -⟩ := singleton_ok _
    rw [e] at e'; cases e'; exact ⟨h, i⟩
  | @constant x n v e =>
    by_cases hn : n < 2 ^ 63
    · obtain ⟨v', h, e', i, -⟩ := constantVec_ok x hn
      rw [e] at e'; cases e'; exact ⟨h, i⟩
    · rw [constantVec_overflow x (by omega)] at e; cases e
  | @collect items v e =>
    have hl := pushAll_lt items new_inv e
    obtain ⟨v', h, e', i, -⟩ := pushAll_ok items new_inv hl
    unfold fromIter at e
    rw [e] at e'; cases e'; exact ⟨h, i⟩
  | pushBack b e ih =>
    obtain ⟨h, i⟩ := ih
    obtain ⟨v', h', e', i', -⟩ := pushSide_ok i .back _ (pushSide_lt i e)
    unfold RVec.pushBack at e
    rw [e] at e'; cases e'; exact ⟨h', i'⟩
  | pushFront b e ih =>
    obtain ⟨h, i⟩ := ih
    obtain ⟨v', h', e', i', -⟩ := pushSide_ok i .front _ (pushSide_lt i e)
    unfold RVec.pushFront at e
    rw [e] at e'; cases e'; exact ⟨h', i'⟩
  | @popBack v r v' b e ih =>
    obtain ⟨h, i⟩ := ih
    unfold RVec.popBack at e
    by_cases hn : v.toList = []
    · rw [popSide_empty i .back hn] at e; cases e; exact ⟨h, i⟩
    · obtain ⟨x, l, hx⟩ := Side.exists_cons .back hn
      obtain ⟨v', h', e', i', -⟩ := popSide_ok i .back hx
      rw [e] at e'; cases e'; exact ⟨h', i'⟩
  | @popFront v r v' b e ih =>
    obtain ⟨h, i⟩ := ih
    unfold RVec.popFront at e
    by_cases hn : v.toList = []
    · rw [popSide_empty i .front hn] at e; cases e; exact ⟨h, i⟩
    · obtain ⟨x, l, hx⟩ := Side.exists_cons .front hn
      obtain ⟨v', h', e', i', -⟩ := popSide_ok i .front hx
      rw [e] at e'; cases e'; exact ⟨h', i'⟩
  | @set v k x v' b e ih =>
    obtain ⟨h, i⟩ := ih
    by_cases hk : k < v.toList.length
    · obtain ⟨v', e', i', -⟩ := set_ok i x hk
      rw [e] at e'; cases e'; exact ⟨h, i'⟩
    · rw [set_none i x (by omega)] at e; cases e
  | @setEnd v s x v' b e ih =>
    obtain ⟨h, i⟩ := ih
    by_cases hn : v.toList = []
    · rw [setFrontBack_none i s x hn] at e; cases e
    · obtain ⟨y, l, hx⟩ := Side.exists_cons s hn
      obtain ⟨v', e', i', -⟩ := setFrontBack_ok i s x hx
      rw [e] at e'; cases e'; exact ⟨h, i'⟩
  | append b1 b2 e ih1 ih2 =>
    obtain ⟨h1, i1⟩ := ih1
    obtain ⟨h2, i2⟩ := ih2
    obtain ⟨v', h', e', i', -⟩ := append_ok i1 i2 (append_lt i1 i2 e)
    rw [e] at e'; cases e'; exact ⟨h', i'⟩
  | prepend b1 b2 e ih1 ih2 =>
    obtain ⟨h1, i1⟩ := ih1
    obtain ⟨h2, i2⟩ := ih2
    obtain ⟨v', h', e', i', -⟩ := append_ok i2 i1 (append_lt i2 i1 e)
    unfold RVec.prepend at e
    rw [e] at e'; cases e'; exact ⟨h', i'⟩
  | @splitOffLeft v k a b _ e ih =>
    obtain ⟨h, i⟩ := ih
    obtain ⟨a', b', ha, hb, e', ia, ib, -⟩ := splitOff_ok i k
    rw [e] at e'; cases e'; exact ⟨ha, ia⟩
  | @splitOffRight v k a b _ e ih =>
    obtain ⟨h, i⟩ := ih
    obtain ⟨a', b', ha, hb, e', ia, ib, -⟩ := splitOff_ok i k
    rw [e] at e'; cases e'; exact ⟨hb, ib⟩
  | @sliceFromStart v k v' _ e ih =>
    obtain ⟨h, i⟩ := ih
    obtain ⟨a', ha, e', ia, -⟩ := sliceFromStart_ok i k
    rw [e] at e'; cases e'; exact ⟨ha, ia⟩
  | @sliceToEnd v k v' _ e ih =>
    obtain ⟨h, i⟩ := ih
    obtain ⟨a', ha, e', ia, -⟩ := sliceToEnd_ok i k
    rw [e] at e'; cases e'; exact ⟨ha, ia⟩
  | @extractRest v a b w r _ e ih =>
    obtain ⟨h, i⟩ := ih
    have e0 := e
    unfold RVec.extractSlice at e0
    obtain ⟨p, e1, e0⟩ := bind_ok e0
    obtain ⟨q, e2, e0⟩ := bind_ok e0
    obtain ⟨v', r', h1, h2, e', i1, i2, -⟩ := extractSlice_ok i e1 e2
    rw [e] at e'; cases e'; exact ⟨h1, i1⟩
  | @extractSlice v a b w r _ e ih =>
    obtain ⟨h, i⟩ := ih
    have e0 := e
    unfold RVec.extractSlice at e0
    obtain ⟨p, e1, e0⟩ := bind_ok e0
    obtain ⟨q, e2, e0⟩ := bind_ok e0
    obtain ⟨v', r', h1, h2, e', i1, i2, -⟩ := extractSlice_ok i e1 e2
    rw [e] at e'; cases e'; exact ⟨h2, i2⟩
  | @insert v k x v' _ e ih =>
    obtain ⟨h, i⟩ := ih
    have hlt : v.toList.length + 1 < USIZE_LIMIT := by
      have e0 := e
      unfold RVec.insert at e0
      obtain ⟨p, e1, e0⟩ := bind_ok e0
      obtain ⟨q, e2, e0⟩ := bind_ok e0
      obtain ⟨a', b', ha, hb, e', ia, ib, ta, tb, -⟩ := splitOff_ok i k
      rw [e1] at e'; cases e'
      obtain ⟨q', hq, e'', iq, tq, -⟩ := pushSide_ok ia .back x (pushSide_lt ia e2)
      unfold RVec.pushBack at e2
      rw [e2] at e''; cases e''
      have := append_lt iq ib e0
      rw [tq, tb] at this
      simp only [Side.cons] at this
      have hh : a'.toList.length + b'.toList.length = v.toList.length := by
        rw [ta, tb, ← List.length_append, List.take_append_drop]
      rw [← tb] at this
      simp at this
      omega
    obtain ⟨v'', h', e', i', -⟩ := insert_ok i k x hlt
    rw [e] at e'; cases e'; exact ⟨h', i'⟩
  | @remove v k r v' _ e ih =>
    obtain ⟨h, i⟩ := ih
    by_cases hk : k < v.toList.length
    · obtain ⟨v'', h', e', i', -⟩ := remove_ok i hk
      rw [e] at e'; cases e'; exact ⟨h', i'⟩
    · rw [remove_none i (by omega)] at e; cases e; exact ⟨h, i⟩

end Librrb
