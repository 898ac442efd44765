import Verif.Proof.Built

/-!
# What happens at the largest length

A vector has at most `2^64 - 1` items. These lemmas show that calls that would exceed it stop at the
addition that overflows, and not in some other way.
-/
namespace Librrb
namespace RVec

theorem pushSide_full {v : RVec α} {h : Nat} (i : InvH v h) (s : Side) (x : α)
    (hlt : ¬ v.toList.length + 1 < USIZE_LIMIT) : v.pushSide s x = .error .overflow := by
  unfold pushSide
  rw [leafFreeSpace_ok (i.leafNode s)]
  simp only [ok_bind]
  have hle := (i.leafNode s).slots_le
  obtain ⟨v1, h1, e1, c1, l1, lf1⟩ : ∃ v1 h1,
      (if (64 - (v.leafNode s).slots == 0) = true then v.completeLeaf s else .ok v) = .ok v1 ∧
      Core v1 h1 ∧ v1.len = v.len ∧ (v1.leafNode s).slots ≤ 63 := by
    by_cases hf : (v.leafNode s).slots = 64
    · rw [if_pos (by simp [hf])]
      obtain ⟨v', h', e, r1, r2, r3, r4, r5, r6, r6', y, rest, r7, r8⟩ := completeLeaf_ok i s hf
      exact ⟨v', h', e, r1, r4, by simpa [leafNode, r7] using r8⟩
    · rw [if_neg (by simp; omega)]
      exact ⟨v, h, rfl, i.toCore, rfl, by omega⟩
  rw [e1]
  simp only [ok_bind]
  obtain ⟨nd, e2, -⟩ := Node.leafPush_ok (c1.leafNode s) s x (by omega)
  rw [e2, l1, i.len]
  simp only [ok_bind, uadd, if_neg hlt]
  rfl

theorem append_full {v other : RVec α} {h1 h2 : Nat} (i1 : InvH v h1) (i2 : InvH other h2)
    (hlt : ¬ v.toList.length + other.toList.length < USIZE_LIMIT) : v.append other = .error .overflow := by
  have hv := i1.len
  have hw := i2.len
  have hv' := i1.lt
  have hw' := i2.lt
  by_cases a1 : 2 ≤ v.toList.length
  · by_cases a2 : 2 ≤ other.toList.length
    · exact append_overflow i1 i2 a1 a2 (by omega)
    · have w1 : other.toList.length = 1 := by omega
      obtain ⟨x, hx⟩ := List.length_eq_one_iff.1 w1
      obtain ⟨w', k1, g1, -⟩ := popSide_ok i2 .back (x := x) (l := []) (by simp [hx, Side.cons])
      have n1 : v.toList ≠ [] := by intro h; simp [h] at a1
      have n2 : other.toList ≠ [] := by simp [hx]
      have n3 : ¬ v.toList.length = 1 := by omega
      simp only [append, i1.isEmpty, i2.isEmpty, n1, n2, hv, hw, n3, w1, popBack, g1, decide_false,
        Bool.false_eq_true, beq_iff_eq, if_false, if_true, ok_bind, unwrap_some, pushBack]
      exact pushSide_full i1 _ _ (by omega)
  · by_cases a0 : v.toList = []
    · simp [a0] at hlt; omega
    · have v1 : v.toList.length = 1 := by
        have : v.toList.length ≠ 0 := by simpa using a0
        omega
      obtain ⟨x, hx⟩ := List.length_eq_one_iff.1 v1
      obtain ⟨w', k1, g1, -⟩ := popSide_ok i1 .back (x := x) (l := []) (by simp [hx, Side.cons])
      have n2 : other.toList ≠ [] := by intro h; simp [h] at hlt; omega
      simp only [append, i1.isEmpty, i2.isEmpty, a0, n2, hv, hw, v1, popBack, g1, decide_false,
        Bool.false_eq_true, beq_iff_eq, if_false, beq_self_eq_true, if_true, ok_bind, unwrap_some,
        pushFront]
      exact pushSide_full i2 _ _ (by omega)

theorem insert_full {v : RVec α} {h : Nat} (i : InvH v h) (k : Nat) (x : α)
    (hlt : ¬ v.toList.length + 1 < USIZE_LIMIT) : v.insert k x = .error .overflow := by
  obtain ⟨a, b, ha, hb, e, r1, r2, r3, r4, -⟩ := splitOff_ok i k
  have hl : a.toList.length + b.toList.length = v.toList.length := by
    rw [r3, r4, ← List.length_append, List.take_append_drop]
  unfold insert
  rw [e]
  simp only [ok_bind, pushBack]
  by_cases hp : a.toList.length + 1 < USIZE_LIMIT
  · obtain ⟨a', k', e', i', t', -⟩ := pushSide_ok r1 .back x hp
    rw [e']
    simp only [ok_bind]
    refine append_full i' r2 ?_
    have := congrArg List.length t'
    simp [Side.cons] at this
    omega
  · rw [pushSide_full r1 .back x hp]
    rfl

theorem pushAll_full : ∀ (l : List α) {v : RVec α} {h : Nat}, InvH v h →
    ¬ v.toList.length + l.length < USIZE_LIMIT → v.pushAll l = .error .overflow := by
  intro l
  induction l with
  | nil =>
    intro v h i hl
    have := i.lt
    have := i.len
    simp at hl
    omega
  | cons x xs ih =>
    intro v h i hl
    simp only [pushAll, pushBack]
    by_cases hp : v.toList.length + 1 < USIZE_LIMIT
    · obtain ⟨a', k', e', i', t', -⟩ := pushSide_ok i .back x hp
      rw [e']
      simp only [ok_bind]
      refine ih i' ?_
      have := congrArg List.length t'
      simp [Side.cons] at this hl
      omega
    · rw [pushSide_full i .back x hp]
      rfl

end RVec
end Librrb
