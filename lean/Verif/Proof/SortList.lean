import Verif.Model.Sort
import Verif.Proof.Basic

/-! # Sorting windows of a list by swaps -/
namespace Librrb

/-- The items at the positions `a..b`. -/
def slice (L : List γ) (a b : Nat) : List γ := (L.take b).drop a

theorem slice_get? (L : List γ) (a b i : Nat) : (slice L a b)[i]? = if a + i < b then L[a + i]? else none := by
  rw [slice, List.getElem?_drop, List.getElem?_take]

theorem slice_len (L : List γ) {a b : Nat} (h : b ≤ L.length) : (slice L a b).length = b - a := by
  simp [slice]; omega

theorem slice_append (L : List γ) {a b c : Nat} (h1 : a ≤ b) (h2 : b ≤ c) : slice L a c = slice L a b ++ slice L b c := by
  unfold slice
  conv => lhs; rw [← List.take_append_drop b (L.take c)]
  rw [List.take_take, Nat.min_eq_left h2]
  by_cases hb : b ≤ L.length
  · rw [List.drop_append_of_le_length (by simp; omega)]
  · rw [List.drop_of_length_le (l := L.take c) (by simp; omega)]
    simp

theorem slice_cons (L : List γ) {a b : Nat} (h1 : a < b) {x : γ} (hx : L[a]? = some x) :
    slice L a b = x :: slice L (a + 1) b := by
  obtain ⟨h2, rfl⟩ := List.getElem?_eq_some_iff.1 hx
  unfold slice
  rw [List.drop_eq_getElem_cons (by simp; omega)]
  simp

theorem slice_nil (L : List γ) {a b : Nat} (h : b ≤ a) : slice L a b = [] := by
  unfold slice
  exact List.drop_of_length_le (by simp; omega)

theorem mem_slice {L : List γ} {a b : Nat} {x : γ} : x ∈ slice L a b ↔ ∃ k, a ≤ k ∧ k < b ∧ L[k]? = some x := by
  rw [List.mem_iff_getElem?]
  constructor
  · rintro ⟨i, hi⟩
    rw [slice_get?] at hi
    split at hi
    · exact ⟨a + i, by omega, by omega, hi⟩
    · cases hi
  · rintro ⟨k, h1, h2, h3⟩
    refine ⟨k - a, ?_⟩
    rw [slice_get?, if_pos (by omega), show a + (k - a) = k by omega, h3]

/-- The list with the items at two positions swapped. -/
def swapAt (L : List γ) (i j : Nat) : List γ :=
  match L[i]?, L[j]? with
  | some x, some y => (L.set i y).set j x
  | _, _ => L

theorem swapAt_eq {L : List γ} {i j : Nat} (hi : i < L.length) (hj : j < L.length) :
    swapAt L i j = (L.set i L[j]).set j L[i] := by
  simp [swapAt, hi, hj]

theorem swapAt_length (L : List γ) (i j : Nat) : (swapAt L i j).length = L.length := by
  unfold swapAt; split <;> simp

theorem swapAt_get? {L : List γ} {i j : Nat} (hi : i < L.length) (hj : j < L.length) (k : Nat) :
    (swapAt L i j)[k]? = if k = j then L[i]? else if k = i then L[j]? else L[k]? := by
  rw [swapAt_eq hi hj, List.getElem?_set, List.getElem?_set]
  by_cases h1 : k = j
  · subst h1; simp [hj, hi]
  · rw [if_neg (fun h => h1 h.symm), if_neg h1]
    by_cases h2 : k = i
    · subst h2; simp [hi, hj]
    · rw [if_neg (fun h => h2 h.symm), if_neg h2]

theorem swapAt_perm (L : List γ) (i j : Nat) : (swapAt L i j).Perm L := by
  by_cases h : i < L.length ∧ j < L.length
  · rw [swapAt_eq h.1 h.2]
    exact List.set_set_perm h.1 h.2
  · unfold swapAt
    by_cases hi : i < L.length
    · rw [List.getElem?_eq_none (l := L) (i := j) (by omega)]
      cases L[i]? <;> exact List.Perm.refl _
    · rw [List.getElem?_eq_none (l := L) (i := i) (by omega)]

/-- The second list is the first with the items at the positions `a..b` rearranged. -/
structure Within (a b : Nat) (L L' : List γ) : Prop where
  length : L'.length = L.length
  same : ∀ k, k < a ∨ b ≤ k → L'[k]? = L[k]?
  perm : L'.Perm L

theorem Within.refl (a b : Nat) (L : List γ) : Within a b L L := ⟨rfl, fun _ _ => rfl, List.Perm.refl _⟩

theorem Within.trans {a b : Nat} {L L' L'' : List γ} (h : Within a b L L') (h' : Within a b L' L'') : Within a b L L'' :=
  ⟨by rw [h'.length, h.length], fun k hk => by rw [h'.same k hk, h.same k hk], h'.perm.trans h.perm⟩

theorem Within.mono {a b c d : Nat} {L L' : List γ} (h : Within c d L L') (h1 : a ≤ c) (h2 : d ≤ b) : Within a b L L' :=
  ⟨h.length, fun k hk => h.same k (by omega), h.perm⟩

theorem Within.swap {a b i j : Nat} {L : List γ} (h1 : a ≤ i) (h2 : i < b) (h3 : a ≤ j) (h4 : j < b) (hb : b ≤ L.length) :
    Within a b L (swapAt L i j) :=
  ⟨swapAt_length L i j, fun k hk => by
    rw [swapAt_get? (by omega) (by omega), if_neg (by omega), if_neg (by omega)], swapAt_perm L i j⟩

theorem Within.slice_same {a b c d : Nat} {L L' : List γ} (h : Within a b L L') (hcd : d ≤ a ∨ b ≤ c) :
    slice L' c d = slice L c d := by
  apply List.ext_getElem?
  intro i
  rw [slice_get?, slice_get?]
  split
  · rw [h.same _ (by omega)]
  · rfl

theorem Within.slice_perm {a b : Nat} {L L' : List γ} (h : Within a b L L') (hab : a ≤ b) (hb : b ≤ L.length) :
    (slice L' a b).Perm (slice L a b) := by
  have e : ∀ M : List γ, M.length = L.length → M = slice M 0 a ++ slice M a b ++ slice M b L.length := by
    intro M hM
    rw [← slice_append M (by omega) hab, ← slice_append M (by omega) hb, slice, List.drop_zero, List.take_of_length_le (by omega)]
  have p := h.perm
  rw [e L rfl, e L' h.length, h.slice_same (c := 0) (d := a) (by omega), h.slice_same (c := b) (d := L.length) (by omega)] at p
  rw [List.perm_append_right_iff, List.perm_append_left_iff] at p
  exact p

theorem Within.slice_perm_sup {a b c d : Nat} {L L' : List γ} (h : Within c d L L') (h1 : a ≤ c) (h2 : d ≤ b) (hab : a ≤ b)
    (hb : b ≤ L.length) : (slice L' a b).Perm (slice L a b) := (h.mono h1 h2).slice_perm hab hb

end Librrb
