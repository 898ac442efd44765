import Verif.Model.SizeTable
import Verif.Proof.Circular

/-! # Size tables refine lists of child sizes -/
namespace Librrb

/-- Cumulative sums, starting after `acc`. -/
def psums : Nat → List Nat → List Nat
  | _, [] => []
  | acc, x :: xs => (acc + x) :: psums (acc + x) xs

@[simp] theorem psums_length (acc : Nat) (l : List Nat) : (psums acc l).length = l.length := by
  induction l generalizing acc with
  | nil => rfl
  | cons x l ih => simp [psums, ih]

theorem psums_append (acc : Nat) (l m : List Nat) :
    psums acc (l ++ m) = psums acc l ++ psums (acc + l.sum) m := by
  induction l generalizing acc with
  | nil => simp [psums]
  | cons x l ih => simp [psums, ih, Nat.add_assoc]

theorem psums_getLast? (l : List Nat) :
    (psums 0 l).getLast? = if l = [] then none else some l.sum := by
  rcases List.eq_nil_or_concat l with rfl | ⟨l, x, rfl⟩
  · simp [psums]
  · simp [psums_append, psums]

theorem psums_add (acc d : Nat) (l : List Nat) :
    psums (acc + d) l = (psums acc l).map (· + d) := by
  induction l generalizing acc with
  | nil => rfl
  | cons x l ih =>
    simp only [psums, List.map_cons]
    rw [← ih, show acc + d + x = acc + x + d by omega]

theorem psums_ge {acc : Nat} {l : List Nat} {x : Nat} (h : x ∈ psums acc l) : acc ≤ x := by
  induction l generalizing acc with
  | nil => simp [psums] at h
  | cons y l ih =>
    simp only [psums, List.mem_cons] at h
    rcases h with rfl | h
    · omega
    · have := ih h; omega

theorem psums_getElem? (acc : Nat) (l : List Nat) (i : Nat) (h : i < l.length) :
    (psums acc l)[i]? = some (acc + (l.take (i + 1)).sum) := by
  induction l generalizing acc i with
  | nil => simp at h
  | cons x l ih =>
    cases i with
    | zero => simp [psums]
    | succ i =>
      simp only [psums, List.getElem?_cons_succ]
      rw [ih _ _ (by simpa using h)]
      simp [Nat.add_assoc]

namespace SizeTable

/-- `t` is a sound table for a node of level `n` whose children have the sizes `l`. -/
def Rep (t : SizeTable) (n : Nat) (l : List Nat) : Prop :=
  t.level = n ∧ t.buffer.Rep (psums 0 l)

theorem rep_new (n : Nat) : Rep (new n) n [] := ⟨rfl, CB.rep_new⟩

theorem Rep.len {t : SizeTable} {n l} (h : Rep t n l) : t.len = l.length := by
  rw [SizeTable.len, h.2.len_eq, psums_length]

theorem Rep.le {t : SizeTable} {n l} (h : Rep t n l) : l.length ≤ 64 := by
  simpa using h.2.le

theorem cumulativeSize_ok {t : SizeTable} {n l} (h : Rep t n l) : t.cumulativeSize = .ok l.sum := by
  rw [cumulativeSize, CB.back_ok h.2, psums_getLast?]
  by_cases hl : l = []
  · simp [hl]
  · simp [hl]

theorem pushChild_ok {t : SizeTable} {n l} (h : Rep t n l) (s : Side) (x : Nat)
    (hl : l.length < 64) : ∃ t', t.pushChild s x = .ok t' ∧ Rep t' n (s.cons x l) := by
  cases s with
  | back =>
    have hb := CB.back_ok h.2
    rw [psums_getLast?] at hb
    by_cases hl0 : l = []
    · subst hl0
      obtain ⟨b', e, r⟩ := CB.push_ok h.2 .back x (by simp)
      refine ⟨{ t with buffer := b' }, by simp [pushChild, hb, e], h.1, ?_⟩
      simpa [psums, Side.cons] using r
    · rw [if_neg hl0] at hb
      obtain ⟨b', e, r⟩ := CB.push_ok h.2 .back (l.sum + x) (by simpa using hl)
      refine ⟨{ t with buffer := b' }, by simp [pushChild, hb, e], h.1, ?_⟩
      simpa [psums, psums_append, Side.cons] using r
  | front =>
    obtain ⟨b1, e1, r1⟩ := CB.mapMut_ok (f := fun item => .ok (item + x)) (g := (· + x)) h.2
      (fun _ _ => rfl)
    obtain ⟨b2, e2, r2⟩ := CB.pushFront_ok r1 x (by simpa using hl)
    refine ⟨{ t with buffer := b2 }, by simp [pushChild, e1, e2], h.1, ?_⟩
    rw [← psums_add] at r2
    simpa [psums, Side.cons] using r2

theorem popChild_ok {t : SizeTable} {n : Nat} {l : List Nat} {s : Side} {x : Nat}
    (h : Rep t n (s.cons x l)) : ∃ t', t.popChild s = .ok (x, t') ∧ Rep t' n l := by
  cases s with
  | back =>
    have h2 := h.2
    simp only [Side.cons, psums_append, psums] at h2
    obtain ⟨b', e, r⟩ := CB.pop_ok (s := .back) h2
    have hb := CB.back_ok r
    rw [psums_getLast?] at hb
    refine ⟨{ t with buffer := b' }, ?_, h.1, r⟩
    by_cases hl0 : l = []
    · subst hl0
      simp [popChild, e, hb]
    · rw [if_neg hl0] at hb
      simp [popChild, e, hb, usub_ok]
  | front =>
    have h2 := h.2
    simp only [Side.cons, psums] at h2
    obtain ⟨b', e, r⟩ := CB.popFront_ok h2
    obtain ⟨b1, e1, r1⟩ := CB.mapMut_ok (f := fun item => usub item x) (g := (· - x)) r
      (fun y hy => usub_ok (by have := psums_ge hy; omega))
    refine ⟨{ t with buffer := b1 }, ?_, h.1, ?_⟩
    · simp [popChild, e, e1]
    · rw [psums_add] at r1
      rw [List.map_map] at r1
      have : ((fun x_1 => x_1 - x) ∘ fun x_1 => x_1 + x) = (id : Nat → Nat) := by
        funext y; simp
      rw [this, List.map_id] at r1
      exact r1

/-- Position search on a plain list of sizes. -/
def findPos : List Nat → Nat → Option (Nat × Nat)
  | [], _ => none
  | x :: xs, i => if i < x then some (0, i) else (findPos xs (i - x)).map fun p => (p.1 + 1, p.2)

theorem positionLoop_ok {t : SizeTable} {n : Nat} {l : List Nat} (h : Rep t n l) (idx : Nat) :
    ∀ (post pre : List Nat), l = pre ++ post → pre.sum ≤ idx → ∀ bk fuel, post.length < fuel →
    positionLoop t idx fuel pre.length pre.sum
      { consumed := pre.length, front := (t.buffer.front + pre.length) % 64, back := bk } =
    .ok ((findPos post (idx - pre.sum)).map fun p => (p.1 + pre.length, p.2)) := by
  intro post
  induction post with
  | nil =>
    intro pre hl hi bk fuel hf
    obtain ⟨fuel, rfl⟩ : ∃ k, fuel = k + 1 := ⟨fuel - 1, by simp at hf; omega⟩
    have := h.2.len_eq
    simp [hl] at this
    simp [positionLoop, CB.Iter.next, this, findPos]
  | cons x post ih =>
    intro pre hl hi bk fuel hf
    obtain ⟨fuel, rfl⟩ : ∃ k, fuel = k + 1 := ⟨fuel - 1, by simp at hf; omega⟩
    have h1 := h.2.len_eq
    have hlt : pre.length < l.length := by simp [hl]
    have hr := h.2.read (i := pre.length) (by simpa using hlt)
    have hv : (psums 0 l)[pre.length]? = some (pre.sum + x) := by
      rw [psums_getElem? _ _ _ hlt, hl]
      simp [List.take_append, List.take_of_length_le]
    have hv' : (psums 0 l)[pre.length]'(by simpa using hlt) = pre.sum + x := by
      rw [List.getElem?_eq_getElem (by simpa using hlt)] at hv
      simpa using hv
    rw [hv'] at hr
    have hne : ((pre.length == t.buffer.len) = false) := by
      simp [h1]; omega
    simp only [positionLoop, CB.Iter.next, hne, hr]
    simp only [Bool.false_eq_true, if_false, ok_bind]
    by_cases hc : idx < pre.sum + x
    · rw [if_pos hc, usub_ok hi]
      simp [findPos, show idx - pre.sum < x by omega]
    · rw [if_neg hc]
      have := ih (pre ++ [x]) (by simp [hl]) (by simp; omega) bk fuel (by simp at hf; omega)
      simp only [List.length_append, List.length_singleton, List.sum_append, List.sum_singleton] at this
      rw [show (t.buffer.front + (pre.length + 1)) % 64 = ((t.buffer.front + pre.length) % 64 + 1) % 64 by omega] at this
      rw [this]
      simp [findPos, show ¬ (idx - pre.sum < x) by omega, Option.map_map]
      congr 1
      · funext p; simp; omega
      · congr 1; omega

theorem positionInfoFor_ok {t : SizeTable} {n : Nat} {l : List Nat} (h : Rep t n l) (idx : Nat) :
    t.positionInfoFor idx = .ok (findPos l idx) := by
  have := positionLoop_ok h idx l [] rfl (by simp) ((t.buffer.front + t.buffer.len) % 64)
    (t.buffer.len + 1) (by have := h.2.len_eq; simp at this; omega)
  have hf := h.2.front_lt
  rw [positionInfoFor, CB.iter]
  simp only [List.length_nil, List.sum_nil] at this
  rw [show (t.buffer.front + 0) % 64 = t.buffer.front by omega] at this
  rw [this]
  simp

/-- The specification of the search: the child that contains the position. -/
theorem findPos_some {l : List Nat} {idx i j : Nat} (h : findPos l idx = some (i, j)) :
    i < l.length ∧ idx = (l.take i).sum + j ∧ ∀ (hi : i < l.length), j < l[i] := by
  induction l generalizing idx i j with
  | nil => simp [findPos] at h
  | cons x l ih =>
    simp only [findPos] at h
    split at h
    · cases h; simp; assumption
    · simp only [Option.map_eq_some_iff] at h
      obtain ⟨⟨a, b⟩, h1, h2⟩ := h
      cases h2
      obtain ⟨q1, q2, q3⟩ := ih h1
      refine ⟨by simpa using q1, by simp; omega, ?_⟩
      intro hi
      simpa using q3 q1

theorem findPos_none {l : List Nat} {idx : Nat} : findPos l idx = none ↔ l.sum ≤ idx := by
  induction l generalizing idx with
  | nil => simp [findPos]
  | cons x l ih =>
    simp only [findPos, List.sum_cons]
    split
    · simp; omega
    · simp [ih]; omega

theorem getCumulativeChildSize_ok {t : SizeTable} {n : Nat} {l : List Nat} (h : Rep t n l) {i : Nat}
    (hi : i < l.length) : t.getCumulativeChildSize i = .ok (some (l.take (i + 1)).sum) := by
  rw [getCumulativeChildSize, CB.get_ok h.2, psums_getElem? _ _ _ hi]; simp

theorem getCumulativeChildSize_none {t : SizeTable} {n : Nat} {l : List Nat} (h : Rep t n l) {i : Nat}
    (hi : l.length ≤ i) : t.getCumulativeChildSize i = .ok none := by
  rw [getCumulativeChildSize, CB.get_ok h.2, List.getElem?_eq_none (by simpa using hi)]

theorem getChildSize_ok {t : SizeTable} {n : Nat} {l : List Nat} (h : Rep t n l) (i : Nat) :
    t.getChildSize i = .ok l[i]? := by
  have h1 := h.2.len_eq
  simp at h1
  unfold getChildSize
  by_cases h0 : i = 0
  · subst h0
    simp only [beq_self_eq_true, if_true]
    rw [CB.get_ok h.2]
    cases l <;> simp [psums]
  · rw [if_neg (by simpa using h0)]
    by_cases hi : i < l.length
    · rw [if_pos (by omega), CB.get_ok h.2, CB.get_ok h.2, psums_getElem? _ _ _ hi,
        psums_getElem? _ _ _ (by omega)]
      have e : (l.take (i + 1)).sum = (l.take i).sum + l[i] := by
        rw [List.take_add_one, List.sum_append]; simp [hi]
      simp [show i - 1 + 1 = i by omega, e, usub_ok, hi]
    · rw [if_neg (by omega), List.getElem?_eq_none (by omega)]

theorem getChildRange_ok {t : SizeTable} {n : Nat} {l : List Nat} (h : Rep t n l) {i : Nat}
    (hi : i < l.length) :
    t.getChildRange i = .ok (some ((l.take i).sum, (l.take (i + 1)).sum)) := by
  have h1 := h.2.len_eq
  simp at h1
  unfold getChildRange
  rw [if_pos (by omega)]
  by_cases h0 : i = 0
  · subst h0
    simp only [beq_self_eq_true, if_true]
    rw [CB.get_ok h.2, psums_getElem? _ _ _ hi]
    simp
  · rw [if_neg (by simpa using h0)]
    rw [CB.get_ok h.2, CB.get_ok h.2, psums_getElem? _ _ _ hi, psums_getElem? _ _ _ (by omega)]
    simp [show i - 1 + 1 = i by omega]

end SizeTable
end Librrb
