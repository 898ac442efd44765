import Verif.Model.Basic

/-! # Reasoning about `M`: a call returns normally and its result satisfies `P`. -/
namespace Librrb

/-- The call returns normally, with a result satisfying `P`. -/
def Ok (m : M α) (P : α → Prop) : Prop := ∃ a, m = .ok a ∧ P a

theorem Ok.pure {a : α} {P : α → Prop} (h : P a) : Ok (.ok a) P := ⟨a, rfl, h⟩

theorem Ok.bind {m : M α} {f : α → M β} {P : α → Prop} {Q : β → Prop}
    (h : Ok m P) (k : ∀ a, P a → Ok (f a) Q) : Ok (m >>= f) Q := by
  obtain ⟨a, rfl, ha⟩ := h
  exact k a ha

theorem Ok.mono {m : M α} {P Q : α → Prop} (h : Ok m P) (k : ∀ a, P a → Q a) : Ok m Q := by
  obtain ⟨a, e, ha⟩ := h
  exact ⟨a, e, k a ha⟩

theorem Ok.elim {m : M α} {P : α → Prop} (h : Ok m P) {a : α} (e : m = .ok a) : P a := by
  obtain ⟨b, e', hb⟩ := h
  rw [e] at e'; cases e'; exact hb

@[simp] theorem ok_bind (a : α) (f : α → M β) : ((Except.ok a : M α) >>= f) = f a := rfl
@[simp] theorem error_bind (e : Fault) (f : α → M β) : ((Except.error e : M α) >>= f) = .error e := rfl
@[simp] theorem unwrap_some (a : α) : unwrap (some a) = .ok a := rfl
@[simp] theorem unwrap_none : unwrap (none : Option α) = .error .panic := rfl
@[simp] theorem massert_true : massert true = .ok () := rfl
@[simp] theorem massert_false : massert false = .error .panic := rfl

theorem massert_ok {c : Bool} (h : c = true) : massert c = .ok () := by simp [h]
theorem usub_ok {a b : Nat} (h : b ≤ a) : usub a b = .ok (a - b) := by simp [usub, h]
theorem uadd_ok {a b : Nat} (h : a + b < USIZE_LIMIT) : uadd a b = .ok (a + b) := by
  unfold uadd; rw [if_pos h]

@[simp] theorem Side.negate_front : Side.front.negate = .back := rfl
@[simp] theorem Side.negate_back : Side.back.negate = .front := rfl
@[simp] theorem Side.negate_negate (s : Side) : s.negate.negate = s := by cases s <;> rfl

/-- Put an item on a side of a list. -/
def Side.cons : Side → α → List α → List α
  | .front, x, l => x :: l
  | .back, x, l => l ++ [x]

/-- Put a list (in order) on a side of a list. -/
def Side.add : Side → List α → List α → List α
  | .front, xs, l => xs ++ l
  | .back, xs, l => l ++ xs

@[simp] theorem Side.length_cons (s : Side) (x : α) (l : List α) :
    (s.cons x l).length = l.length + 1 := by cases s <;> simp [Side.cons]
@[simp] theorem Side.length_add (s : Side) (xs l : List α) :
    (s.add xs l).length = xs.length + l.length := by cases s <;> simp [Side.add]; omega
@[simp] theorem Side.add_nil_left (s : Side) (l : List α) : s.add [] l = l := by
  cases s <;> simp [Side.add]
@[simp] theorem Side.add_nil_right (s : Side) (l : List α) : s.add l [] = l := by
  cases s <;> simp [Side.add]

theorem Side.exists_cons (s : Side) {l : List α} (h : l ≠ []) : ∃ x l', l = s.cons x l' := by
  cases s
  · cases l with
    | nil => exact absurd rfl h
    | cons x l => exact ⟨x, l, rfl⟩
  · exact ⟨l.getLast h, l.dropLast, (List.dropLast_concat_getLast h).symm⟩

end Librrb
