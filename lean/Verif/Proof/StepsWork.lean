import Verif.Model.Steps
import Verif.Proof.Heap
import Verif.HeapSpec

/-! # How many steps a call takes in the heap: what is freed along with a node has been made before -/
namespace Librrb

/-- Every node that is not freed has an owner. -/
def Heap.Owned (h : Heap α) : Prop := ∀ a c, h.cell a = some c → 1 ≤ c.count

theorem Heap.Owned.put {h : Heap α} (o : h.Owned) {a : Addr} {c : Option (RcBox α)} (hc : ∀ c', c = some c' → 1 ≤ c'.count) :
    (h.put a c).Owned := by
  intro b d e
  by_cases ha : a < h.cells.length
  · rw [Heap.cell_put ha] at e
    by_cases hab : a = b
    · rw [if_pos hab] at e; exact hc d e
    · rw [if_neg hab] at e; exact o b d e
  · have : h.put a c = h := by
      show ({ cells := h.cells.set a c } : Heap α) = h
      rw [List.set_eq_of_length_le (by omega)]
    rw [this] at e
    exact o b d e

theorem dropWork_eq : ∀ (fuel : Nat) (as : List Addr) {h h' : Heap α}, h.Owned → dropLoop fuel as h = .ok h' →
    h'.Owned ∧ dropWork fuel as h + h'.total = h.total
  | 0, [], h, h', o, e => by cases e; exact ⟨o, by simp [dropWork]⟩
  | _ + 1, [], h, h', o, e => by cases e; exact ⟨o, by simp [dropWork]⟩
  | 0, a :: as, h, h', o, e => by cases e
  | fuel + 1, a :: as, h, h', o, e => by
    rw [dropLoop, Heap.release] at e
    rw [dropWork, Heap.release]
    cases hc : h.cell a with
    | none => rw [hc] at e; cases e
    | some c =>
      rw [hc] at e
      have h1 := o a c hc
      dsimp only at e ⊢
      by_cases hle : c.count ≤ 1
      · rw [if_pos hle] at e ⊢
        dsimp only
        obtain ⟨o2, e2⟩ := dropWork_eq fuel (c.node.kids ++ as) (h := h.put a none) (o.put fun c' hc' => by cases hc') e
        have := Heap.total_put hc none
        simp only [Option.map_none, Option.getD_none] at this
        exact ⟨o2, by omega⟩
      · rw [if_neg hle] at e ⊢
        dsimp only
        obtain ⟨o2, e2⟩ := dropWork_eq fuel ([] ++ as) (h := h.put a (some { c with count := c.count - 1 }))
          (o.put fun c' hc' => by cases hc'; dsimp only; omega) e
        have := Heap.total_put hc (some { c with count := c.count - 1 })
        simp only [Option.map_some, Option.getD_some] at this
        exact ⟨o2, by omega⟩

/-- Every step that frees takes an owner away that an earlier step has made. -/
theorem HM.work_le (x : HM α γ) : ∀ {h h' : Heap α} {g : γ}, h.Owned → x h = .ok (g, h') →
    h'.Owned ∧ x.work h + h'.total ≤ 2 * x.steps h + h.total := by
  induction x with
  | ret g => intro h h' g' o e; cases e; exact ⟨o, by simp [HM.work, HM.steps]⟩
  | fail f => intro h h' g' o e; cases e
  | load a k ih =>
    intro h h' g' o e
    rw [HM.run] at e
    rw [HM.work, HM.steps]
    cases hc : h.cell a with
    | none => rw [hc] at e; cases e
    | some c =>
      rw [hc] at e
      obtain ⟨h1, h2⟩ := ih _ o e
      exact ⟨h1, by dsimp only; omega⟩
  | isOne a k ih =>
    intro h h' g' o e
    rw [HM.run] at e
    rw [HM.work, HM.steps]
    cases hc : h.cell a with
    | none => rw [hc] at e; cases e
    | some c =>
      rw [hc] at e
      obtain ⟨h1, h2⟩ := ih _ o e
      exact ⟨h1, by dsimp only; omega⟩
  | incr a x ih =>
    intro h h' g' o e
    rw [HM.run] at e
    rw [HM.work, HM.steps]
    cases hc : h.cell a with
    | none => rw [hc] at e; cases e
    | some c =>
      rw [hc] at e
      obtain ⟨h1, h2⟩ := ih (o.put fun c' hc' => by cases hc'; dsimp only; omega) e
      have := Heap.total_put hc (some { c with count := c.count + 1 })
      simp only [Option.map_some, Option.getD_some] at this
      exact ⟨h1, by dsimp only; omega⟩
  | alloc n k ih =>
    intro h h' g' o e
    rw [HM.run] at e
    rw [HM.work, HM.steps]
    obtain ⟨h1, h2⟩ := ih _ (h := { cells := h.cells ++ [some { count := 1, node := n }] }) (fun b d e => by
      rcases Nat.lt_trichotomy b h.cells.length with hl | rfl | hl
      · refine o b d ?_
        simpa [Heap.cell, List.getElem?_append, hl] using e
      · simp [Heap.cell] at e
        subst e
        exact Nat.le_refl _
      · simp [Heap.cell, List.getElem?_append, Nat.not_lt_of_lt hl, List.getElem?_eq_none (l := [_]) (i := b - h.cells.length)
          (by simp; omega)] at e) e
    have : ({ cells := h.cells ++ [some { count := 1, node := n }] } : Heap α).total = h.total + 1 := by
      simp [Heap.total]
    exact ⟨h1, by omega⟩
  | drop as x ih =>
    intro h h' g' o e
    rw [HM.run] at e
    rw [HM.work, HM.steps]
    cases hd : dropLoop h.total as h with
    | error f => rw [hd] at e; cases e
    | ok h1 =>
      rw [hd] at e
      obtain ⟨o1, e1⟩ := dropWork_eq _ _ o hd
      obtain ⟨h1, h2⟩ := ih o1 e
      exact ⟨h1, by dsimp only; omega⟩
  | poke a f k ih =>
    intro h h' g' o e
    rw [HM.run] at e
    rw [HM.work, HM.steps]
    cases hc : h.cell a with
    | none => rw [hc] at e; cases e
    | some c =>
      rw [hc] at e
      obtain ⟨h1, h2⟩ := ih _ (o.put fun c' hc' => by cases hc'; exact o a c hc) e
      have := Heap.total_put hc (some { c with node := f c.node })
      simp only [Option.map_some, Option.getD_some] at this
      exact ⟨h1, by dsimp only; omega⟩

end Librrb
