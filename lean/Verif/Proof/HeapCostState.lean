import Verif.Proof.HeapCostCalls
import Verif.Proof.HeapHistory

/-! # How many nodes a call makes: the zone of the variables of a program

The nodes that stand for well-formed trees of at most the given height, and all nodes that are made from now on.
-/
namespace Librrb
open RVec

theorem CB.Rep.mem_data {b : CB α} {l : List α} (h : b.Rep l) {x : α} (hx : some x ∈ b.data) : x ∈ l := by
  obtain ⟨j, hj, e⟩ := List.getElem_of_mem hx
  have hj' : j < 64 := by rw [← h.size]; exact hj
  have hf := h.front_lt
  have hs := h.slot ((j + 64 - b.front) % 64) (Nat.mod_lt _ (by omega))
  rw [show (b.front + (j + 64 - b.front) % 64) % 64 = j by omega, List.getElem?_eq_getElem hj, e] at hs
  exact List.mem_of_getElem? (Option.some.inj hs).symm

/-- The zone of a heap. -/
def zoneOf (h : Heap α) (K : Nat) : Zone where
  has a := h.cells.length ≤ a ∨ ∃ nd m, Den h a nd ∧ nd.Wf m ∧ m ≤ K
  start := h.cells.length
  new _ h := .inl h

theorem tame_zoneOf (h : Heap α) (K : Nat) : Tame (zoneOf h K) K h := by
  refine ⟨Nat.le_refl _, fun a c ha e => ?_⟩
  rcases ha with ha | ⟨nd, m, d, wf, hm⟩
  · have := Heap.cell_lt e
    omega
  · obtain ⟨P, e1, rfl, hk⟩ := d.inv
    rw [Heap.node_of_cell e] at e1
    rw [Option.some.inj e1]
    cases P with
    | leaf b =>
      cases m with
      | zero => exact ⟨by rw [wf.len_eq]; exact wf.le, fun _ _ => trivial, Nat.le_of_eq wf.size⟩
      | succ m => exact wf.elim
    | internal s t C =>
      cases m with
      | zero => exact wf.elim
      | succ m =>
        obtain ⟨h1, -, h3, h4⟩ := wf
        refine ⟨h1.1.trans_le hm, (show C.len = _ from h3.len_eq).trans_le h3.le, ?_, by simpa using Nat.le_of_eq h3.size⟩
        intro k hmem
        simp only [CB.map_data, List.mem_map] at hmem
        obtain ⟨o, ho, eo⟩ := hmem
        cases o with
        | none => cases eo
        | some p =>
          cases eo
          refine .inr ⟨p.2, m, hk p ?_, (h4 p.2 ?_).1, by omega⟩
          · exact List.mem_filterMap.2 ⟨_, ho, rfl⟩
          · refine h3.mem_data ?_
            simp only [CB.map_data, List.mem_map]
            exact ⟨some p, ho, rfl⟩

theorem SameVec.vecOk {h : Heap α} {g : HVec} {d : RVec α} (s : SameVec h g d) {n K : Nat} (c : Core d n) (hK : n ≤ K) :
    VecOk (zoneOf h K) K g ∧ g.height = n := by
  obtain ⟨p, rfl, rfl, hp⟩ := s
  have hl : p.left.length = n := by simpa [VecOf.nodes] using c.length .front
  have hr : p.right.length = n := by simpa [VecOf.nodes] using c.length .back
  have key : ∀ {l : List (Addr × Node α)}, l.length = n → (∀ x ∈ l, Den h x.1 x.2) → Spine 0 (l.map Prod.snd) →
      ∀ a ∈ l.map Prod.fst, (zoneOf h K).has a := by
    intro l hn hd hs a ha
    obtain ⟨x, hx, rfl⟩ := List.mem_map.1 ha
    obtain ⟨i, hi, rfl⟩ := List.getElem_of_mem hx
    have := (hs.getElem (i := i) (by simpa using hi)).1
    rw [List.getElem_map] at this
    exact .inr ⟨_, _, hd _ hx, this, by omega⟩
  refine ⟨⟨key hl (fun x hx => hp x ?_) (c.spine .front), key hr (fun x hx => hp x ?_) (c.spine .back),
    .inr ⟨_, _, hp p.root ?_, c.root, hK⟩, ?_, ?_⟩, ?_⟩
  · simp [VecOf.entries, hx]
  · simp [VecOf.entries, hx]
  · simp [VecOf.entries]
  · simp [VecOf.addrs]; omega
  · simp [VecOf.addrs]; omega
  · simp [HVec.height, VecOf.addrs]; omega

end Librrb
