import Verif.Model.Node

/-! # Meaning of a node: the sequence of items below it (not part of the code) -/
namespace Librrb

theorem CB.sizeOf_mem_toList [SizeOf α] {b : CB α} {x : α} (h : x ∈ b.toList) :
    sizeOf x < sizeOf b := by
  unfold CB.toList at h
  rw [List.mem_filterMap] at h
  obtain ⟨i, _, h⟩ := h
  rw [Option.join_eq_some_iff] at h
  have h1 := List.sizeOf_lt_of_mem (List.mem_of_getElem? h)
  have h2 : sizeOf (some x) = 1 + sizeOf x := rfl
  have h3 : sizeOf b = 1 + sizeOf b.front + sizeOf b.len + sizeOf b.data := by cases b; rfl
  omega

/-- The sequence of items below a node, left to right. -/
def Node.toList : Node α → List α
  | .leaf b => b.toList
  | .internal _ _ c => c.toList.attach.flatMap fun k => k.1.toList
termination_by nd => sizeOf nd
decreasing_by
  have := CB.sizeOf_mem_toList k.2
  simp; omega

@[simp] theorem Node.toList_leaf (b : CB α) : (Node.leaf b).toList = b.toList := by
  rw [Node.toList]

@[simp] theorem Node.toList_internal (s : SizeTable) (t : Tag) (c : CB (Node α)) :
    (Node.internal s t c).toList = c.toList.flatMap Node.toList := by
  rw [Node.toList]
  conv => rhs; rw [← List.attach_map_subtype_val c.toList]
  rw [List.flatMap_map]

end Librrb
