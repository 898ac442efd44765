import Verif.Model.HeapVec

/-!
# How many steps a call takes in the heap

The steps are those of `HM` (`Verif/Model/Heap.lean`): a node is read or written behind its pointer, a reference count is
asked or changed, a node is made. What a call does with a node of at most 64 slots that it holds already is not counted.
-/
namespace Librrb

/-- The steps that a run takes. For the drop of an entry one step is counted, to take one from its count; what is freed along
with the node of an entry that had no other owner is left to `HM.work`. -/
def HM.steps : HM α γ → Heap α → Nat
  | .ret _, _ => 0
  | .fail _, _ => 0
  | .load a k, h =>
    match h.cell a with
    | some c => (k c.node).steps h + 1
    | none => 1
  | .isOne a k, h =>
    match h.cell a with
    | some c => (k (c.count == 1)).steps h + 1
    | none => 1
  | .incr a x, h =>
    match h.cell a with
    | some c => x.steps (h.put a (some { c with count := c.count + 1 })) + 1
    | none => 1
  | .alloc n k, h => (k h.cells.length).steps { cells := h.cells ++ [some { count := 1, node := n }] } + 1
  | .drop as x, h =>
    match dropLoop h.total as h with
    | .ok h => x.steps h + as.length
    | .error _ => as.length
  | .poke a f k, h =>
    match h.cell a with
    | some c => (k c.node).steps (h.put a (some { c with node := f c.node })) + 1
    | none => 1

/-- The steps of `dropLoop`: one for each entry that is dropped, those in freed nodes included. -/
def dropWork : Nat → List Addr → Heap α → Nat
  | _, [], _ => 0
  | 0, _ :: _, _ => 0
  | fuel + 1, a :: as, h =>
    match h.release a with
    | .ok r => dropWork fuel (r.1 ++ as) r.2 + 1
    | .error _ => 1

/-- All steps that a run takes, freeing included. -/
def HM.work : HM α γ → Heap α → Nat
  | .ret _, _ => 0
  | .fail _, _ => 0
  | .load a k, h =>
    match h.cell a with
    | some c => (k c.node).work h + 1
    | none => 1
  | .isOne a k, h =>
    match h.cell a with
    | some c => (k (c.count == 1)).work h + 1
    | none => 1
  | .incr a x, h =>
    match h.cell a with
    | some c => x.work (h.put a (some { c with count := c.count + 1 })) + 1
    | none => 1
  | .alloc n k, h => (k h.cells.length).work { cells := h.cells ++ [some { count := 1, node := n }] } + 1
  | .drop as x, h =>
    match dropLoop h.total as h with
    | .ok h' => x.work h' + dropWork h.total as h
    | .error _ => dropWork h.total as h
  | .poke a f k, h =>
    match h.cell a with
    | some c => (k c.node).work (h.put a (some { c with node := f c.node })) + 1
    | none => 1

end Librrb
