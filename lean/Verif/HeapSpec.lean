import Verif.HeapHistory

/-!
# What is observed of vectors on reference-counted nodes

The counterparts of `Shows` and `Holding` for vectors whose nodes live in a heap, and the words for the properties about
sharing and memory.
-/
namespace Librrb

/-- In the heap `h` the vector presents the sequence `l`: this is what `len` and `get` tell, and they leave the heap as it
is. -/
def HShows (h : Heap α) (v : HVec) (l : List α) : Prop :=
  v.len = l.length ∧ ∀ i, v.get i h = .ok (l[i]?, h)

/-- The variables present the given sequences. -/
def HHolding (h : Heap α) (st : List HVec) (ls : List (List α)) : Prop :=
  st.length = ls.length ∧ ∀ (i : Nat) (v : HVec), st[i]? = some v → ∃ l, ls[i]? = some l ∧ HShows h v l

/-- The result `r` on the heap is the result `q` on sequences. -/
def SameOnHeap (r : Except Fault ((β × List HVec) × Heap α)) (q : M (β × List (List α))) : Prop :=
  match q with
  | .error e => r = .error e
  | .ok (a, ls) => ∃ st h, r = .ok ((a, st), h) ∧ HHolding h st ls

/-- The heap before a program. -/
def Heap.empty : Heap α := { cells := [] }

/-- Where the variable `u` is after a call that does not mention it; `none` if the call does. (To end a variable moves the
later ones up.) -/
def Call.follow (u : Nat) : Call α → Option Nat
  | .act v _ => if v = u then none else some u
  | .append v w | .prepend v w | .dualSort _ _ _ _ _ v w => if v = u ∨ w = u then none else some u
  | .drop v | .intoIter v _ => if v = u then none else if v < u then some (u - 1) else some u
  | .new | .singleton _ | .collect _ | .clone _ | .compare _ _ _ | .constant _ _ => some u

/-- The same for a program. -/
def followAll (u : Nat) : List (Call α) → Option Nat
  | [] => some u
  | c :: cs =>
    match c.follow u with
    | none => none
    | some u' => followAll u' cs

/-- The nodes that can be reached from the variables. -/
inductive Reached (h : Heap α) (st : List HVec) : Addr → Prop where
  | entry {v : HVec} {a : Addr} : v ∈ st → a ∈ v.entries → Reached h st a
  | child {a k : Addr} {c : RcBox α} : Reached h st a → h.cell a = some c → k ∈ c.node.kids → Reached h st k

/-- How often a node is referred to: by the variables, and by nodes. -/
def references (h : Heap α) (st : List HVec) (a : Addr) : Nat :=
  (st.flatMap VecOf.entries).count a + (h.cells.flatMap fun c => (c.map fun c => c.node.kids).getD []).count a

/-- The items inside of a node: those in live slots of a leaf. -/
def Body.items : Body α κ → List α
  | .leaf b => b.data.filterMap id
  | .internal _ _ _ => []

/-- The items in memory: all that is in live slots of the leaves that are not freed. -/
def Heap.items (h : Heap α) : List α := h.cells.flatMap fun c => (c.map fun c => c.node.items).getD []

/-- How many nodes are in memory. -/
def Heap.nodes (h : Heap α) : Nat := h.cells.countP Option.isSome

/-- Calls on a vector that read it or write to its items, and leave how many there are. -/
def Act.InPlace : Act α → Prop
  | .len | .isEmpty | .get _ | .front | .back | .iterate _ | .set _ _ | .setEnd _ _ | .reverseRange _ _ | .sortRange _ _ _ _ _
  | .focusRead _ | .mapEnds _ _ | .editFocus _ | .shareFocus _ => True
  | _ => False

/-- The same for calls. -/
def Call.InPlace : Call α → Prop
  | .act _ a => a.InPlace
  | .dualSort _ _ _ _ _ _ _ | .compare _ _ _ => True
  | _ => False

/-- Calls that do not clone vectors; `constant_vec_of_length` does. -/
def Call.Cloneless : Call α → Prop
  | .clone _ | .constant _ _ => False
  | _ => True

/-- Calls on a vector that concatenate nothing; `extract_slice`, `insert` and `remove` put parts of the vector together again. -/
def Act.Joinless : Act α → Prop
  | .extractSlice _ _ | .insert _ _ | .remove _ => False
  | _ => True

/-- The same for calls; `constant_vec_of_length` concatenates as well. -/
def Call.Joinless : Call α → Prop
  | .act _ a => a.Joinless
  | .append _ _ | .prepend _ _ | .constant _ _ => False
  | _ => True

/-- The height of a vector: the number of levels above its leaves, which is the length of its spines
(`height`, `src/vector.rs:2055-2059`). -/
def HVec.height (v : HVec) : Nat := v.left.length

/-- A bound on how many nodes a call on a vector makes, where `n` is the height of the vector; it does not depend on how many
items there are. `none`: there is no such bound, as the call may write all items. -/
def Act.allowance (n : Nat) : Act α → Option Nat
  | .len | .isEmpty | .get _ | .front | .back | .iterate _ | .focusRead _ => some 0
  | .setEnd _ _ => some 1
  | .set _ _ => some (n + 1)
  | .pushBack _ | .pushFront _ => some (6 * n + 9)
  | .popBack | .popFront => some (3 * n + 3)
  | .splitOff _ | .sliceFromStart _ | .sliceToEnd _ => some (32 * n + 17)
  | .extractSlice _ _ => some (2460 * n + 47)
  | .insert _ _ => some (1632 * n + 833)
  | .remove _ => some (1626 * n + 33)
  | .mapEnds _ script => some (2 * n + 1 + script.length * (n + 2))
  | .editFocus ops => some (2 * n + 1 + ops.length * (n + 2))
  | .shareFocus ops => some (2 * n + 1 + ops.length * (n + 2))
  | .reverseRange _ _ | .sortRange _ _ _ _ _ => none

/-- The same for calls; the heights are those of the variables that the call mentions. (To pass a vector by value leaves a new
one in the variable.) -/
def Call.allowance (st : List HVec) : Call α → Option Nat
  | .new => some 1
  | .singleton _ => some 10
  | .clone _ | .compare _ _ _ | .drop _ => some 0
  | .act v a => a.allowance (st[v]?.elim 0 HVec.height)
  | .append v w | .prepend v w => some (794 * max (st[v]?.elim 0 HVec.height) (st[w]?.elim 0 HVec.height) + 14)
  | .intoIter v script => some (script.length * (3 * st[v]?.elim 0 HVec.height + 3))
  | .collect _ | .constant _ _ | .dualSort _ _ _ _ _ _ _ => none

/-- A bound on how often a call on a vector of height `n` reads, writes or makes a node or touches a reference count; it does
not depend on how many items there are. `none`: there is no such bound, as for the calls that cut, or the call may write all
items. -/
def Act.stepBound (n : Nat) : Act α → Option Nat
  | .len | .isEmpty => some 0
  | .front | .back => some 1
  | .get _ => some (3 * n + 2)
  | .iterate script => some (4 * n + 4 + script.length * (8 * n + 12))
  | .focusRead is => some (4 * n + 4 + is.length * (8 * n + 12))
  | .setEnd _ _ => some 70
  | .set _ _ => some (72 * n + 71)
  | .pushBack _ | .pushFront _ => some (368 * n + 518)
  | .popBack | .popFront => some (219 * n + 223)
  | .mapEnds _ script => some (140 * n + 70 + script.length * (71 * n + 144))
  | .editFocus ops => some (140 * n + 70 + ops.length * (71 * n + 144))
  | .shareFocus ops => some (140 * n + 70 + ops.length * (71 * n + 144))
  | .splitOff _ | .sliceFromStart _ | .sliceToEnd _ | .extractSlice _ _ | .insert _ _ | .remove _ | .reverseRange _ _
  | .sortRange _ _ _ _ _ => none

/-- The same for calls. To compare two vectors looks at each item of the first one at most. -/
def Call.stepBound (st : List HVec) : Call α → Option Nat
  | .new => some 1
  | .singleton _ => some 519
  | .clone v | .drop v => some (2 * st[v]?.elim 0 HVec.height + 1)
  | .act v a => a.stepBound (st[v]?.elim 0 HVec.height)
  | .append v w | .prepend v w => some (56558 * max (st[v]?.elim 0 HVec.height) (st[w]?.elim 0 HVec.height) + 861)
  | .compare _ v w => some ((st[v]?.elim 0 VecOf.len + 1) *
      (24 * max (st[v]?.elim 0 HVec.height) (st[w]?.elim 0 HVec.height) + 32))
  | .intoIter v script => some (script.length * (219 * st[v]?.elim 0 HVec.height + 223) + 2 * st[v]?.elim 0 HVec.height + 1)
  | .collect _ | .constant _ _ | .dualSort _ _ _ _ _ _ _ => none

/-- A bound on the steps of a call on vectors that were made without concatenation. These have height at most ten, so it does
not mention the vectors. -/
def Call.weight : Call α → Option Nat
  | .new => some 1
  | .singleton _ => some 519
  | .collect items => some (4198 * items.length + 1)
  | .clone _ | .drop _ => some 21
  | .act _ a => a.stepBound 10
  | .intoIter _ script => some (2413 * script.length + 21)
  | .append _ _ | .prepend _ _ | .compare _ _ _ | .constant _ _ | .dualSort _ _ _ _ _ _ _ => none

end Librrb
