import Verif.Proof.HeapSolo
import Verif.Props.Clone

/-!
# What calls cost: which nodes are made, and which are written in place
-/
namespace Librrb

/-! ### C49 -/

theorem Solo.empty : Solo (Heap.empty : Heap α) := by
  intro a c e
  simp [Heap.cell, Heap.empty] at e

/-- A program that clones no vector shares no node: every node has one owner, so that `load_mut` never copies. -/
theorem C49_unshared {prog : List (Call α)} (hc : ∀ c ∈ prog, c.Cloneless) {as : List (Answer α)} {st : List HVec} {h : Heap α}
    (e : runHeap prog [] Heap.empty = .ok ((as, st), h)) {a : Addr} {c : RcBox α} (hn : h.cell a = some c) : c.count = 1 :=
  (runHeap_along solo_makes prog [] hc).run _ _ _ e Solo.empty a c hn

/-- A program that pushes, cuts, joins, inserts and removes. -/
def busy : List (Call Nat) :=
  [.collect (List.range 200), .act 0 (.splitOff 100), .append 1 0, .act 1 (.insert 3 7), .act 1 (.remove 150), .prepend 0 1]

/-- It makes nineteen nodes, of which ten are left. -/
example : (∀ c ∈ busy, c.Cloneless) ∧
    (runHeap busy [] Heap.empty).map (fun r => (r.2.cells.length, (r.2.cells.filterMap (·.map RcBox.count)))) =
      .ok (19, [1, 1, 1, 1, 1, 1, 1, 1, 1, 1]) :=
  ⟨by simp [busy, Call.Cloneless], by decide +kernel⟩

/-- While no node is shared, calls that read or replace items – `get_mut`, `front_mut`, `back_mut`, `sort`, `dual_sort`,
`reverse`, mutable iterators and foci – do so in place: they leave the nodes and the entries of all variables where they are,
and neither make nor free a node. -/
theorem C49_in_place {prog : List (Call α)} (hc : ∀ c ∈ prog, c.Cloneless) {as : List (Answer α)} {st : List HVec} {h : Heap α}
    (e : runHeap prog [] Heap.empty = .ok ((as, st), h)) {c : Call α} (hp : c.InPlace) {a : Answer α} {st' : List HVec}
    {h' : Heap α} (e' : c.hrun st h = .ok ((a, st'), h')) :
    st' = st ∧ h'.cells.length = h.cells.length ∧ ∀ b, (h'.cell b).isSome = (h.cell b).isSome := by
  have s : Solo h := (runHeap_along solo_makes prog [] hc).run _ _ _ e Solo.empty
  have w := (solo_makes (α := α)).toWrites
  cases c <;> simp only [Call.InPlace] at hp
  case act i x =>
    cases hi : st[i]? with
    | none => simp only [Call.hrun, hi] at e'; cases e'; exact ⟨rfl, rfl, fun _ => rfl⟩
    | some v =>
      simp only [Call.hrun, hi] at e'
      obtain ⟨r, h1, e1, e2⟩ := hm_bind_inv e'
      cases e2
      have hr := s.act hp e1
      refine ⟨?_, ((Act.hrun_along_writes steady_writes v x hp).run _ _ _ e1 s).2⟩
      rw [hr]
      show st.set i v ++ [] = st
      rw [List.append_nil, List.set_getElem?_self hi]
  case compare cmp i j =>
    have key := (Call.hrun_along_writes steady_writes st (.compare cmp i j) trivial).run _ _ _ e' s
    refine ⟨?_, key.2⟩
    cases hi : st[i]? with
    | none => simp only [Call.hrun, hi] at e'; cases e'; rfl
    | some x =>
      cases hj : st[j]? with
      | none => simp only [Call.hrun, hi, hj] at e'; cases e'; rfl
      | some y =>
        simp only [Call.hrun, hi, hj] at e'
        obtain ⟨r, h1, e1, e2⟩ := hm_bind_inv e'
        cases e2
        rfl
  case dualSort cmp lt draws sb eb i j =>
    have key := (Call.hrun_along_writes steady_writes st (.dualSort cmp lt draws sb eb i j) trivial).run _ _ _ e' s
    refine ⟨?_, key.2⟩
    simp only [Call.hrun] at e'
    by_cases hij : i = j
    · rw [if_pos hij] at e'; cases e'; rfl
    · rw [if_neg hij] at e'
      cases hi : st[i]? with
      | none => simp only [hi] at e'; cases e'; rfl
      | some x =>
        cases hj : st[j]? with
        | none => simp only [hi, hj] at e'; cases e'; rfl
        | some y =>
          simp only [hi, hj] at e'
          obtain ⟨r, h1, e1, e2⟩ := hm_bind_inv e'
          cases e2
          obtain ⟨p, h2, e3, e4⟩ := hm_bind_inv e1
          have s2 := s.along (Along.lift w _) e3
          obtain ⟨q, h3, e5, e6⟩ := hm_bind_inv e4
          have s3 := s2.along (Along.lift w _) e5
          obtain ⟨u, h4, e7, e8⟩ := hm_bind_inv e6
          have s4 := s3.along (HVec.window_along w ..) e7
          obtain ⟨t, h5, e9, e10⟩ := hm_bind_inv e8
          obtain ⟨z, h6, e11, e12⟩ := hm_bind_inv e10
          cases e12
          show (st.set i u.1).set j t.1 = st
          rw [s3.window e7, s4.window e9, List.set_getElem?_self hi, List.set_getElem?_self hj]

/-- A call that changes nearly every item of the vector makes no node; after a `clone` it makes as many as the vector has. -/
example : (Call.act 0 (.reverseRange .unbounded .unbounded) : Call Nat).InPlace ∧
    (runHeap (busy ++ [.act 0 (.reverseRange .unbounded .unbounded)]) [] Heap.empty).map
        (fun r => (r.1.2.map VecOf.entries, r.2.cells.length)) = .ok ([[6, 0, 11], [18]], 19) ∧
    (runHeap (busy ++ [.clone 0, .act 0 (.reverseRange .unbounded .unbounded)]) [] Heap.empty).map
        (fun r => (r.1.2.map VecOf.entries, r.2.cells.length)) = .ok ([[19, 21, 20], [18], [6, 0, 11]], 28) :=
  ⟨trivial, by decide +kernel, by decide +kernel⟩

end Librrb
