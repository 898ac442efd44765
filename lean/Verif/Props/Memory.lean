import Verif.Proof.HeapItems
import Verif.Props.Cost

/-!
# C51: which items are kept in memory
-/
namespace Librrb

theorem HShows.unique {h : Heap α} {v : HVec} {l l' : List α} (s : HShows h v l) (s' : HShows h v l') : l = l' := by
  refine List.ext_getElem? fun i => ?_
  have := (s.2 i).symm.trans (s'.2 i)
  injection this with this
  exact congrArg Prod.fst this

theorem HHolding.unique {h : Heap α} {st : List HVec} {ls ls' : List (List α)} (s : HHolding h st ls)
    (s' : HHolding h st ls') : ls = ls' := by
  have e : ls.length = ls'.length := by rw [← s.1, s'.1]
  refine List.ext_getElem e fun i h1 h2 => ?_
  have hi : i < st.length := by rw [s.1]; exact h1
  obtain ⟨l, e1, g1⟩ := s.2 i _ (List.getElem?_eq_getElem hi)
  obtain ⟨l', e2, g2⟩ := s'.2 i _ (List.getElem?_eq_getElem hi)
  rw [List.getElem?_eq_getElem h1] at e1
  rw [List.getElem?_eq_getElem h2] at e2
  cases e1
  cases e2
  exact g1.unique g2

theorem items_of_run {prog : List (Call α)} (hf : ∀ c ∈ prog, c.Fits) {as : List (Answer α)} {st : List HVec} {h : Heap α}
    (e : runHeap prog [] Heap.empty = .ok ((as, st), h)) {ls : List (List α)} (hl : HHolding h st ls) :
    (h.items : Multiset α) ≤ ls.flatten ∧ (Solo h → (h.items : Multiset α) = ls.flatten) := by
  obtain ⟨ls', r⟩ := Ready.of_run hf e
  obtain rfl := hl.unique r.holding
  obtain ⟨vs, ⟨ps, rfl, rfl, w⟩, hlen, hv⟩ := r
  have hb : ∀ p ∈ ps, (VecOf.nodes p : RVec α).Inv := by
    intro p hp
    obtain ⟨j, hj, rfl⟩ := List.getElem_of_mem hp
    exact (hv j _ (by rw [List.getElem?_map, List.getElem?_eq_getElem hj]; rfl)).1.inv
  obtain ⟨hi, hs⟩ := Ctx.owned_items hb
  have hflat : (ps.flatMap fun p => (VecOf.nodes p : RVec α).toList) = ls.flatten := by
    rw [List.length_map] at hlen
    rw [List.flatMap_def]
    congr 1
    refine List.ext_getElem (by simpa using hlen) fun j h1 h2 => ?_
    rw [List.length_map] at h1
    obtain ⟨b, l, el, s⟩ := hv j ps[j].nodes (by rw [List.getElem?_map, List.getElem?_eq_getElem h1]; rfl)
    rw [List.getElem?_eq_getElem h2] at el
    cases el
    obtain ⟨k, i⟩ := b.inv
    rw [List.getElem_map]
    exact (RVec.shows_iff i).1 s
  rw [← hflat, ← hi]
  exact w.items_le _ hs rfl

/-- Whatever program ran: the items in memory are among the items of the vectors, and none is there more often than all vectors
have it together. So an item that was taken out, overwritten or cut off is not kept anywhere. -/
theorem C51_kept {prog : List (Call α)} (hf : ∀ c ∈ prog, c.Fits) {as : List (Answer α)} {st : List HVec} {h : Heap α}
    (e : runHeap prog [] Heap.empty = .ok ((as, st), h)) {ls : List (List α)} (hl : HHolding h st ls) :
    h.items.Subperm ls.flatten :=
  Multiset.coe_le.1 (items_of_run hf e hl).1

/-- If it clones no vector, the items in memory are exactly those of the vectors, each as often as the vectors have it. -/
theorem C51_once {prog : List (Call α)} (hf : ∀ c ∈ prog, c.Fits) (hc : ∀ c ∈ prog, c.Cloneless) {as : List (Answer α)}
    {st : List HVec} {h : Heap α} (e : runHeap prog [] Heap.empty = .ok ((as, st), h)) {ls : List (List α)}
    (hl : HHolding h st ls) : h.items.Perm ls.flatten :=
  Multiset.coe_eq_coe.1 ((items_of_run hf e hl).2 ((runHeap_along solo_makes prog [] hc).run _ _ _ e Solo.empty))

/-- The program of C49: of 201 items one was removed; the other two hundred are in memory. -/
example : (∀ c ∈ busy, c.Fits) ∧ (∀ c ∈ busy, c.Cloneless) ∧
    (runHeap busy [] Heap.empty).map (fun r => (r.2.items.length, r.1.2.map VecOf.len)) = .ok (200, [200, 0]) :=
  ⟨by simp [busy, Call.Fits, Act.Fits], by simp [busy, Call.Cloneless], by decide +kernel⟩

/-- A vector and its copy share leaves; an item of the one is overwritten, the other loses an item on each side. -/
def parting : List (Call Nat) := sharing ++ [.act 0 (.set 5 1000), .act 1 .popFront, .act 1 .popBack]

/-- The vectors have 398 items together, and 270 are in memory; once the first has ended there are 198, and those that were
taken from the second are not among them. -/
example : (∀ c ∈ parting, c.Fits) ∧
    (runHeap parting [] Heap.empty).map (fun r => (r.2.items.length, r.1.2.map VecOf.len)) = .ok (270, [200, 198]) ∧
    (runHeap (parting ++ [.drop 0]) [] Heap.empty).map (fun r => (r.2.items.length, r.2.items.count 0, r.2.items.count 199)) =
      .ok (198, 0, 0) :=
  ⟨by simp [parting, sharing, Call.Fits, Act.Fits], by decide +kernel, by decide +kernel⟩

end Librrb
