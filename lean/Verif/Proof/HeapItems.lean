import Verif.HeapSpec
import Verif.Proof.HeapGarbage
import Verif.Proof.HeapSolo
import Mathlib.Data.List.Rotate
import Mathlib.Algebra.BigOperators.Group.Multiset.Basic

/-!
# Which items are in memory
-/
namespace Librrb

/-- The live slots of a sound ring hold its items, each once. -/
theorem CB.Rep.slots_perm {b : CB α} {l : List α} (h : b.Rep l) : (b.data.filterMap id).Perm l := by
  have e : b.data.rotate b.front = l.map some ++ List.replicate (64 - l.length) none := by
    refine List.ext_getElem? fun i => ?_
    have hle := h.le
    by_cases hi : i < 64
    · rw [List.getElem?_rotate (by rw [h.size]; exact hi), h.size, Nat.add_comm, h.slot i hi]
      by_cases hl : i < l.length
      · rw [List.getElem?_append_left (by simpa using hl), List.getElem?_map, List.getElem?_eq_getElem hl]
        rfl
      · rw [List.getElem?_append_right (by simpa using hl), List.length_map, List.getElem?_replicate, if_pos (by omega),
          List.getElem?_eq_none (by omega)]
    · rw [List.getElem?_eq_none (by rw [List.length_rotate, h.size]; omega), List.getElem?_eq_none (by simp; omega)]
  have p : (b.data.rotate b.front).Perm b.data := List.rotate_perm _ _
  refine (p.filterMap id).symm.trans (.of_eq ?_)
  rw [e, List.filterMap_append, List.filterMap_map]
  have h1 : List.filterMap (id ∘ some) l = l := List.filterMap_some
  have h2 : List.filterMap id (List.replicate (64 - l.length) (none : Option α)) = [] := by
    rw [List.filterMap_eq_nil_iff]
    intro x hx
    exact (List.mem_replicate.1 hx).2
  rw [h1, h2, List.append_nil]

theorem flatMap_set (f : β → List α) : ∀ (l : List β) (i : Nat) (x y : β), l[i]? = some x →
    (((l.set i y).flatMap f : List α) : Multiset α) + (f x : List α) = (l.flatMap f : List α) + (f y : List α)
  | z :: l, 0, x, y, h => by
    cases h
    simp only [List.set_cons_zero, List.flatMap_cons, ← Multiset.coe_add]
    abel
  | z :: l, i + 1, x, y, h => by
    have := flatMap_set f l i x y h
    simp only [List.set_cons_succ, List.flatMap_cons, ← Multiset.coe_add]
    rw [add_assoc, this]
    abel

theorem Heap.items_put {h : Heap α} {a : Addr} {c : RcBox α} (e : h.cell a = some c) (c' : Option (RcBox α)) :
    ((h.put a c').items : Multiset α) + c.node.items =
      h.items + (((c'.map fun c => c.node.items).getD [] : List α) : Multiset α) :=
  flatMap_set _ h.cells a (some c) c' (Heap.getElem?_of_cell e)

/-- The items below the owned entries. -/
def Ctx.items (L : Ctx α) : Multiset α :=
  (L.map fun p => (((p.2.map Node.toList).getD [] : List α) : Multiset α)).sum

theorem Ctx.items_add (L M : Ctx α) : Ctx.items (L + M) = Ctx.items L + Ctx.items M := by
  simp [Ctx.items]

theorem Ctx.items_has (p : Addr × Node α) : Ctx.items (has p) = (p.2.toList : Multiset α) := by
  simp [Ctx.items, has]

theorem Ctx.items_own : ∀ l : List (Addr × Node α), Ctx.items (own l) = ((l.flatMap fun p => p.2.toList : List α) : Multiset α)
  | [] => by simp [Ctx.items]
  | p :: l => by
    rw [own_cons, Ctx.items_add, Ctx.items_has, Ctx.items_own l, List.flatMap_cons, ← Multiset.coe_add]

/-- All that is owned is sound, and nothing is borrowed. -/
def Ctx.Sound (L : Ctx α) : Prop := ∀ p ∈ L, ∃ nd n, p.2 = some nd ∧ nd.Wf n

/-- The items of a sound node are those inside of it and those below its entries. -/
theorem items_of_body {P : Body α (Addr × Node α)} {n : Nat} (hw : (P.map Prod.snd).node.Wf n) :
    ((P.map Prod.snd).node.toList : Multiset α) = (P.items : List α) + Ctx.items (own P.kids) ∧ (own P.kids).Sound := by
  cases P with
  | leaf b =>
    cases n with
    | zero =>
      obtain ⟨l, b', e, hr⟩ := Node.wf_zero.1 hw
      cases e
      refine ⟨?_, fun p hp => by simp [Body.kids] at hp⟩
      simp only [Body.map, Body.node, Node.toList_leaf, Body.items, Body.kids, own_nil]
      rw [hr.toList, Multiset.coe_eq_coe.2 hr.slots_perm]
      simp [Ctx.items]
    | succ n => exact absurd hw (by simp [Body.map, Body.node, Node.Wf])
  | internal s t c =>
    cases n with
    | zero => exact absurd hw (by simp [Body.map, Body.node, Node.Wf])
    | succ n =>
      obtain ⟨ks, s', c', e, -, hr, hk⟩ := Node.wf_succ.1 hw
      simp only [Body.map, Body.node, Node.internal.injEq] at e
      obtain ⟨rfl, -, rfl⟩ := e
      have hp : ((Body.internal s t c : Body α (Addr × Node α)).kids.map Prod.snd).Perm ks := by
        have := hr.slots_perm
        rwa [show (c.map Prod.snd).data.filterMap id = (Body.internal s t c : Body α (Addr × Node α)).kids.map Prod.snd from
          Body.kids_map Prod.snd (Body.internal s t c : Body α (Addr × Node α))] at this
      refine ⟨?_, fun p hp' => ?_⟩
      · rw [Ctx.items_own]
        simp only [Body.map, Body.node, Node.toList_internal, Body.items, hr.toList, Multiset.coe_nil, zero_add]
        rw [Multiset.coe_eq_coe]
        refine (List.Perm.flatMap_right Node.toList hp.symm).trans (.of_eq ?_)
        rw [List.flatMap_map]
      · obtain ⟨q, hq, rfl⟩ := List.mem_map.1 (Multiset.mem_coe.1 hp')
        exact ⟨q.2, n, rfl, (hk q.2 (hp.subset (List.mem_map_of_mem hq))).1⟩

/-- Nothing is owned: the heap is empty. -/
theorem World.items_nil {h : Heap α} (w : World h 0) : h.items = [] := by
  have key : ∀ a, h.cell a = none := by
    intro a
    cases hc : h.cell a with
    | none => rfl
    | some c => exact (w.no_garbage (R := fun _ => False) (fun a ha => by simp at ha) (fun _ _ _ hf => hf.elim) hc).elim
  unfold Heap.items
  rw [List.flatMap_eq_nil_iff]
  intro o ho
  obtain ⟨i, hi, rfl⟩ := List.getElem_of_mem ho
  have := key i
  unfold Heap.cell at this
  rw [List.getElem?_eq_getElem hi] at this
  cases hc : h.cells[i] with
  | none => rfl
  | some c => rw [hc] at this; cases this

/-- In memory there are no more items than below what is owned; exactly these, if no node has two owners. -/
theorem World.items_le : ∀ (n : Nat) {h : Heap α} {L : Ctx α}, World h L → L.Sound → h.total = n →
    (h.items : Multiset α) ≤ L.items ∧ (Solo h → (h.items : Multiset α) = L.items) := by
  intro n
  induction n using Nat.strong_induction_on with
  | _ n ih =>
    intro h L w hs hn
    rcases Multiset.empty_or_exists_mem L with rfl | ⟨p, hp⟩
    · rw [w.items_nil]
      simp [Ctx.items]
    · obtain ⟨F, rfl⟩ := Multiset.exists_cons_of_mem hp
      obtain ⟨nd, k, e, hw⟩ := hs p hp
      obtain ⟨a, o⟩ := p
      cases e
      have eL : ((a, some nd) ::ₘ F) = has (a, nd) + F := by rw [has, Multiset.singleton_add]
      rw [eL] at w hs ⊢
      have hsF : Ctx.Sound F := fun q hq => hs q (Multiset.mem_add.2 (.inr hq))
      obtain ⟨c, hc⟩ := w.cell_of_refs (a := a) (by rw [refs_add, refs_has, if_pos rfl]; omega)
      have hpos := w.pos a c hc
      rw [Ctx.items_add, Ctx.items_has]
      by_cases h1 : c.count = 1
      · obtain ⟨P, eP, rfl, hP⟩ := (w.mem a nd (by simp)).inv
        obtain ⟨count, node⟩ := c
        cases h1
        rw [Heap.node_of_cell hc] at eP
        obtain rfl : node = P.map Prod.fst := Option.some.inj eP
        have w' := w.free_ok hP hc
        obtain ⟨hi, hk⟩ := items_of_body hw
        have ht := Heap.total_put hc none
        have hit := Heap.items_put hc none
        simp only [Option.map_none, Option.getD_none, Multiset.coe_nil, add_zero] at ht hit
        have hPi : (P.map Prod.fst).items = P.items := by cases P <;> rfl
        obtain ⟨g1, g2⟩ := ih _ (by omega) w' (by
          intro q hq
          rcases Multiset.mem_add.1 hq with hq | hq
          · exact hk q hq
          · exact hsF q hq) rfl
        rw [Ctx.items_add] at g1 g2
        rw [← hit, hi, hPi, add_comm ((P.items : List α) : Multiset α), add_right_comm]
        refine ⟨add_le_add_left g1 _, fun so => ?_⟩
        rw [g2]
        intro b d hb
        rw [Heap.cell_put (Heap.cell_lt hc)] at hb
        split at hb
        · cases hb
        · exact so b d hb
      · have w' := w.decr_ok hc (by omega)
        have ht := Heap.total_put hc (some { c with count := c.count - 1 })
        have hit := Heap.items_put hc (some { c with count := c.count - 1 })
        simp only [Option.map_some, Option.getD_some, add_left_inj] at ht hit
        obtain ⟨g1, -⟩ := ih _ (by omega) w' hsF rfl
        rw [hit] at g1
        exact ⟨g1.trans (Multiset.le_add_left _ _), fun so => absurd (so a c hc) h1⟩

/-- The entries of sound vectors. -/
theorem Ctx.owned_items {ps : List (VecOf (Addr × Node α))} (hb : ∀ p ∈ ps, (VecOf.nodes p : RVec α).Inv) :
    Ctx.items (ps.map VecOf.owned).sum = ((ps.flatMap fun p => (VecOf.nodes p : RVec α).toList : List α) : Multiset α) ∧
      Ctx.Sound (ps.map VecOf.owned).sum := by
  induction ps with
  | nil => simp [Ctx.items, Ctx.Sound]
  | cons p ps ih =>
    obtain ⟨i1, s1⟩ := ih fun q hq => hb q (by simp [hq])
    obtain ⟨h, i⟩ := hb p (by simp)
    rw [List.map_cons, List.sum_cons, List.flatMap_cons, ← Multiset.coe_add, Ctx.items_add, i1]
    refine ⟨?_, fun q hq => ?_⟩
    · congr 1
      simp only [VecOf.owned, Ctx.items_add, Ctx.items_own, Ctx.items_has, RVec.toList, VecOf.nodes, List.flatMap_map,
        ← Multiset.coe_add]
      have : (List.flatMap (fun a => Node.toList a.2) p.right : Multiset α) =
          ((p.right.map Prod.snd).reverse.flatMap Node.toList : List α) := by
        rw [Multiset.coe_eq_coe, ← List.flatMap_map]
        exact (List.reverse_perm _).symm.flatMap_right _
      rw [this]
      abel
    · rcases Multiset.mem_add.1 hq with hq | hq
      · rw [← VecOf.own_entries] at hq
        obtain ⟨x, hx, rfl⟩ := List.mem_map.1 (Multiset.mem_coe.1 hq)
        have hsp : ∀ s, x.2 ∈ (VecOf.nodes p : RVec α).spine s → ∃ n, x.2.Wf n := by
          intro s hm
          obtain ⟨j, hj, e⟩ := List.getElem_of_mem hm
          exact ⟨_, e ▸ ((i.spine s).getElem hj).1⟩
        have : ∃ n, x.2.Wf n := by
          rcases List.mem_append.1 hx with hx | hx
          · rcases List.mem_append.1 hx with hx | hx
            · exact hsp .front (List.mem_map_of_mem hx)
            · exact hsp .back (List.mem_map_of_mem hx)
          · rw [List.mem_singleton.1 hx]
            exact ⟨h, i.root⟩
        obtain ⟨n, hn⟩ := this
        exact ⟨x.2, n, rfl, hn⟩
      · exact s1 q hq

end Librrb
