import Verif.Proof.DenseSplit
import Verif.Proof.HeapItems

/-!
# How many nodes there are
-/
namespace Librrb

/-- How many nodes a tree consists of. -/
def Node.count : Node α → Nat
  | .leaf _ => 1
  | .internal _ _ c => 1 + (c.toList.attach.map fun k => k.1.count).sum
termination_by nd => sizeOf nd
decreasing_by
  have := CB.sizeOf_mem_toList k.2
  simp only [Node.internal.sizeOf_spec]
  omega

theorem Node.count_leaf (b : CB α) : (Node.leaf b).count = 1 := by rw [Node.count]

theorem Node.count_internal (s : SizeTable) (t : Tag) (c : CB (Node α)) :
    (Node.internal s t c).count = 1 + (c.toList.map Node.count).sum := by
  rw [Node.count]
  conv => rhs; rw [← List.attach_map_subtype_val c.toList]
  rw [List.map_map]
  rfl

namespace Node

theorem Kids.count {n : Nat} {nd : Node α} {ks : List (Node α)} (h : Kids n nd ks) : nd.count = 1 + (ks.map Node.count).sum := by
  obtain ⟨s, c, rfl, -, hr, -⟩ := h
  rw [count_internal, hr.toList]

/-- Every child holds an item, so on each level there are at most as many nodes as there are items. -/
theorem Wf.count_le : ∀ {n : Nat} {nd : Node α}, Wf n nd → nd.count ≤ 1 + n * nd.toList.length := by
  intro n
  induction n with
  | zero =>
    intro nd h
    obtain ⟨l, b, rfl, -⟩ := wf_zero.1 h
    rw [count_leaf]
    omega
  | succ n ih =>
    intro nd h
    obtain ⟨ks, hk⟩ := wf_succ.1 h
    rw [hk.count, hk.toList]
    have key : ∀ ks : List (Node α), (∀ k ∈ ks, Wf n k ∧ k.toList ≠ []) →
        (ks.map Node.count).sum ≤ (n + 1) * (ks.flatMap Node.toList).length := by
      intro ks
      induction ks with
      | nil => intro _; simp
      | cons k ks ihk =>
        intro hks
        obtain ⟨h1, h2⟩ := hks k (by simp)
        have h3 := ih h1
        have h4 := ihk fun x hx => hks x (by simp [hx])
        have h5 : 1 ≤ k.toList.length := by
          cases hl : k.toList with
          | nil => exact absurd hl h2
          | cons _ _ => simp
        simp only [List.map_cons, List.sum_cons, List.flatMap_cons, List.length_append, Nat.mul_add] at h4 ⊢
        have : (n + 1) * k.toList.length = n * k.toList.length + k.toList.length := Nat.succ_mul ..
        omega
    have := key ks fun k hx => hk.child hx
    omega

/-- If everything below is full there are few nodes. -/
theorem Dense.count : ∀ {n : Nat} {nd : Node α}, Wf n nd → Dense n nd → 63 * nd.count + nd.slots = 63 + nd.toList.length := by
  intro n
  induction n with
  | zero =>
    intro nd h hd
    obtain ⟨l, b, rfl, hr⟩ := wf_zero.1 h
    rw [count_leaf, toList_leaf, hr.toList]
    have := hr.len_eq
    simp only [slots]
    omega
  | succ n ih =>
    intro nd h hd
    obtain ⟨ks, hk⟩ := wf_succ.1 h
    have hf := (dense_iff hk).1 hd
    rw [hk.count, hk.toList, hk.slots]
    have key : ∀ ks : List (Node α), (∀ k ∈ ks, Wf n k ∧ 64 ^ (n + 1) ≤ k.toList.length) →
        63 * (ks.map Node.count).sum + ks.length = (ks.flatMap Node.toList).length := by
      intro ks
      induction ks with
      | nil => intro _; simp
      | cons k ks ihk =>
        intro hks
        obtain ⟨h1, h2⟩ := hks k (by simp)
        have h3 := ih h1 (full_dense h1 h2)
        have h4 := ihk fun x hx => hks x (by simp [hx])
        have h5 : k.slots = 64 := by
          have h6 := h1.cap
          have h7 := h1.slots_le
          rw [Nat.pow_succ, Nat.mul_comm] at h2
          have := Nat.le_of_mul_le_mul_right (h2.trans h6) (Nat.pow_pos (by omega))
          omega
        simp only [List.map_cons, List.sum_cons, List.flatMap_cons, List.length_append, List.length_cons, Nat.mul_add] at h4 ⊢
        omega
    have := key ks fun k hx => ⟨(hk.child hx).1, hf k hx⟩
    omega

end Node

/-! ### Vectors -/

/-- How many nodes a vector consists of. -/
def RVec.nodeCount (v : RVec α) : Nat := (v.left.map Node.count).sum + (v.right.map Node.count).sum + v.root.count

theorem Spine.count_le {H : Nat} : ∀ {n : Nat} {sp : List (Node α)}, Spine n sp → n + sp.length ≤ H →
    (sp.map Node.count).sum ≤ sp.length + H * (sp.flatMap Node.toList).length := by
  intro n sp
  induction sp generalizing n with
  | nil => intro _ _; simp
  | cons x xs ih =>
    intro h hl
    simp only [List.length_cons] at hl
    have h1 := h.1.count_le
    have h2 := ih h.2.2 (by omega)
    have h3 : n * x.toList.length ≤ H * x.toList.length := Nat.mul_le_mul_right _ (by omega)
    simp only [List.map_cons, List.sum_cons, List.flatMap_cons, List.length_append, List.length_cons, Nat.mul_add]
    omega

theorem Spine.len_cap : ∀ {n : Nat} {sp : List (Node α)}, Spine n sp → (sp.flatMap Node.toList).length ≤ spineCap n sp := by
  intro n sp
  induction sp generalizing n with
  | nil => intro _; simp
  | cons x xs ih =>
    intro h
    have h1 := h.1.cap
    have h2 := ih h.2.2
    simp only [List.flatMap_cons, List.length_append, spineCap]
    omega

theorem Spine.count_dense : ∀ {n : Nat} {sp : List (Node α)}, Spine n sp → spineCap n sp ≤ (sp.flatMap Node.toList).length →
    63 * (sp.map Node.count).sum ≤ 63 * sp.length + (sp.flatMap Node.toList).length := by
  intro n sp
  induction sp generalizing n with
  | nil => intro _ _; simp
  | cons x xs ih =>
    intro h hc
    have h1 := h.1.cap
    have h2 := Spine.len_cap h.2.2
    simp only [List.flatMap_cons, List.length_append, spineCap] at hc
    have h3 := ih h.2.2 (by omega)
    have h4 := Node.Dense.count h.1 (show _ ≤ _ by omega)
    simp only [List.map_cons, List.sum_cons, List.flatMap_cons, List.length_append, List.length_cons, Nat.mul_add]
    omega

theorem RVec.toList_length (v : RVec α) : v.toList.length =
    (v.left.flatMap Node.toList).length + (v.right.flatMap Node.toList).length + v.root.toList.length := by
  have : (v.right.reverse.flatMap Node.toList).length = (v.right.flatMap Node.toList).length :=
    ((List.reverse_perm _).flatMap_right _).length_eq
  simp only [RVec.toList, List.length_append, this]
  omega

/-- A vector has at most as many nodes on a level as it has items, apart from those at its edges. -/
theorem RVec.InvH.count_le {v : RVec α} {h : Nat} (i : RVec.InvH v h) : v.nodeCount ≤ 2 * h + 1 + h * v.len := by
  have h1 := Spine.count_le (H := h) (i.spine .front) (by rw [i.length]; omega)
  have h2 := Spine.count_le (H := h) (i.spine .back) (by rw [i.length]; omega)
  have h3 := i.root.count_le
  have hl := i.length .front
  have hr := i.length .back
  simp only [RVec.spine_front, RVec.spine_back] at *
  rw [i.len, RVec.toList_length, RVec.nodeCount, Nat.mul_add, Nat.mul_add]
  omega

/-- If all nodes but those at the edges are full, there is one node for 63 items. -/
theorem RVec.InvH.count_dense {v : RVec α} {h : Nat} (i : RVec.InvH v h) (hc : v.cap ≤ v.toList.length) :
    63 * v.nodeCount ≤ 63 * (2 * h + 1) + v.len := by
  have h1 := Spine.len_cap (i.spine .front)
  have h2 := Spine.len_cap (i.spine .back)
  have h3 := i.root.cap
  have hl := i.length .front
  have hr := i.length .back
  have g1 := Spine.count_dense (i.spine .front)
  have g2 := Spine.count_dense (i.spine .back)
  rw [RVec.toList_length, RVec.cap] at hc
  simp only [RVec.spine_front, RVec.spine_back] at *
  rw [hl] at hc
  have g3 := Node.Dense.count i.root (show _ ≤ _ by omega)
  have g1 := g1 (by omega)
  have g2 := g2 (by omega)
  rw [i.len, RVec.toList_length, RVec.nodeCount, Nat.mul_add, Nat.mul_add]
  omega

/-! ### The heap -/

theorem countP_set (f : β → Bool) : ∀ (l : List β) (i : Nat) (x y : β), l[i]? = some x →
    (l.set i y).countP f + (if f x then 1 else 0) = l.countP f + (if f y then 1 else 0)
  | z :: l, 0, x, y, h => by
    cases h
    simp only [List.set_cons_zero, List.countP_cons]
    omega
  | z :: l, i + 1, x, y, h => by
    have := countP_set f l i x y h
    simp only [List.set_cons_succ, List.countP_cons]
    omega

theorem Heap.nodes_put {h : Heap α} {a : Addr} {c : RcBox α} (e : h.cell a = some c) (c' : Option (RcBox α)) :
    (h.put a c').nodes + 1 = h.nodes + (if c'.isSome then 1 else 0) :=
  countP_set _ h.cells a (some c) c' (Heap.getElem?_of_cell e)

/-- The nodes below the owned entries. -/
def Ctx.count (L : Ctx α) : Nat := (L.map fun p => (p.2.map Node.count).getD 0).sum

theorem Ctx.count_add (L M : Ctx α) : Ctx.count (L + M) = Ctx.count L + Ctx.count M := by
  simp [Ctx.count]

theorem Ctx.count_has (p : Addr × Node α) : Ctx.count (has p) = p.2.count := by
  simp [Ctx.count, has]

theorem Ctx.count_own : ∀ l : List (Addr × Node α), Ctx.count (own l) = ((l.map Prod.snd).map Node.count).sum
  | [] => by simp [Ctx.count]
  | p :: l => by
    rw [own_cons, Ctx.count_add, Ctx.count_has, Ctx.count_own l]
    simp

theorem count_of_body {P : Body α (Addr × Node α)} {n : Nat} (hw : (P.map Prod.snd).node.Wf n) :
    (P.map Prod.snd).node.count = 1 + Ctx.count (own P.kids) := by
  cases P with
  | leaf b =>
    simp only [Body.map, Body.node, Body.kids, own_nil, Node.count_leaf]
    simp [Ctx.count]
  | internal s t c =>
    cases n with
    | zero => exact absurd hw (by simp [Body.map, Body.node, Node.Wf])
    | succ n =>
      obtain ⟨ks, s', c', e, -, hr, hk⟩ := Node.wf_succ.1 hw
      simp only [Body.map, Body.node, Node.internal.injEq] at e
      obtain ⟨rfl, -, rfl⟩ := e
      have hp : ((Body.internal s t c : Body α (Addr × Node α)).kids.map Prod.snd).Perm ks := by
        have := hr.slots_perm
        rwa [show (c.map Prod.snd).data.filterMap id = (Body.internal s t c : Body α (Addr × Node α)).kids.map Prod.snd from
          Body.kids_map Prod.snd (Body.internal s t c : Body α (Addr × Node α))] at this
      rw [Ctx.count_own]
      simp only [Body.map, Body.node, Node.count_internal, hr.toList]
      rw [(hp.map Node.count).sum_eq]

theorem World.nodes_nil {h : Heap α} (w : World h 0) : h.nodes = 0 := by
  unfold Heap.nodes
  rw [List.countP_eq_zero]
  intro o ho
  obtain ⟨i, hi, rfl⟩ := List.getElem_of_mem ho
  cases hc : h.cells[i] with
  | none => simp
  | some c =>
    have hcell : h.cell i = some c := by
      unfold Heap.cell
      rw [List.getElem?_eq_getElem hi, hc]
      rfl
    exact (w.no_garbage (R := fun _ => False) (fun a ha => by simp at ha) (fun _ _ _ hf => hf.elim) hcell).elim

/-- In memory there are no more nodes than below what is owned; exactly as many, if no node has two owners. -/
theorem World.nodes_le : ∀ (n : Nat) {h : Heap α} {L : Ctx α}, World h L → L.Sound → h.total = n →
    h.nodes ≤ L.count ∧ (Solo h → h.nodes = L.count) := by
  intro n
  induction n using Nat.strong_induction_on with
  | _ n ih =>
    intro h L w hs hn
    rcases Multiset.empty_or_exists_mem L with rfl | ⟨p, hp⟩
    · rw [w.nodes_nil]
      simp [Ctx.count]
    · obtain ⟨F, rfl⟩ := Multiset.exists_cons_of_mem hp
      obtain ⟨nd, k, e, hw⟩ := hs p hp
      obtain ⟨a, o⟩ := p
      cases e
      have eL : ((a, some nd) ::ₘ F) = has (a, nd) + F := by rw [has, Multiset.singleton_add]
      rw [eL] at w hs ⊢
      have hsF : Ctx.Sound F := fun q hq => hs q (Multiset.mem_add.2 (.inr hq))
      obtain ⟨c, hc⟩ := w.cell_of_refs (a := a) (by rw [refs_add, refs_has, if_pos rfl]; omega)
      have hpos := w.pos a c hc
      rw [Ctx.count_add, Ctx.count_has]
      by_cases h1 : c.count = 1
      · obtain ⟨P, eP, rfl, hP⟩ := (w.mem a nd (by simp)).inv
        obtain ⟨count, node⟩ := c
        cases h1
        rw [Heap.node_of_cell hc] at eP
        obtain rfl : node = P.map Prod.fst := Option.some.inj eP
        have w' := w.free_ok hP hc
        obtain ⟨-, hk⟩ := items_of_body hw
        have hi := count_of_body hw
        have ht := Heap.total_put hc none
        have hit := Heap.nodes_put hc none
        simp only [Option.map_none, Option.getD_none, add_zero] at ht
        simp only [Option.isSome_none, Bool.false_eq_true, if_false, add_zero] at hit
        obtain ⟨g1, g2⟩ := ih _ (by omega) w' (by
          intro q hq
          rcases Multiset.mem_add.1 hq with hq | hq
          · exact hk q hq
          · exact hsF q hq) rfl
        rw [Ctx.count_add] at g1 g2
        dsimp only
        rw [hi]
        refine ⟨by omega, fun so => ?_⟩
        have := g2 (by
          intro b d hb
          rw [Heap.cell_put (Heap.cell_lt hc)] at hb
          split at hb
          · cases hb
          · exact so b d hb)
        omega
      · have w' := w.decr_ok hc (by omega)
        have ht := Heap.total_put hc (some { c with count := c.count - 1 })
        have hit := Heap.nodes_put hc (some { c with count := c.count - 1 })
        simp only [Option.map_some, Option.getD_some] at ht
        simp only [Option.isSome_some, if_true] at hit
        obtain ⟨g1, -⟩ := ih _ (by omega) w' hsF rfl
        exact ⟨by omega, fun so => absurd (so a c hc) h1⟩

theorem Ctx.owned_count : ∀ ps : List (VecOf (Addr × Node α)),
    Ctx.count (ps.map VecOf.owned).sum = (ps.map fun p => (VecOf.nodes p : RVec α).nodeCount).sum
  | [] => by simp [Ctx.count]
  | p :: ps => by
    rw [List.map_cons, List.sum_cons, List.map_cons, List.sum_cons, Ctx.count_add, Ctx.owned_count ps]
    simp only [VecOf.owned, Ctx.count_add, Ctx.count_own, Ctx.count_has, RVec.nodeCount, VecOf.nodes]

end Librrb
