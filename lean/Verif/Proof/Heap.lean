import Verif.Model.Heap
import Verif.Proof.Annotated
import Mathlib.Algebra.Order.BigOperators.Group.List
import Mathlib.Data.Multiset.Count
import Mathlib.Data.Multiset.MapFold
import Mathlib.Data.Multiset.AddSub
import Mathlib.Tactic.Abel

/-!
# The heap: who owns what

`World h L` says that `L` is exactly what is owned in the heap `h` besides the entries inside of nodes,
and which node each entry stands for. Every operation is proved with an arbitrary rest `F` of the world.
-/
namespace Librrb

namespace Body

/-- The body with every child replaced. -/
def map (f : κ → μ) : Body α κ → Body α μ
  | .leaf b => .leaf b
  | .internal s t c => .internal s t (c.map f)

theorem kids_map (f : κ → μ) (b : Body α κ) : (b.map f).kids = b.kids.map f := by
  cases b with
  | leaf b => rfl
  | internal s t c =>
    simp only [map, kids, CB.map_data]
    induction c.data with
    | nil => rfl
    | cons x l ih =>
      cases x with
      | none => simpa using ih
      | some x => simpa using ih

/-- The node with a given body. -/
def node : Body α (Node α) → Node α
  | .leaf b => .leaf b
  | .internal s t c => .internal s t c

end Body

namespace Heap

/-- The number of owners of the node at an address. -/
def count (h : Heap α) (a : Addr) : Nat := ((h.cell a).map RcBox.count).getD 0

/-- The node at an address. -/
def node (h : Heap α) (a : Addr) : Option (Body α Addr) := (h.cell a).map RcBox.node

/-- The entries held by a cell. -/
def kidsOf (c : Option (RcBox α)) : List Addr := (c.map fun c => c.node.kids).getD []

/-- How many entries inside of nodes point to an address. -/
def uses (h : Heap α) (a : Addr) : Nat := (h.cells.map fun c => (kidsOf c).count a).sum

theorem cell_lt {h : Heap α} {a : Addr} {c : RcBox α} (e : h.cell a = some c) : a < h.cells.length := by
  unfold cell at e
  by_contra hn
  rw [List.getElem?_eq_none (by omega)] at e
  cases e

theorem cell_put {h : Heap α} {a : Addr} (ha : a < h.cells.length) (c : Option (RcBox α)) (b : Addr) :
    (h.put a c).cell b = if a = b then c else h.cell b := by
  unfold cell put
  rw [List.getElem?_set]
  by_cases hb : a = b
  · subst hb; simp [ha]
  · simp [hb]

theorem getElem?_of_cell {h : Heap α} {a : Addr} {c : RcBox α} (e : h.cell a = some c) :
    h.cells[a]? = some (some c) := by
  unfold cell at e
  match h.cells[a]?, e with
  | some (some x), e => simpa using e

theorem sum_set (f : β → Nat) : ∀ (l : List β) (i : Nat) (x y : β), l[i]? = some x →
    ((l.set i y).map f).sum + f x = (l.map f).sum + f y
  | [], i, x, y, e => by simp at e
  | z :: l, 0, x, y, e => by simp at e; subst e; simp; omega
  | z :: l, i + 1, x, y, e => by
    have := sum_set f l i x y (by simpa using e)
    rw [List.set_cons_succ, List.map_cons, List.sum_cons, List.map_cons, List.sum_cons]
    omega

theorem uses_put {h : Heap α} {a : Addr} {c : RcBox α} (e : h.cell a = some c) (c' : Option (RcBox α)) (b : Addr) :
    (h.put a c').uses b + c.node.kids.count b = h.uses b + (kidsOf c').count b :=
  sum_set _ h.cells a (some c) c' (getElem?_of_cell e)

theorem total_put {h : Heap α} {a : Addr} {c : RcBox α} (e : h.cell a = some c) (c' : Option (RcBox α)) :
    (h.put a c').total + c.count = h.total + (c'.map RcBox.count).getD 0 :=
  sum_set _ h.cells a (some c) c' (getElem?_of_cell e)

theorem le_sum_of_mem (f : β → Nat) : ∀ (l : List β) (x : β), x ∈ l → f x ≤ (l.map f).sum
  | y :: l, x, hx => by
    rcases List.mem_cons.1 hx with rfl | hx
    · simp
    · have := le_sum_of_mem f l x hx
      simp; omega

theorem kids_le_uses {h : Heap α} {a : Addr} {c : RcBox α} (e : h.cell a = some c) (b : Addr) :
    c.node.kids.count b ≤ h.uses b :=
  le_sum_of_mem (fun c => (kidsOf c).count b) h.cells (some c) (List.mem_of_getElem? (getElem?_of_cell e))

theorem count_le_total {h : Heap α} {a : Addr} {c : RcBox α} (e : h.cell a = some c) : c.count ≤ h.total :=
  le_sum_of_mem (fun c : Option (RcBox α) => (c.map RcBox.count).getD 0) h.cells (some c)
    (List.mem_of_getElem? (getElem?_of_cell e))

theorem count_of_cell {h : Heap α} {a : Addr} {c : RcBox α} (e : h.cell a = some c) : h.count a = c.count := by
  rw [count, e]; rfl

theorem node_of_cell {h : Heap α} {a : Addr} {c : RcBox α} (e : h.cell a = some c) : h.node a = some c.node := by
  rw [node, e]; rfl

theorem exists_cell {h : Heap α} {a : Addr} {n : Body α Addr} (e : h.node a = some n) :
    ∃ c, h.cell a = some c ∧ c.node = n := by
  rw [node] at e
  cases hc : h.cell a with
  | none => rw [hc] at e; cases e
  | some c => rw [hc] at e; exact ⟨c, rfl, by simpa using e⟩

end Heap

/-- The node that an address stands for. -/
inductive Den (h : Heap α) : Addr → Node α → Prop where
  | mk {a : Addr} (P : Body α (Addr × Node α)) (e : h.node a = some (P.map Prod.fst))
      (hk : ∀ p ∈ P.kids, Den h p.1 p.2) : Den h a (P.map Prod.snd).node

theorem Den.inv {h : Heap α} {a : Addr} {nd : Node α} (d : Den h a nd) :
    ∃ P : Body α (Addr × Node α), h.node a = some (P.map Prod.fst) ∧ nd = (P.map Prod.snd).node ∧
      ∀ p ∈ P.kids, Den h p.1 p.2 := by
  cases d with
  | mk P e hk => exact ⟨P, e, rfl, hk⟩

theorem Den.frame {h h' : Heap α} {S : Addr → Prop}
    (hs : ∀ b n, h.node b = some n → ¬ S b → h'.node b = some n)
    (hk : ∀ b n, h.node b = some n → ∀ k ∈ n.kids, ¬ S k)
    {a : Addr} {nd : Node α} (d : Den h a nd) : ¬ S a → Den h' a nd := by
  induction d with
  | mk P e _ ih =>
    intro ha
    refine .mk P (hs _ _ e ha) fun p hp => ih p hp (hk _ _ e _ ?_)
    rw [Body.kids_map]
    exact List.mem_map_of_mem hp

theorem Den.mono {h h' : Heap α} (hs : ∀ b n, h.node b = some n → h'.node b = some n)
    {a : Addr} {nd : Node α} (d : Den h a nd) : Den h' a nd :=
  d.frame (S := fun _ => False) (fun b n e _ => hs b n e) (fun _ _ _ _ _ hf => hf) fun hf => hf

/-- What is owned: entries with the nodes they stand for, and entries whose bodies are borrowed. -/
abbrev Ctx (α : Type) := Multiset (Addr × Option (Node α))

/-- An entry that stands for a node. -/
def has (p : Addr × Node α) : Ctx α := {(p.1, some p.2)}

/-- Entries that stand for nodes. -/
def own (l : List (Addr × Node α)) : Ctx α := ((l.map fun p => (p.1, some p.2) : List (Addr × Option (Node α))) : Ctx α)

/-- An entry whose body is borrowed. -/
def hole (a : Addr) : Ctx α := {(a, none)}

/-- How many owned entries point to an address. -/
def Ctx.refs (L : Ctx α) (a : Addr) : Nat := (Multiset.map Prod.fst L).count a

@[simp] theorem own_nil : own ([] : List (Addr × Node α)) = 0 := rfl
@[simp] theorem own_cons (p : Addr × Node α) (l : List (Addr × Node α)) : own (p :: l) = has p + own l := rfl
@[simp] theorem own_append (l m : List (Addr × Node α)) : own (l ++ m) = own l + own m := by
  simp only [own, List.map_append]; rfl

theorem own_perm {l m : List (Addr × Node α)} (h : l.Perm m) : own l = own m :=
  Multiset.coe_eq_coe.2 (h.map _)

theorem own_reverse (l : List (Addr × Node α)) : own l.reverse = own l := own_perm l.reverse_perm

@[simp] theorem refs_zero (a : Addr) : Ctx.refs (0 : Ctx α) a = 0 := rfl
@[simp] theorem refs_add (L M : Ctx α) (a : Addr) : Ctx.refs (L + M) a = Ctx.refs L a + Ctx.refs M a := by
  simp [Ctx.refs]
theorem refs_has (p : Addr × Node α) (a : Addr) : Ctx.refs (has p) a = if a = p.1 then 1 else 0 := by
  simp [Ctx.refs, has, Multiset.count_singleton]
theorem refs_hole (b a : Addr) : Ctx.refs (hole b : Ctx α) a = if a = b then 1 else 0 := by
  simp [Ctx.refs, hole, Multiset.count_singleton]
theorem refs_own (l : List (Addr × Node α)) (a : Addr) : Ctx.refs (own l) a = (l.map Prod.fst).count a := by
  simp [Ctx.refs, own, Function.comp_def]

theorem refs_pos {L : Ctx α} {a : Addr} {s : Option (Node α)} (hm : (a, s) ∈ L) : 1 ≤ Ctx.refs L a :=
  Multiset.one_le_count_iff_mem.2 (Multiset.mem_map_of_mem Prod.fst hm)

@[simp] theorem mem_has {x : Addr × Option (Node α)} {p : Addr × Node α} : x ∈ has p ↔ x = (p.1, some p.2) := by
  simp [has]
@[simp] theorem mem_hole {x : Addr × Option (Node α)} {a : Addr} : x ∈ (hole a : Ctx α) ↔ x = (a, none) := by
  simp [hole]
theorem mem_own {l : List (Addr × Node α)} {a : Addr} {nd : Node α} : (a, some nd) ∈ own l ↔ (a, nd) ∈ l := by
  simp [own]
theorem not_mem_own {l : List (Addr × Node α)} {a : Addr} : (a, none) ∉ own l := by
  simp [own]

/-- `L` is all that is owned besides the entries inside of nodes: the counts are the numbers of owners,
a live node has an owner, every live node stands for a tree, and a borrowed node is not shared. -/
structure World (h : Heap α) (L : Ctx α) : Prop where
  counts : ∀ a, h.count a = L.refs a + h.uses a
  pos : ∀ a c, h.cell a = some c → 1 ≤ c.count
  den : ∀ a n, h.node a = some n → ∃ nd, Den h a nd
  mem : ∀ a nd, (a, some nd) ∈ L → Den h a nd
  hole : ∀ a, (a, none) ∈ L → h.cell a = some { count := 1, node := Body.emptyLeaf }

namespace World

variable {h : Heap α} {L F : Ctx α}

theorem cell_of_refs (w : World h L) {a : Addr} (hr : 1 ≤ L.refs a) : ∃ c, h.cell a = some c := by
  have := w.counts a
  cases hc : h.cell a with
  | none => rw [Heap.count, hc] at this; simp at this; omega
  | some c => exact ⟨c, rfl⟩

theorem used_of_kid {b : Addr} {n : Body α Addr} (e : h.node b = some n) {k : Addr} (hk : k ∈ n.kids) :
    1 ≤ h.uses k := by
  obtain ⟨c, ec, rfl⟩ := Heap.exists_cell e
  exact (List.one_le_count_iff.2 hk).trans (Heap.kids_le_uses ec k)

theorem kid_ne {e : Addr} (hu : h.uses e = 0) {b : Addr} {n : Body α Addr} (hb : h.node b = some n) :
    ∀ k ∈ n.kids, ¬ (k = e) := by
  intro k hk he
  subst he
  have := used_of_kid hb hk
  omega

/-- A node with one owner, that owner outside of the nodes. -/
theorem sole (w : World h L) {e : Addr} (h1 : h.count e = 1) (hr : 1 ≤ L.refs e) :
    L.refs e = 1 ∧ h.uses e = 0 := by
  have := w.counts e
  omega

theorem alloc_ok {P : Body α (Addr × Node α)} (w : World h (own P.kids + F)) :
    World { cells := h.cells ++ [some { count := 1, node := P.map Prod.fst }] }
      (has (h.cells.length, (P.map Prod.snd).node) + F) := by
  have hc : ∀ b, ({ cells := h.cells ++ [some { count := 1, node := P.map Prod.fst }] } : Heap α).cell b =
      if b = h.cells.length then some { count := 1, node := P.map Prod.fst } else h.cell b := by
    intro b
    unfold Heap.cell
    by_cases hb : b < h.cells.length
    · rw [List.getElem?_append_left hb, if_neg (by omega)]
    · by_cases hb' : b = h.cells.length
      · subst hb'; simp
      · rw [if_neg hb', List.getElem?_eq_none (by simp; omega), List.getElem?_eq_none (by omega)]
  have hfresh : h.cell h.cells.length = none := by unfold Heap.cell; simp
  have hold : ∀ b n, h.node b = some n →
      ({ cells := h.cells ++ [some { count := 1, node := P.map Prod.fst }] } : Heap α).node b = some n := by
    intro b n e
    rw [Heap.node, hc, if_neg]
    · exact e
    · intro hb; subst hb; rw [Heap.node, hfresh] at e; cases e
  have hnew : Den { cells := h.cells ++ [some { count := 1, node := P.map Prod.fst }] } h.cells.length
      (P.map Prod.snd).node := by
    refine .mk P ?_ fun p hp => ?_
    · rw [Heap.node, hc, if_pos rfl]; rfl
    · exact (w.mem p.1 p.2 (Multiset.mem_add.2 (.inl (mem_own.2 hp)))).mono hold
  have huses : ∀ b, ({ cells := h.cells ++ [some { count := 1, node := P.map Prod.fst }] } : Heap α).uses b =
      h.uses b + (P.kids.map Prod.fst).count b := by
    intro b
    simp [Heap.uses, Heap.kidsOf, Body.kids_map]
  refine ⟨fun b => ?_, fun b c e => ?_, fun b n e => ?_, fun b nd hm => ?_, fun b hm => ?_⟩
  · have := w.counts b
    rw [refs_add, refs_own] at this
    rw [huses, refs_add, refs_has, Heap.count, hc]
    by_cases hb : b = h.cells.length
    · subst hb
      rw [Heap.count, hfresh] at this
      simp at this ⊢
      omega
    · rw [if_neg hb, if_neg hb]
      rw [Heap.count] at this
      omega
  · rw [hc] at e
    split at e
    · cases e; exact Nat.le_refl 1
    · exact w.pos b c e
  · rw [Heap.node, hc] at e
    split at e
    next hb => subst hb; exact ⟨_, hnew⟩
    next hb =>
      obtain ⟨nd, d⟩ := w.den b n e
      exact ⟨nd, d.mono hold⟩
  · rcases Multiset.mem_add.1 hm with hm | hm
    · rw [mem_has] at hm; cases hm; exact hnew
    · exact (w.mem b nd (Multiset.mem_add.2 (.inr hm))).mono hold
  · rcases Multiset.mem_add.1 hm with hm | hm
    · rw [mem_has] at hm; cases hm
    · have hb := w.hole b (Multiset.mem_add.2 (.inr hm))
      rw [hc, if_neg, hb]
      intro e; subst e; rw [hfresh] at hb; cases hb

/-- Changing a count changes no node. -/
theorem node_put_count {a : Addr} {c : RcBox α} (e : h.cell a = some c) (k : Nat) (b : Addr) :
    (h.put a (some { c with count := k })).node b = h.node b := by
  rw [Heap.node, Heap.cell_put (Heap.cell_lt e)]
  split
  next hb => subst hb; rw [Heap.node, e]; rfl
  next hb => rfl

theorem clone_ok (w : World h L) {a : Addr} {c : RcBox α} (e : h.cell a = some c) {nd : Node α} (d : Den h a nd)
    (hn : (a, none) ∉ L) :
    World (h.put a (some { c with count := c.count + 1 })) (has (a, nd) + L) := by
  have hnode := node_put_count e (c.count + 1)
  have hden : ∀ {b nd}, Den h b nd → Den (h.put a (some { c with count := c.count + 1 })) b nd :=
    fun d => d.mono fun b n e => by rw [hnode, e]
  have huses : ∀ b, (h.put a (some { c with count := c.count + 1 })).uses b = h.uses b := by
    intro b
    have := Heap.uses_put e (some { c with count := c.count + 1 }) b
    simp only [Heap.kidsOf, Option.map_some, Option.getD_some] at this
    omega
  refine ⟨fun b => ?_, fun b c' e' => ?_, fun b n e' => ?_, fun b nd' hm => ?_, fun b hm => ?_⟩
  · have := w.counts b
    rw [huses, refs_add, refs_has, Heap.count, Heap.cell_put (Heap.cell_lt e)]
    by_cases hb : a = b
    · subst hb
      rw [Heap.count_of_cell e] at this
      simp
      omega
    · rw [if_neg hb, if_neg (fun h => hb h.symm)]
      rw [Heap.count] at this
      omega
  · rw [Heap.cell_put (Heap.cell_lt e)] at e'
    split at e'
    · cases e'; simp
    · exact w.pos b c' e'
  · rw [hnode] at e'
    obtain ⟨nd', d'⟩ := w.den b n e'
    exact ⟨nd', hden d'⟩
  · rcases Multiset.mem_add.1 hm with hm | hm
    · rw [mem_has] at hm; cases hm; exact hden d
    · exact hden (w.mem b nd' hm)
  · rcases Multiset.mem_add.1 hm with hm | hm
    · rw [mem_has] at hm; cases hm
    · rw [Heap.cell_put (Heap.cell_lt e), if_neg (fun hb : a = b => hn (by rw [hb]; exact hm)), w.hole b hm]

theorem decr_ok {a : Addr} {nd : Node α} (w : World h (has (a, nd) + F)) {c : RcBox α} (e : h.cell a = some c)
    (h2 : 2 ≤ c.count) : World (h.put a (some { c with count := c.count - 1 })) F := by
  have hnode := node_put_count e (c.count - 1)
  have hden : ∀ {b nd}, Den h b nd → Den (h.put a (some { c with count := c.count - 1 })) b nd :=
    fun d => d.mono fun b n e => by rw [hnode, e]
  have huses : ∀ b, (h.put a (some { c with count := c.count - 1 })).uses b = h.uses b := by
    intro b
    have := Heap.uses_put e (some { c with count := c.count - 1 }) b
    simp only [Heap.kidsOf, Option.map_some, Option.getD_some] at this
    omega
  refine ⟨fun b => ?_, fun b c' e' => ?_, fun b n e' => ?_, fun b nd' hm => ?_, fun b hm => ?_⟩
  · have := w.counts b
    rw [refs_add, refs_has] at this
    rw [huses, Heap.count, Heap.cell_put (Heap.cell_lt e)]
    by_cases hb : a = b
    · subst hb
      rw [Heap.count_of_cell e] at this
      simp at this ⊢
      omega
    · rw [if_neg (fun h => hb h.symm)] at this
      rw [if_neg hb]
      rw [Heap.count] at this
      omega
  · rw [Heap.cell_put (Heap.cell_lt e)] at e'
    split at e'
    · cases e'; simp; omega
    · exact w.pos b c' e'
  · rw [hnode] at e'
    obtain ⟨nd', d'⟩ := w.den b n e'
    exact ⟨nd', hden d'⟩
  · exact hden (w.mem b nd' (Multiset.mem_add.2 (.inr hm)))
  · have hb := w.hole b (Multiset.mem_add.2 (.inr hm))
    rw [Heap.cell_put (Heap.cell_lt e), if_neg, hb]
    intro hab
    subst hab
    rw [e] at hb
    cases hb
    simp at h2

/-- Overwriting a node that has one owner changes nothing else. -/
theorem frame_put {e : Addr} (hu : h.uses e = 0) {c : RcBox α} (hc : h.cell e = some c) (c' : Option (RcBox α))
    {b : Addr} {nd : Node α} (d : Den h b nd) (hb : b ≠ e) : Den (h.put e c') b nd := by
  refine d.frame (S := fun x => x = e) (fun b n en hb => ?_) (fun b n en => kid_ne hu en) hb
  rw [Heap.node, Heap.cell_put (Heap.cell_lt hc), if_neg (fun h => hb h.symm)]
  exact en

theorem free_ok {a : Addr} {P : Body α (Addr × Node α)} (w : World h (has (a, (P.map Prod.snd).node) + F))
    (hP : ∀ p ∈ P.kids, Den h p.1 p.2)
    (e : h.cell a = some { count := 1, node := P.map Prod.fst }) : World (h.put a none) (own P.kids + F) := by
  obtain ⟨hr, hu⟩ := w.sole (Heap.count_of_cell e) (by rw [refs_add, refs_has, if_pos rfl]; omega)
  have hF : F.refs a = 0 := by rw [refs_add, refs_has, if_pos rfl] at hr; omega
  have huses : ∀ b, (h.put a none).uses b + (P.kids.map Prod.fst).count b = h.uses b := by
    intro b
    have := Heap.uses_put e none b
    rw [Body.kids_map] at this
    simpa [Heap.kidsOf] using this
  have hne : ∀ {b s}, (b, s) ∈ F → b ≠ a := by
    intro b s hm hb
    subst hb
    have := refs_pos hm
    omega
  have hkne : ∀ p ∈ P.kids, p.1 ≠ a := fun p hp =>
    kid_ne hu (Heap.node_of_cell e) p.1 (by rw [Body.kids_map]; exact List.mem_map_of_mem hp)
  refine ⟨fun b => ?_, fun b c' e' => ?_, fun b n e' => ?_, fun b nd' hm => ?_, fun b hm => ?_⟩
  · have := w.counts b
    have hub := huses b
    rw [refs_add, refs_has] at this
    rw [refs_add, refs_own, Heap.count, Heap.cell_put (Heap.cell_lt e)]
    by_cases hb : a = b
    · subst hb
      rw [if_pos rfl]
      simp
      omega
    · rw [if_neg (fun h => hb h.symm)] at this
      rw [if_neg hb]
      rw [Heap.count] at this
      omega
  · rw [Heap.cell_put (Heap.cell_lt e)] at e'
    split at e'
    · cases e'
    · exact w.pos b c' e'
  · rw [Heap.node, Heap.cell_put (Heap.cell_lt e)] at e'
    split at e'
    · cases e'
    next hb =>
      obtain ⟨nd', d'⟩ := w.den b n e'
      exact ⟨nd', frame_put hu e _ d' (fun h => hb h.symm)⟩
  · rcases Multiset.mem_add.1 hm with hm | hm
    · rw [mem_own] at hm
      exact frame_put hu e _ (hP _ hm) (hkne _ hm)
    · exact frame_put hu e _ (w.mem b nd' (Multiset.mem_add.2 (.inr hm))) (hne hm)
  · rcases Multiset.mem_add.1 hm with hm | hm
    · exact absurd hm not_mem_own
    · rw [Heap.cell_put (Heap.cell_lt e), if_neg (fun h => hne hm h.symm)]
      exact w.hole b (Multiset.mem_add.2 (.inr hm))

theorem den_emptyLeaf {a : Addr} (e : h.node a = some Body.emptyLeaf) : Den h a Node.emptyLeaf :=
  .mk (P := Body.emptyLeaf) e (by intro p hp; simp [Body.emptyLeaf, Body.kids] at hp)

theorem take_ok {a : Addr} {P : Body α (Addr × Node α)} (w : World h (has (a, (P.map Prod.snd).node) + F))
    (hP : ∀ p ∈ P.kids, Den h p.1 p.2)
    (e : h.cell a = some { count := 1, node := P.map Prod.fst }) :
    World (h.put a (some { count := 1, node := Body.emptyLeaf })) (Librrb.hole a + own P.kids + F) := by
  obtain ⟨hr, hu⟩ := w.sole (Heap.count_of_cell e) (by rw [refs_add, refs_has, if_pos rfl]; omega)
  have hF : F.refs a = 0 := by rw [refs_add, refs_has, if_pos rfl] at hr; omega
  have huses : ∀ b, (h.put a (some { count := 1, node := Body.emptyLeaf })).uses b + (P.kids.map Prod.fst).count b =
      h.uses b := by
    intro b
    have := Heap.uses_put e (some { count := 1, node := Body.emptyLeaf }) b
    rw [Body.kids_map] at this
    simpa [Heap.kidsOf, Body.emptyLeaf, Body.kids] using this
  have hne : ∀ {b s}, (b, s) ∈ F → b ≠ a := by
    intro b s hm hb
    subst hb
    have := refs_pos hm
    omega
  have hkne : ∀ p ∈ P.kids, p.1 ≠ a := fun p hp =>
    kid_ne hu (Heap.node_of_cell e) p.1 (by rw [Body.kids_map]; exact List.mem_map_of_mem hp)
  have hself : (h.put a (some { count := 1, node := Body.emptyLeaf })).cell a =
      some { count := 1, node := Body.emptyLeaf } := by
    rw [Heap.cell_put (Heap.cell_lt e), if_pos rfl]
  refine ⟨fun b => ?_, fun b c' e' => ?_, fun b n e' => ?_, fun b nd' hm => ?_, fun b hm => ?_⟩
  · have := w.counts b
    have hub := huses b
    rw [refs_add, refs_has] at this
    rw [refs_add, refs_add, refs_own, refs_hole, Heap.count, Heap.cell_put (Heap.cell_lt e)]
    by_cases hb : a = b
    · subst hb
      rw [if_pos rfl, if_pos rfl]
      rw [Heap.count_of_cell e] at this
      simp at this ⊢
      omega
    · rw [if_neg (fun h => hb h.symm)] at this
      rw [if_neg hb, if_neg (fun h => hb h.symm)]
      rw [Heap.count] at this
      omega
  · rw [Heap.cell_put (Heap.cell_lt e)] at e'
    split at e'
    · cases e'; exact Nat.le_refl 1
    · exact w.pos b c' e'
  · by_cases hb : b = a
    · subst hb
      exact ⟨_, den_emptyLeaf (Heap.node_of_cell hself)⟩
    · rw [Heap.node, Heap.cell_put (Heap.cell_lt e), if_neg (fun h => hb h.symm)] at e'
      obtain ⟨nd', d'⟩ := w.den b n e'
      exact ⟨nd', frame_put hu e _ d' hb⟩
  · rcases Multiset.mem_add.1 hm with hm | hm
    · rcases Multiset.mem_add.1 hm with hm | hm
      · rw [mem_hole] at hm; cases hm
      · rw [mem_own] at hm
        exact frame_put hu e _ (hP _ hm) (hkne _ hm)
    · exact frame_put hu e _ (w.mem b nd' (Multiset.mem_add.2 (.inr hm))) (hne hm)
  · rcases Multiset.mem_add.1 hm with hm | hm
    · rcases Multiset.mem_add.1 hm with hm | hm
      · rw [mem_hole] at hm; cases hm; exact hself
      · exact absurd hm not_mem_own
    · rw [Heap.cell_put (Heap.cell_lt e), if_neg (fun h => hne hm h.symm)]
      exact w.hole b (Multiset.mem_add.2 (.inr hm))

theorem give_ok {a : Addr} {P : Body α (Addr × Node α)} (w : World h (Librrb.hole a + own P.kids + F)) :
    World (h.put a (some { count := 1, node := P.map Prod.fst })) (has (a, (P.map Prod.snd).node) + F) := by
  have e := w.hole a (by simp)
  obtain ⟨hr, hu⟩ := w.sole (Heap.count_of_cell e) (by rw [refs_add, refs_add, refs_hole, if_pos rfl]; omega)
  have hr' : (own P.kids).refs a = 0 ∧ F.refs a = 0 := by
    rw [refs_add, refs_add, refs_hole, if_pos rfl] at hr; omega
  have huses : ∀ b, (h.put a (some { count := 1, node := P.map Prod.fst })).uses b =
      h.uses b + (P.kids.map Prod.fst).count b := by
    intro b
    have := Heap.uses_put e (some { count := 1, node := P.map Prod.fst }) b
    simpa [Heap.kidsOf, Body.emptyLeaf, Body.kids_map, show (Body.leaf CB.new : Body α Addr).kids = [] from rfl] using this
  have hne : ∀ {b s}, (b, s) ∈ F → b ≠ a := by
    intro b s hm hb
    subst hb
    have := refs_pos hm
    omega
  have hkne : ∀ p ∈ P.kids, p.1 ≠ a := by
    intro p hp hb
    have := refs_pos (mem_own.2 (show (p.1, p.2) ∈ P.kids from hp))
    rw [hb] at this
    omega
  have hnew : Den (h.put a (some { count := 1, node := P.map Prod.fst })) a (P.map Prod.snd).node := by
    refine .mk P ?_ fun p hp => ?_
    · rw [Heap.node, Heap.cell_put (Heap.cell_lt e), if_pos rfl]; rfl
    · exact frame_put hu e _ (w.mem p.1 p.2 (by simp [mem_own, hp])) (hkne p hp)
  refine ⟨fun b => ?_, fun b c' e' => ?_, fun b n e' => ?_, fun b nd' hm => ?_, fun b hm => ?_⟩
  · have := w.counts b
    rw [refs_add, refs_add, refs_own, refs_hole] at this
    rw [refs_add, refs_has, huses, Heap.count, Heap.cell_put (Heap.cell_lt e)]
    by_cases hb : a = b
    · subst hb
      rw [if_pos rfl]
      rw [Heap.count_of_cell e, if_pos rfl] at this
      simp at this ⊢
      omega
    · rw [if_neg (fun h => hb h.symm)] at this
      rw [if_neg hb, if_neg (fun h => hb h.symm)]
      rw [Heap.count] at this
      omega
  · rw [Heap.cell_put (Heap.cell_lt e)] at e'
    split at e'
    · cases e'; exact Nat.le_refl 1
    · exact w.pos b c' e'
  · by_cases hb : b = a
    · subst hb
      exact ⟨_, hnew⟩
    · rw [Heap.node, Heap.cell_put (Heap.cell_lt e), if_neg (fun h => hb h.symm)] at e'
      obtain ⟨nd', d'⟩ := w.den b n e'
      exact ⟨nd', frame_put hu e _ d' hb⟩
  · rcases Multiset.mem_add.1 hm with hm | hm
    · rw [mem_has] at hm; cases hm; exact hnew
    · exact frame_put hu e _ (w.mem b nd' (Multiset.mem_add.2 (.inr hm))) (hne hm)
  · rcases Multiset.mem_add.1 hm with hm | hm
    · rw [mem_has] at hm; cases hm
    · rw [Heap.cell_put (Heap.cell_lt e), if_neg (fun h => hne hm h.symm)]
      exact w.hole b (Multiset.mem_add.2 (.inr hm))

end World
end Librrb
