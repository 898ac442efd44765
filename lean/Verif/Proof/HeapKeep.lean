import Verif.Proof.HeapNat
import Verif.Model.Threads
import Mathlib.Algebra.Order.Group.Multiset

/-!
# What other threads leave alone

`Kept L h h'`: whoever owns `L` finds in `h'` all that it relies on in `h`: the nodes that can be reached from `L`,
and that the nodes which it alone owns are not shared.
-/
namespace Librrb

/-- From `a` through the slots `π` to `b`, and every node on the way has one owner. -/
inductive UPath (h : Heap α) : Addr → List Nat → Addr → Prop where
  | nil {a : Addr} (e : h.count a = 1) : UPath h a [] a
  | cons {a : Addr} {i : Nat} {π : List Nat} {k b : Addr} {s t} {c : CB Addr} (e1 : h.count a = 1)
      (e : h.node a = some (.internal s t c)) (ek : c.data[i]? = some (some k)) (r : UPath h k π b) : UPath h a (i :: π) b

namespace UPath

variable {h h' : Heap α} {a b : Addr} {π : List Nat}

theorem count_start (u : UPath h a π b) : h.count a = 1 := by cases u <;> assumption

theorem count_end (u : UPath h a π b) : h.count b = 1 := by
  induction u with
  | nil e => exact e
  | cons _ _ _ _ ih => exact ih

theorem snoc (u : UPath h a π b) {i : Nat} {k : Addr} {s t} {c : CB Addr} (e : h.node b = some (.internal s t c))
    (ek : c.data[i]? = some (some k)) (e1 : h.count k = 1) : UPath h a (π ++ [i]) k := by
  induction u with
  | nil e0 => exact .cons e0 e ek (.nil e1)
  | cons e0 e' ek' _ ih => exact .cons e0 e' ek' (ih e)

/-- A way is kept if its nodes are. -/
theorem keep {I : Addr → Prop} (hI : ∀ x, I x → h.count x = 1 → h'.count x = 1)
    (hN : ∀ (x : Addr) (s : SizeTable) (t : Tag) (c : CB Addr) (i : Nat) (k : Addr), I x → h.count x = 1 → h.node x = some (.internal s t c) → c.data[i]? = some (some k) →
      h.count k = 1 → I k ∧ ∃ c', h'.node x = some (.internal s t c') ∧ c'.data[i]? = some (some k))
    (u : UPath h a π b) : I a → UPath h' a π b := by
  induction u with
  | nil e => intro ha; exact .nil (hI _ ha e)
  | cons e1 e ek r ih =>
    intro ha
    obtain ⟨hk, c', e', ek'⟩ := hN _ _ _ _ _ _ ha e1 e ek r.count_start
    exact .cons (hI _ ha e1) e' ek' (ih hk)

end UPath

/-- All ways from these entries are kept. -/
def Later (E : Addr → Prop) (h h' : Heap α) : Prop := ∀ e, E e → ∀ ρ b, UPath h e ρ b → UPath h' e ρ b

theorem Later.refl (E : Addr → Prop) (h : Heap α) : Later E h h := fun _ _ _ _ u => u

theorem Later.trans {E : Addr → Prop} {h h1 h2 : Heap α} (a : Later E h h1) (b : Later E h1 h2) : Later E h h2 :=
  fun e he ρ x u => b e he ρ x (a e he ρ x u)

theorem Later.mono {E E' : Addr → Prop} {h h1 : Heap α} (a : Later E h h1) (hE : ∀ e, E' e → E e) : Later E' h h1 :=
  fun e he => a e (hE e he)

/-- The entries that are owned from outside. -/
def Ctx.starts (L : Ctx α) (e : Addr) : Prop := 1 ≤ L.refs e

namespace Heap

theorem mem_kids {c : CB κ} {i : Nat} {k : κ} {s t} (ek : c.data[i]? = some (some k)) :
    k ∈ (Body.internal s t c : Body α κ).kids := by
  show k ∈ c.data.filterMap id
  rw [List.mem_filterMap]
  exact ⟨some k, List.mem_of_getElem? ek, rfl⟩

theorem sum_two (f : β → Nat) : ∀ (l : List β) (i j : Nat) (x y : β), i < j → l[i]? = some x → l[j]? = some y →
    f x + f y ≤ (l.map f).sum
  | [], i, j, x, y, _, e, _ => by simp at e
  | z :: l, 0, j + 1, x, y, _, e1, e2 => by
    simp at e1
    subst e1
    have := le_sum_of_mem f l y (List.mem_of_getElem? (by simpa using e2))
    simp; omega
  | z :: l, i + 1, j + 1, x, y, hij, e1, e2 => by
    have := sum_two f l i j x y (by omega) (by simpa using e1) (by simpa using e2)
    simp; omega

/-- Two nodes that hold the same entry. -/
theorem uses_two {h : Heap α} {x y k : Addr} {n m : Body α Addr} (hxy : x ≠ y) (ex : h.node x = some n)
    (ey : h.node y = some m) (hn : k ∈ n.kids) (hm : k ∈ m.kids) : 2 ≤ h.uses k := by
  obtain ⟨c, ec, rfl⟩ := exists_cell ex
  obtain ⟨d, ed, rfl⟩ := exists_cell ey
  have h1 := List.one_le_count_iff.2 hn
  have h2 := List.one_le_count_iff.2 hm
  have e1 := getElem?_of_cell ec
  have e2 := getElem?_of_cell ed
  have key := sum_two (fun c : Option (RcBox α) => (kidsOf c).count k) h.cells
  rcases Nat.lt_or_gt_of_ne hxy with hl | hl
  · have := key x y _ _ hl e1 e2
    simp only [kidsOf, Option.map_some, Option.getD_some] at this
    unfold uses kidsOf; omega
  · have := key y x _ _ hl e2 e1
    simp only [kidsOf, Option.map_some, Option.getD_some] at this
    unfold uses kidsOf; omega

theorem put_comm {h : Heap α} {a b : Addr} (hab : a ≠ b) (x y : Option (RcBox α)) :
    (h.put a x).put b y = (h.put b y).put a x := by
  unfold put
  rw [List.set_comm _ _ hab]

theorem put_put (h : Heap α) (a : Addr) (x y : Option (RcBox α)) : (h.put a x).put a y = h.put a y := by
  unfold put
  rw [List.set_set]

theorem node_put {h : Heap α} {a : Addr} {c : RcBox α} (e : h.cell a = some c) (c' : RcBox α) (b : Addr) :
    (h.put a (some c')).node b = if a = b then some c'.node else h.node b := by
  rw [node, cell_put (cell_lt e)]
  split <;> rfl

theorem count_put {h : Heap α} {a : Addr} {c : RcBox α} (e : h.cell a = some c) (c' : RcBox α) (b : Addr) :
    (h.put a (some c')).count b = if a = b then c'.count else h.count b := by
  rw [count, cell_put (cell_lt e)]
  split <;> rfl

theorem exists_cell_count {h : Heap α} {a : Addr} (e : 1 ≤ h.count a) : ∃ c, h.cell a = some c := by
  cases hc : h.cell a with
  | none => rw [count, hc] at e; simp at e
  | some c => exact ⟨c, rfl⟩

end Heap

/-! ### Reaching nodes -/

/-- From `a` down to `b`. -/
inductive Reach (h : Heap α) : Addr → Addr → Prop where
  | refl (a : Addr) : Reach h a a
  | cons {a k b : Addr} {n : Body α Addr} (e : h.node a = some n) (hk : k ∈ n.kids) (r : Reach h k b) : Reach h a b

theorem Reach.trans {h : Heap α} {a b c : Addr} (r : Reach h a b) (s : Reach h b c) : Reach h a c := by
  induction r with
  | refl => exact s
  | cons e hk _ ih => exact .cons e hk (ih s)

/-- What can be reached from owned entries. -/
def Ctx.reach (L : Ctx α) (h : Heap α) (b : Addr) : Prop := ∃ a, L.starts a ∧ Reach h a b

theorem Ctx.starts_of_mem {L : Ctx α} {a : Addr} {s : Option (Node α)} (hm : (a, s) ∈ L) : L.starts a := refs_pos hm

theorem Ctx.starts_add {L M : Ctx α} {a : Addr} : (L + M).starts a ↔ L.starts a ∨ M.starts a := by
  unfold Ctx.starts
  rw [refs_add]
  omega

theorem Ctx.reach_start {L : Ctx α} {h : Heap α} {a : Addr} (s : L.starts a) : L.reach h a := ⟨a, s, .refl a⟩

theorem Ctx.reach_kid {L : Ctx α} {h : Heap α} {a k : Addr} {n : Body α Addr} (r : L.reach h a) (e : h.node a = some n)
    (hk : k ∈ n.kids) : L.reach h k := by
  obtain ⟨s, hs, r⟩ := r
  exact ⟨s, hs, r.trans (.cons e hk (.refl k))⟩

theorem Ctx.reach_mono {L M : Ctx α} {h : Heap α} {a : Addr} (hLM : ∀ x, L.starts x → M.starts x) (r : L.reach h a) : M.reach h a := by
  obtain ⟨s, hs, r⟩ := r
  exact ⟨s, hLM s hs, r⟩

/-- What is reached is owned from outside, or is a child of something reached. -/
theorem Ctx.reach_inv {L : Ctx α} {h : Heap α} {b : Addr} (r : L.reach h b) :
    L.starts b ∨ ∃ x n, L.reach h x ∧ h.node x = some n ∧ b ∈ n.kids := by
  obtain ⟨a, ha, r⟩ := r
  have : ∀ {a b}, Reach h a b → L.reach h a → (a = b ∨ ∃ x n, L.reach h x ∧ h.node x = some n ∧ b ∈ n.kids) := by
    intro a b r
    induction r with
    | refl => exact fun _ => .inl rfl
    | @cons a k b n e hk r ih =>
      intro ra
      rcases ih (Ctx.reach_kid ra e hk) with rfl | h
      · exact .inr ⟨a, n, ra, e, hk⟩
      · exact .inr h
  rcases this r (Ctx.reach_start ha) with rfl | h
  · exact .inl ha
  · exact .inr h

/-- Nothing but its owner reaches a node with one owner. -/
theorem World.sole_reach {h : Heap α} {L F : Ctx α} (w : World h (L + F)) {a : Addr} (hs : L.starts a) (h1 : h.count a = 1) :
    ¬ F.reach h a := by
  have hs : 1 ≤ L.refs a := hs
  have hc := w.counts a
  rw [refs_add] at hc
  intro r
  rcases Ctx.reach_inv r with r | ⟨x, n, -, e, hk⟩
  · have : 1 ≤ F.refs a := r
    omega
  · have := World.used_of_kid e hk
    omega

/-- Nothing else reaches the nodes on an unshared way. -/
theorem World.path_reach {h : Heap α} {L F : Ctx α} (w : World h (L + F)) {a b : Addr} {π : List Nat} (u : UPath h a π b)
    (hs : L.starts a) : ¬ F.reach h b := by
  have : ¬ F.reach h a := w.sole_reach hs u.count_start
  clear hs
  induction u with
  | nil e => exact this
  | @cons a i π k b s t c e1 e ek r ih =>
    refine ih fun rk => ?_
    have hk := r.count_start
    have hc := w.counts k
    rw [refs_add] at hc
    have hu := World.used_of_kid e (Heap.mem_kids ek)
    rcases Ctx.reach_inv rk with rk | ⟨x, n, rx, ex, hkx⟩
    · have : 1 ≤ F.refs k := rk
      omega
    · have hxa : x ≠ a := by rintro rfl; exact this rx
      have := Heap.uses_two hxa ex e hkx (Heap.mem_kids ek)
      omega

theorem Ctx.reach_keep {L : Ctx α} {h h1 : Heap α} (hn : ∀ b n, L.reach h b → h.node b = some n → h1.node b = some n)
    {b : Addr} (r : L.reach h b) : L.reach h1 b := by
  obtain ⟨a, ha, r⟩ := r
  have : ∀ {a b}, Reach h a b → L.reach h a → Reach h1 a b := by
    intro a b r
    induction r with
    | refl => exact fun _ => .refl _
    | cons e hk _ ih => exact fun ra => .cons (hn _ _ ra e) hk (ih (Ctx.reach_kid ra e hk))
  exact ⟨a, ha, this r (Ctx.reach_start ha)⟩

theorem Den.keep {L : Ctx α} {h h1 : Heap α} (hn : ∀ b n, L.reach h b → h.node b = some n → h1.node b = some n)
    {a : Addr} {nd : Node α} (d : Den h a nd) (r : L.reach h a) : Den h1 a nd := by
  induction d with
  | mk P e _ ih =>
    refine .mk P (hn _ _ r e) fun p hp => ih p hp (Ctx.reach_kid r e ?_)
    rw [Body.kids_map]
    exact List.mem_map_of_mem hp

/-- See the header. -/
structure Kept (L : Ctx α) (h h' : Heap α) : Prop where
  node : ∀ b n, L.reach h b → h.node b = some n → h'.node b = some n
  later : Later L.starts h h'

namespace Kept

variable {L F : Ctx α} {h h1 h2 : Heap α}

theorem refl (L : Ctx α) (h : Heap α) : Kept L h h := ⟨fun _ _ _ e => e, Later.refl _ _⟩

theorem reach (k : Kept L h h1) {b : Addr} (r : L.reach h b) : L.reach h1 b := Ctx.reach_keep k.node r

theorem trans (a : Kept L h h1) (b : Kept L h1 h2) : Kept L h h2 :=
  ⟨fun x n r e => b.node x n (a.reach r) (a.node x n r e), a.later.trans b.later⟩

theorem mono {M : Ctx α} (k : Kept L h h1) (hLM : ∀ x, M.starts x → L.starts x) : Kept M h h1 :=
  ⟨fun b n r e => k.node b n (Ctx.reach_mono hLM r) e, k.later.mono hLM⟩

theorem left (k : Kept (L + F) h h1) : Kept L h h1 := k.mono fun _ hx => Ctx.starts_add.2 (.inl hx)

theorem right (k : Kept (L + F) h h1) : Kept F h h1 := k.mono fun _ hx => Ctx.starts_add.2 (.inr hx)

theorem one (k : Kept L h h1) {a : Addr} (hs : L.starts a) (e : h.count a = 1) : h1.count a = 1 :=
  (k.later a hs [] a (.nil e)).count_end

theorem den (k : Kept L h h1) {a : Addr} {nd : Node α} (d : Den h a nd) (r : L.reach h a) : Den h1 a nd := d.keep k.node r

/-- What the others have is kept by a step that changes nodes only at the end of unshared ways from what it owns, and
counts only of what it can reach. -/
theorem of_step (w : World h (L + F))
    (hn : ∀ b n, h.node b = some n → h1.node b = some n ∨ ∃ e π, L.starts e ∧ UPath h e π b)
    (hc : ∀ b, h.count b = 1 → h1.count b = 1 ∨ L.reach h b) : Kept F h h1 := by
  have hn' : ∀ b n, F.reach h b → h.node b = some n → h1.node b = some n := by
    intro b n r e
    rcases hn b n e with h' | ⟨e, π, h1, u⟩
    · exact h'
    · exact absurd r (w.path_reach u h1)
  refine ⟨hn', fun a ha ρ b u => ?_⟩
  have w' : World h (F + L) := by rw [add_comm]; exact w
  have hcnt : ∀ {ρ b}, UPath h a ρ b → h1.count b = 1 := by
    intro ρ b u
    exact (hc b u.count_end).resolve_right (w'.path_reach u ha)
  have key : ∀ {x ρ b}, UPath h x ρ b → ∀ {σ}, UPath h a σ x → F.reach h x → UPath h1 x ρ b := by
    intro x ρ b u
    induction u with
    | nil e => exact fun v _ => .nil (hcnt v)
    | cons e1 e ek r ih =>
      intro σ v rx
      exact .cons (hcnt v) (hn' _ _ rx e) ek (ih (v.snoc e ek r.count_start) (Ctx.reach_kid rx e (Heap.mem_kids ek)))
  exact key u (.nil u.count_start) (Ctx.reach_start ha)

end Kept
end Librrb
