import Verif.Proof.HeapCostCalls
import Verif.Props.Clone

/-!
# Calls that leave everything as it is: lemmas
-/
namespace Librrb
open RVec

variable {α : Type}

/-- The calls that take the vectors by `&self` and only look at them. -/
def Call.Looks : Call α → Prop
  | .act _ .len | .act _ .isEmpty | .act _ (.get _) | .act _ .front | .act _ .back | .act _ (.iterate _)
  | .act _ (.focusRead _) | .compare _ _ _ => True
  | _ => False

/-- A call that ends with what it returns from reading. -/
theorem still_end {γ δ : Type} {x : HM α γ} (hx : Still x) {f : γ → δ} {h h' : Heap α} {d : δ}
    (e : (x >>= fun a => (pure (f a) : HM α δ)) h = .ok (d, h')) : h' = h ∧ ∃ a, d = f a := by
  obtain ⟨a, h1, e1, e2⟩ := hm_bind_inv e
  have := hx.run _ _ _ e1
  subst this
  cases e2
  exact ⟨rfl, a, rfl⟩

/-- What looks at a vector leaves it, and the heap. -/
theorem act_looks {a : Act α} {i : Nat} (hl : (Call.act i a).Looks) {v : HVec} {h h' : Heap α} {r : Answer α × HVec × List HVec}
    (e : a.hrun v h = .ok (r, h')) : h' = h ∧ r.2 = (v, []) := by
  cases a <;> simp only [Call.Looks] at hl
  case len => cases e; exact ⟨rfl, rfl⟩
  case isEmpty => cases e; exact ⟨rfl, rfl⟩
  case get k =>
    obtain ⟨rfl, x, rfl⟩ := still_end (HVec.get_still v k) e
    exact ⟨rfl, rfl⟩
  case front =>
    obtain ⟨rfl, x, rfl⟩ := still_end (HVec.frontBack_still v _) e
    exact ⟨rfl, rfl⟩
  case back =>
    obtain ⟨rfl, x, rfl⟩ := still_end (HVec.frontBack_still v _) e
    exact ⟨rfl, rfl⟩
  case iterate script =>
    obtain ⟨it, h1, e1, e2⟩ := hm_bind_inv e
    have := (HVIter.new_still v).run _ _ _ e1
    subst this
    obtain ⟨rfl, x, rfl⟩ := still_end (HVIter.run_still script it) e2
    exact ⟨rfl, rfl⟩
  case focusRead is =>
    obtain ⟨f, h1, e1, e2⟩ := hm_bind_inv e
    have := (HFocus.new_still v).run _ _ _ e1
    subst this
    obtain ⟨rfl, x, rfl⟩ := still_end (hrunAll_still (fun i f => HFocus.get_still f i) is f) e2
    exact ⟨rfl, rfl⟩

theorem set_self {β : Type} {l : List β} {i : Nat} {x : β} (h : l[i]? = some x) : l.set i x = l := by
  obtain ⟨hi, rfl⟩ := List.getElem?_eq_some_iff.1 h
  exact List.set_getElem_self hi

/-- A pop that takes nothing only looks. -/
theorem pop_none {v : HVec} {s : Side} {h h' : Heap α} {p : Option α × HVec} (e0 : v.popSide s h = .ok (p, h')) (hp : p.1 = none) :
    p.2 = v ∧ h' = h := by
  unfold HVec.popSide at e0
  obtain ⟨_, h1, e1, e2⟩ := hm_bind_inv e0
  cases (Still.lift _).run _ _ _ e1
  split at e2
  · obtain ⟨b, h2, e3, e4⟩ := hm_bind_inv e2
    cases (Entry.isEmpty_still _).run _ _ _ e3
    split at e4
    · obtain ⟨_, _, -, e5⟩ := hm_bind_inv e4
      obtain ⟨_, _, -, e6⟩ := hm_bind_inv e5
      cases e6
      cases hp
    · cases e4
      exact ⟨rfl, rfl⟩
  · obtain ⟨_, _, -, e3⟩ := hm_bind_inv e2
    obtain ⟨_, _, -, e4⟩ := hm_bind_inv e3
    obtain ⟨_, _, -, e5⟩ := hm_bind_inv e4
    obtain ⟨_, _, -, e6⟩ := hm_bind_inv e5
    cases e6
    cases hp

/-- An assignment that finds no place only looks. -/
theorem set_none {v : HVec} {k : Nat} {x : α} {h h' : Heap α} {p : Bool × HVec} (e0 : v.set k x h = .ok (p, h')) (hp : p.1 = false) :
    p.2 = v ∧ h' = h := by
  unfold HVec.set at e0
  obtain ⟨o, h1, e1, e2⟩ := hm_bind_inv e0
  cases (HVec.findNodeInfoForIndex_still v k).run _ _ _ e1
  cases o with
  | none =>
    cases e2
    exact ⟨rfl, rfl⟩
  | some o =>
    obtain ⟨_, _, -, e3⟩ := hm_bind_inv e2
    obtain ⟨_, _, -, e4⟩ := hm_bind_inv e3
    obtain ⟨_, _, -, e5⟩ := hm_bind_inv e4
    cases e5
    cases hp

/-! ### Clones that are dropped -/

/-- The heap with more owners. -/
def Heap.bump (h : Heap α) (f : Nat → Nat) : Heap α :=
  { cells := h.cells.mapIdx fun i c => c.map fun b => { b with count := b.count + f i } }

theorem Heap.bump_zero (h : Heap α) : h.bump (fun _ => 0) = h := by
  cases h with
  | mk cells =>
    simp only [Heap.bump, Nat.add_zero, Heap.mk.injEq]
    refine List.ext_getElem? fun i => ?_
    rw [List.getElem?_mapIdx]
    cases cells[i]? with
    | none => rfl
    | some c => cases c <;> rfl

theorem Heap.cell_bump {h : Heap α} {f : Nat → Nat} {a : Addr} {c : RcBox α} (e : h.cell a = some c) :
    (h.bump f).cell a = some { c with count := c.count + f a } := by
  simp only [Heap.cell, Heap.bump, List.getElem?_mapIdx] at e ⊢
  cases ha : h.cells[a]? with
  | none => simp [ha] at e
  | some o =>
    cases o with
    | none => simp [ha] at e
    | some o =>
      rw [ha] at e
      cases e
      rfl

theorem Heap.put_bump {h : Heap α} {f g : Nat → Nat} {a : Addr} {c : RcBox α} (e : h.cell a = some c) (hg : ∀ b, b ≠ a → g b = f b) :
    (h.bump f).put a (some { c with count := c.count + g a }) = h.bump g := by
  simp only [Heap.put, Heap.bump, Heap.mk.injEq]
  refine List.ext_getElem? fun i => ?_
  rw [List.getElem?_set]
  simp only [List.getElem?_mapIdx, List.length_mapIdx]
  by_cases hi : a = i
  · subst hi
    simp only [Heap.cell] at e
    cases ha : h.cells[a]? with
    | none => simp [ha] at e
    | some o =>
      have hlt := (List.getElem?_eq_some_iff.1 ha).1
      rw [ha] at e
      rw [if_pos rfl, if_pos hlt]
      have e' : o = some c := e
      rw [e']
      rfl
  · rw [if_neg hi]
    cases h.cells[i]? with
    | none => rfl
    | some o => simp only [Option.map_some, hg i (fun hh => hi hh.symm)]

theorem cloneEntries_bump {h : Heap α} : ∀ (as : List Addr) (f : Nat → Nat), (∀ a ∈ as, ∃ c, h.cell a = some c) →
    cloneEntries as (h.bump f) = .ok ((), h.bump fun b => f b + as.count b) ∧
      (h.bump fun b => f b + as.count b).total = (h.bump f).total + as.length
  | [], f, _ => ⟨rfl, rfl⟩
  | a :: as, f, live => by
    obtain ⟨c, ec⟩ := live a (by simp)
    have eb := Heap.cell_bump (f := f) ec
    have ep := Heap.put_bump (f := f) (g := fun b => f b + if b = a then 1 else 0) ec (fun b hb => by simp [hb])
    simp only [if_pos] at ep
    obtain ⟨e1, t1⟩ := cloneEntries_bump (h := h) as (fun b => f b + if b = a then 1 else 0) (fun b hb => live b (by simp [hb]))
    have hf : (fun b => (f b + if b = a then 1 else 0) + as.count b) = fun b => f b + (a :: as).count b := by
      funext b
      rw [List.count_cons]
      by_cases hb : b = a
      · subst hb; simp; omega
      · simp [hb, Ne.symm hb]
    rw [hf] at e1 t1
    have ht := Heap.total_put eb (some { c with count := c.count + (f a + 1) })
    rw [ep] at ht
    simp only [Option.map_some, Option.getD_some] at ht
    refine ⟨?_, by rw [List.length_cons]; omega⟩
    show (cloneEntry a >>= fun _ => cloneEntries as) (h.bump f) = _
    rw [hm_bind (cloneEntry_run eb)]
    simp only [Nat.add_assoc] at ep ⊢
    rw [ep]
    exact e1

theorem dropLoop_bump {h : Heap α} : ∀ (as : List Addr) (fuel : Nat), as.length ≤ fuel →
    (∀ a ∈ as, ∃ c, h.cell a = some c ∧ 1 ≤ c.count) → dropLoop fuel as (h.bump fun b => as.count b) = .ok h
  | [], fuel, _, _ => by
    have : (h.bump fun b => List.count b []) = h := Heap.bump_zero h
    rw [this]
    cases fuel <;> rfl
  | a :: as, 0, hl, _ => by simp at hl
  | a :: as, fuel + 1, hl, live => by
    obtain ⟨c, ec, hc⟩ := live a (by simp)
    have eb := Heap.cell_bump (f := fun b => (a :: as).count b) ec
    have ep := Heap.put_bump (f := fun b => (a :: as).count b) (g := fun b => as.count b) ec
      (fun b hb => by rw [List.count_cons]; simp [Ne.symm hb])
    have h1 : ¬ c.count + (a :: as).count a ≤ 1 := by rw [List.count_cons_self]; omega
    have h2 : c.count + (a :: as).count a - 1 = c.count + as.count a := by rw [List.count_cons_self]; omega
    rw [dropLoop, Heap.release, eb]
    simp only [if_neg h1, h2]
    show dropLoop fuel ([] ++ as) _ = _
    rw [ep]
    exact dropLoop_bump as fuel (by simpa using hl) fun b hb => live b (by simp [hb])

/-- Cloning entries and dropping the clones leaves the heap as it was. -/
theorem clone_drop {h : Heap α} (as : List Addr) (live : ∀ a ∈ as, ∃ c, h.cell a = some c ∧ 1 ≤ c.count) :
    ∃ h', cloneEntries as h = .ok ((), h') ∧ dropEntries as h' = .ok ((), h) := by
  obtain ⟨e, t⟩ := cloneEntries_bump (h := h) as (fun _ => 0) (fun a ha => let ⟨c, hc, _⟩ := live a ha; ⟨c, hc⟩)
  simp only [Heap.bump_zero, Nat.zero_add] at e t
  exact ⟨_, e, dropEntries_run (dropLoop_bump as _ (by omega) live)⟩

/-- A new vector that is dropped: its leaf is made and freed. -/
theorem new_drop (h : Heap α) : ∃ (v : HVec) (h' : Heap α), HVec.new h = .ok (v, h') ∧
    v.drop h' = .ok ((), { cells := h.cells ++ [none] }) := by
  refine ⟨_, _, rfl, ?_⟩
  have ec : ({ cells := h.cells ++ [some { count := 1, node := Body.emptyLeaf }] } : Heap α).cell h.cells.length =
      some { count := 1, node := Body.emptyLeaf } := by simp [Heap.cell]
  have ht := Heap.count_le_total ec
  refine dropEntries_run ?_
  obtain ⟨n, hn⟩ : ∃ n, ({ cells := h.cells ++ [some { count := 1, node := Body.emptyLeaf }] } : Heap α).total = n + 1 :=
    Nat.exists_eq_add_one_of_ne_zero (by simp only at ht; omega)
  rw [hn]
  show dropLoop (n + 1) [h.cells.length] _ = _
  rw [dropLoop, Heap.release, ec]
  show dropLoop n [] _ = _
  have : (({ cells := h.cells ++ [some { count := 1, node := Body.emptyLeaf }] } : Heap α).put h.cells.length none) =
      { cells := h.cells ++ [none] } := by simp [Heap.put]
  rw [this]
  cases n <;> rfl

/-! ### Nodes that are copied -/

theorem dropLoop_length : ∀ (fuel : Nat) (as : List Addr) {h h' : Heap α}, dropLoop fuel as h = .ok h' → h'.cells.length = h.cells.length
  | fuel, [], h, h', e => by
    cases fuel <;> (cases e; rfl)
  | 0, a :: as, h, h', e => by cases e
  | fuel + 1, a :: as, h, h', e => by
    unfold dropLoop at e
    obtain ⟨r, hr, e⟩ := bind_ok e
    refine (dropLoop_length fuel _ e).trans ?_
    unfold Heap.release at hr
    split at hr
    · cases hr
    · split at hr <;> (cases hr; simp [Heap.put])

/-- Addresses are never given back. -/
theorem HM.grows (x : HM α γ) : ∀ {h h' : Heap α} {r : γ}, x h = .ok (r, h') → h.cells.length ≤ h'.cells.length := by
  induction x with
  | ret g => intro h h' r e; cases e; exact Nat.le_refl _
  | fail f => intro h h' r e; cases e
  | load a k ih =>
    intro h h' r e
    simp only [HM.run] at e
    split at e
    · exact ih _ e
    · cases e
  | isOne a k ih =>
    intro h h' r e
    simp only [HM.run] at e
    split at e
    · exact ih _ e
    · cases e
  | incr a x ih =>
    intro h h' r e
    simp only [HM.run] at e
    split at e
    · have := ih e
      simpa [Heap.put] using this
    · cases e
  | alloc n k ih =>
    intro h h' r e
    simp only [HM.run] at e
    have := ih _ e
    simp at this
    omega
  | drop as x ih =>
    intro h h' r e
    simp only [HM.run] at e
    split at e
    · rename_i hd
      have := ih e
      rw [dropLoop_length _ _ hd] at this
      exact this
    · cases e
  | poke a f k ih =>
    intro h h' r e
    simp only [HM.run] at e
    split at e
    · have := ih _ e
      simpa [Heap.put] using this
    · cases e

/-- A node with two owners is copied by `load_mut`. -/
theorem loadMut_copies {h h' : Heap α} {a b : Addr} {c : RcBox α} (ec : h.cell a = some c) (hc : 2 ≤ c.count)
    (e : loadMut a h = .ok (b, h')) : h.cells.length < h'.cells.length := by
  unfold loadMut at e
  rw [hm_bind (isOne_ok ec), if_neg (by simp; omega)] at e
  obtain ⟨n, h1, e1, e⟩ := hm_bind_inv e
  obtain ⟨_, h2, e2, e⟩ := hm_bind_inv e
  obtain ⟨d, h3, e3, e⟩ := hm_bind_inv e
  have g1 := HM.grows _ e1
  have g2 := HM.grows _ e2
  have g4 := HM.grows _ e
  cases e3
  simp at g4
  omega

theorem borrowNode_copies {h h' : Heap α} {a : Addr} {r : Addr × HNode} {c : RcBox α} (ec : h.cell a = some c) (hc : 2 ≤ c.count)
    (e : Entry.borrowNode a h = .ok (r, h')) : h.cells.length < h'.cells.length := by
  unfold Entry.borrowNode at e
  obtain ⟨n, h1, e1, e⟩ := hm_bind_inv e
  exact Nat.lt_of_lt_of_le (loadMut_copies ec hc e1) (HM.grows _ e)

/-- `focus_mut` of a vector whose first leaf has items and two owners. -/
theorem focusMut_copies {h h' : Heap α} {v : HVec} {r : HVec × HFMut} {c : RcBox α} (ec : h.cell (v.leafNode .front) = some c)
    (hc : 2 ≤ c.count) (he : Entry.isEmpty (v.leafNode .front) h = .ok (false, h)) (e : v.focusMut h = .ok (r, h')) :
    h.cells.length < h'.cells.length := by
  obtain ⟨left, right, root, len⟩ := v
  unfold HVec.focusMut at e
  obtain ⟨l, h1, e1, e⟩ := hm_bind_inv e
  cases left with
  | nil =>
    cases e1
    have he' : Entry.isEmpty root h = .ok (false, h) := he
    simp only at e
    rw [hm_bind he'] at e
    obtain ⟨m, h2, e2, e⟩ := hm_bind_inv e
    obtain ⟨b, h3, e3, e4⟩ := hm_bind_inv e2
    cases e4
    exact Nat.lt_of_lt_of_le (borrowNode_copies ec hc e3) (HM.grows _ e)
  | cons a rest =>
    have he' : Entry.isEmpty a h = .ok (false, h) := he
    simp only [HVec.borrowNodes] at e1
    rw [hm_bind he'] at e1
    obtain ⟨b, h2, e2, e3⟩ := hm_bind_inv e1
    exact Nat.lt_of_lt_of_le (borrowNode_copies ec hc e2) (Nat.le_trans (HM.grows _ e3) (HM.grows _ e))

/-- A leaf with a first item is not empty. -/
theorem nonempty_of_front {h h' : Heap α} {a : Addr} {x : α} {s : Side}
    (e : (load a >>= fun n => (n.leafEnd s : M (Option α))) h = .ok (some x, h')) : Entry.isEmpty a h = .ok (false, h) := by
  obtain ⟨n, h1, e1, e2⟩ := hm_bind_inv e
  have e3 := e1
  cases (show h1 = h from (load_still a).run _ _ _ e1)
  unfold Entry.isEmpty Entry.len
  cases n with
  | internal _ _ _ => cases e2
  | leaf b =>
    have hb : b.len ≠ 0 := by
      intro h0
      cases s <;> simp [Body.leafEnd, CB.get, h0] at e2 <;> cases e2
    have : Entry.len a h = .ok (b.len, h) := by
      unfold Entry.len
      rw [hm_bind e3]
      rfl
    unfold Entry.len at this
    rw [hm_bind this]
    have h0 : (b.len == 0) = false := by simpa using hb
    rw [h0]
    rfl

/-- After a clone the vector is as it was, and all its nodes have two owners. -/
theorem Ready.cloned {st st1 : List HVec} {h h1 : Heap α} {ls : List (List α)} (r : Ready h st ls) {i : Nat} {v : HVec}
    (hv : st[i]? = some v) {l : List α} (hl : HShows h v l) {b : Answer α} (e1 : (Call.clone i).hrun st h = .ok ((b, st1), h1)) :
    ∃ ls1, Ready h1 st1 ls1 ∧ ls1[i]? = some l ∧ st1[i]? = some v ∧
      ∀ a ∈ v.entries, ∃ c, h1.cell a = some c ∧ 2 ≤ c.count := by
  obtain ⟨l', hl', s⟩ := r.holding.2 i v hv
  have same : l' = l := by
    refine List.ext_getElem? fun j => ?_
    have := (s.2 j).symm.trans (hl.2 j)
    injection this with this
    exact (Prod.mk.inj this).1
  subst same
  have hi : i < ls.length := (List.getElem?_eq_some_iff.1 hl').1
  obtain ⟨q, m, t1⟩ := r.call (.clone i) trivial
  simp only [Call.Means, hl'] at m
  subst m
  obtain ⟨st', h', e1', r1⟩ := t1
  rw [e1] at e1'
  injection e1' with e1'
  simp only [Prod.mk.injEq] at e1'
  obtain ⟨⟨-, rfl⟩, rfl⟩ := e1'
  simp only [Call.hrun, hv] at e1
  obtain ⟨y, h2, e2, e3⟩ := hm_bind_inv e1
  unfold HVec.clone at e2
  obtain ⟨_, h3, e4, e5⟩ := hm_bind_inv e2
  cases e5
  injection e3 with e3
  simp only [Prod.mk.injEq] at e3
  obtain ⟨⟨-, hst⟩, rfl⟩ := e3
  refine ⟨_, r1, by rw [List.getElem?_append_left hi, hl'], ?_, ?_⟩
  · rw [← hst, List.getElem?_append_left (List.getElem?_eq_some_iff.1 hv).1, hv]
  have live : ∀ a ∈ v.entries, ∃ c, h.cell a = some c ∧ 1 ≤ c.count := by
    obtain ⟨vs, ⟨ps, rfl, rfl, w⟩, -⟩ := r
    have hp := hv
    rw [List.getElem?_map] at hp
    obtain ⟨p, ep, rfl⟩ := Option.map_eq_some_iff.1 hp
    intro a ha
    rw [VecOf.entries_addrs] at ha
    obtain ⟨⟨b, nd⟩, hq, rfl⟩ := List.mem_map.1 ha
    have hm : (b, some nd) ∈ (ps.map VecOf.owned).sum := by
      rw [(sum_at (f := VecOf.owned) ep).1, ← VecOf.own_entries]
      exact Multiset.mem_add.2 (.inl (mem_own.2 hq))
    obtain ⟨P, eP, -, -⟩ := (w.mem b nd hm).inv
    obtain ⟨c, ec, -⟩ := Heap.exists_cell eP
    exact ⟨c, ec, w.pos _ _ ec⟩
  obtain ⟨eb, -⟩ := cloneEntries_bump (h := h) v.entries (fun _ => 0) (fun a ha => let ⟨c, hc, _⟩ := live a ha; ⟨c, hc⟩)
  simp only [Heap.bump_zero, Nat.zero_add] at eb
  rw [e4] at eb
  injection eb with eb
  have hh : h2 = h.bump fun b => v.entries.count b := (Prod.mk.inj eb).2
  intro a ha
  obtain ⟨c, ec, hc⟩ := live a ha
  have := List.count_pos_iff.2 ha
  refine ⟨{ c with count := c.count + v.entries.count a }, ?_, ?_⟩
  · rw [hh]
    exact Heap.cell_bump (f := fun b => v.entries.count b) ec
  · show 2 ≤ c.count + v.entries.count a
    omega

theorem leafNode_mem (v : HVec) (s : Side) : v.leafNode s ∈ v.entries := by
  obtain ⟨left, right, root, len⟩ := v
  cases s
  · cases left <;> simp [VecOf.leafNode, VecOf.entries, VecOf.spine]
  · cases right <;> simp [VecOf.leafNode, VecOf.entries, VecOf.spine]

end Librrb
