import Verif.Proof.AnnotatedFocus
import Verif.Proof.FocusMut

/-!
# Nodes of a vector by address, and where cached sums are wrong
-/
namespace Librrb

/-! ### The node at an address -/

/-- The node that the slots lead to. -/
def Node.at? : List Nat → Node κ → Option (Node κ)
  | [], nd => some nd
  | p :: path, .internal _ _ c =>
    match c.data[p]? with
    | some (some k) => Node.at? path k
    | _ => none
  | _ :: _, .leaf _ => none

/-- The node that the slots lead to. -/
def ANode.at? : List Nat → ANode → Option ANode
  | [], nd => some nd
  | p :: path, .internal _ _ c _ =>
    match c.data[p]? with
    | some (some k) => ANode.at? path k
    | _ => none
  | _ :: _, .leaf _ _ => none

/-- The node at an address. -/
def RVec.at? (v : RVec κ) (a : Home) : Option (Node κ) :=
  match v.nodeAt a.1 with
  | .ok nd => nd.at? a.2
  | .error _ => none

/-- The node at an address. -/
def AVec.at? (v : AVec) (a : Home) : Option ANode :=
  match v.nodeAt a.1 with
  | .ok nd => nd.at? a.2
  | .error _ => none

theorem Node.at?_append (p q : List Nat) (nd : Node κ) : nd.at? (p ++ q) = (nd.at? p).bind (Node.at? q) := by
  induction p generalizing nd with
  | nil => rfl
  | cons i p ih =>
    cases nd with
    | leaf b => rfl
    | internal s t c =>
      simp only [List.cons_append, Node.at?]
      split
      · exact ih _
      · rfl

theorem ANode.at?_append (p q : List Nat) (nd : ANode) : nd.at? (p ++ q) = (nd.at? p).bind (ANode.at? q) := by
  induction p generalizing nd with
  | nil => rfl
  | cons i p ih =>
    cases nd with
    | leaf b s => rfl
    | internal s t c m =>
      simp only [List.cons_append, ANode.at?]
      split
      · exact ih _
      · rfl

theorem ANode.at?_erase (path : List Nat) (nd : ANode) : nd.erase.at? path = (nd.at? path).map ANode.erase := by
  induction path generalizing nd with
  | nil => rfl
  | cons i p ih =>
    cases nd with
    | leaf b s => simp only [erase_leaf, Node.at?, ANode.at?]; rfl
    | internal s t c m =>
      simp only [erase_internal, Node.at?, ANode.at?, CB.map_data, List.getElem?_map]
      rcases c.data[i]? with _ | _ | k
      · rfl
      · rfl
      · exact ih k

theorem Node.at?_mapAddr (path : List Nat) (f : List Nat → α → β) (nd : Node α) :
    (nd.mapAddr f).at? path = (nd.at? path).map fun k => k.mapAddr fun q => f (path ++ q) := by
  induction path generalizing nd f with
  | nil => rfl
  | cons i p ih =>
    cases nd with
    | leaf b => rw [Node.mapAddr]; rfl
    | internal s t c =>
      rw [Node.mapAddr]
      simp only [Node.at?, mapAddrList_getElem?]
      rcases c.data[i]? with _ | _ | k
      · rfl
      · rfl
      · simpa using ih (fun q => f (i :: q)) k

theorem RVec.nodeAt_mapAddr (v : RVec α) (f : Cell → α → β) (pos : Option (Side × Nat)) :
    (v.mapAddr f).nodeAt pos = (v.nodeAt pos).map fun nd => nd.mapAddr fun q => f (pos, q) := by
  rcases pos with _ | ⟨_ | _, i⟩
  · rfl
  · simp only [nodeAt, mapAddr, List.getElem?_mapIdx]
    cases v.left[i]? <;> rfl
  · simp only [nodeAt, mapAddr, List.getElem?_mapIdx]
    cases v.right[i]? <;> rfl

theorem RVec.at?_cells (v : RVec α) (a : Home) :
    v.cells.at? a = (v.at? a).map fun k => k.mapAddr fun q _ => (a.1, a.2 ++ q) := by
  unfold RVec.at? RVec.cells
  rw [nodeAt_mapAddr]
  cases v.nodeAt a.1 with
  | error e => rfl
  | ok nd => exact Node.at?_mapAddr _ _ _

theorem AVec.at?_erase (v : AVec) (a : Home) : v.erase.at? a = (v.at? a).map ANode.erase := by
  unfold RVec.at? AVec.at?
  rw [nodeAt_erase_eq]
  cases v.nodeAt a.1 with
  | error e => rfl
  | ok nd => exact ANode.at?_erase _ _

/-! ### Well-formed nodes -/

theorem CB.Rep.mem {b : CB α} {l : List α} (h : b.Rep l) {j : Nat} {x : α} (hj : b.data[j]? = some (some x)) : x ∈ l := by
  have hs := h.size
  have hf := h.front_lt
  have hlt : j < 64 := by
    obtain ⟨h1, -⟩ := List.getElem?_eq_some_iff.1 hj
    omega
  have := h.slot ((j + 64 - b.front) % 64) (Nat.mod_lt _ (by omega))
  rw [show (b.front + (j + 64 - b.front) % 64) % 64 = j by omega, hj] at this
  injection this with this
  exact List.mem_of_getElem? this.symm

theorem Node.Wf.at? {path : List Nat} : ∀ {n : Nat} {nd k : Node κ}, nd.Wf n → nd.at? path = some k →
    n = path.length + k.level ∧ k.Wf k.level ∧ (path ≠ [] → k.toList ≠ []) := by
  induction path with
  | nil =>
    intro n nd k h e
    cases e
    exact ⟨by simp [h.level], by rw [h.level]; exact h, by simp⟩
  | cons p path ih =>
    intro n nd k h e
    cases n with
    | zero =>
      obtain ⟨l, b, rfl, hr⟩ := wf_zero.1 h
      cases e
    | succ n =>
      obtain ⟨ks, hk⟩ := wf_succ.1 h
      obtain ⟨s, c, rfl, h1, h2, h3⟩ := hk
      rw [Node.at?] at e
      split at e
      · next k' hk' =>
        obtain ⟨w, ne⟩ := h3 k' (h2.mem hk')
        obtain ⟨i1, i2, i3⟩ := ih w e
        refine ⟨by simp; omega, i2, fun _ => ?_⟩
        cases path with
        | nil => cases e; exact ne
        | cons _ _ => exact i3 (by simp)
      · cases e

theorem RVec.InvH.nodeAt_wf {v : RVec κ} {h : Nat} (i : InvH v h) {pos : Option (Side × Nat)} {nd : Node κ}
    (e : v.nodeAt pos = .ok nd) : ∃ n, nd.Wf n := by
  rcases pos with _ | ⟨_ | _, j⟩
  · cases e; exact ⟨_, i.root⟩
  · obtain ⟨hj, rfl⟩ := List.getElem?_eq_some_iff.1 (RVec.unwrap_eq e)
    exact ⟨_, ((i.spine .front).getElem hj).1⟩
  · obtain ⟨hj, rfl⟩ := List.getElem?_eq_some_iff.1 (RVec.unwrap_eq e)
    exact ⟨_, ((i.spine .back).getElem hj).1⟩

theorem RVec.InvH.at_wf {v : RVec κ} {h : Nat} (i : InvH v h) {a : Home} {nd : Node κ} (e : v.at? a = some nd) :
    nd.Wf nd.level := by
  unfold RVec.at? at e
  split at e
  · next k hk => obtain ⟨n, hn⟩ := i.nodeAt_wf hk; exact (hn.at? e).2.1
  · cases e

/-! ### Portrays -/

/-- The borrowed node is a view of the whole node at the address. -/
def Portrays (w : RVec Cell) (a : Home) (b : BNode Cell) : Prop := ∃ nd, w.at? a = some nd ∧ nd.borrow = .ok b

theorem findSome_mapIdx (data : List (Option α)) (g : Nat → α → β) (h : ∃ (j : Nat) (x : α), data[j]? = some (some x)) :
    ∃ p x, (data.mapIdx fun p o => o.map (g p)).findSome? id = some (g p x) := by
  induction data generalizing g with
  | nil => obtain ⟨j, x, h⟩ := h; simp at h
  | cons o data ih =>
    cases o with
    | some x => exact ⟨0, x, by simp [List.mapIdx_cons]⟩
    | none =>
      obtain ⟨j, x, h⟩ := h
      cases j with
      | zero => simp at h
      | succ j =>
        obtain ⟨p, x, e⟩ := ih (fun p => g (p + 1)) ⟨j, x, by simpa using h⟩
        exact ⟨p + 1, x, by simpa [List.mapIdx_cons] using e⟩

theorem someCellIn_mapAddr (n : Nat) (ih : ∀ (k : Node α) (f : List Nat → α → Cell), k.Wf n → k.toList ≠ [] →
      ∃ q x, (k.mapAddr f).someCell = some (f q x) ∧ q.length = n + 1)
    (f : List Nat → α → Cell) : ∀ (data : List (Option (Node α))) (p : Nat),
    (∀ k, some k ∈ data → k.Wf n ∧ k.toList ≠ []) → (∃ k, some k ∈ data) →
    ∃ q x, someCellIn (mapAddrList f p data) = some (f q x) ∧ q.length = n + 2
  | [], p, _, h => by obtain ⟨k, h⟩ := h; simp at h
  | none :: rest, p, h1, h2 => by
    rw [mapAddrList, someCellIn]
    exact someCellIn_mapAddr n ih f rest (p + 1) (fun k hk => h1 k (by simp [hk])) (by simpa using h2)
  | some k :: rest, p, h1, h2 => by
    obtain ⟨w, ne⟩ := h1 k (by simp)
    obtain ⟨q, x, e, hq⟩ := ih k (fun q => f (p :: q)) w ne
    rw [mapAddrList, someCellIn, e]
    exact ⟨p :: q, x, rfl, by simp [hq]⟩

theorem CB.Rep.exists_slot {b : CB α} {l : List α} (h : b.Rep l) (hl : l ≠ []) : ∃ (j : Nat) (x : α), b.data[j]? = some (some x) := by
  have := h.slot 0 (by omega)
  rw [Nat.add_zero] at this
  cases l with
  | nil => exact absurd rfl hl
  | cons x l => exact ⟨_, x, this⟩

theorem Node.Wf.someCell : ∀ {n : Nat} {k : Node α} (f : List Nat → α → Cell), k.Wf n → k.toList ≠ [] →
    ∃ q x, (k.mapAddr f).someCell = some (f q x) ∧ q.length = n + 1
  | 0, k, f, h, ne => by
    obtain ⟨l, b, rfl, hr⟩ := wf_zero.1 h
    have hl : l ≠ [] := by rwa [toList_leaf, hr.toList] at ne
    obtain ⟨p, x, e⟩ := findSome_mapIdx b.data (fun p x => f [p] x) (hr.exists_slot hl)
    rw [Node.mapAddr, Node.someCell]
    exact ⟨[p], x, e, rfl⟩
  | n + 1, k, f, h, ne => by
    obtain ⟨ks, s, c, rfl, h1, h2, h3⟩ := wf_succ.1 h
    have hks : ks ≠ [] := by
      rintro rfl
      rw [toList_internal, h2.toList] at ne
      exact ne rfl
    obtain ⟨j, x, hj⟩ := h2.exists_slot hks
    rw [Node.mapAddr, Node.someCell]
    refine someCellIn_mapAddr n (fun k f => Wf.someCell f) f c.data 0 ?_ ⟨x, List.mem_of_getElem? hj⟩
    intro k hk
    obtain ⟨j, hj⟩ := List.mem_iff_getElem?.1 hk
    exact h3 k (h2.mem hj)

/-- The places in the slots of a node. -/
theorem Node.borrow_home {n : Nat} {k : Node α} (h : k.Wf n) {pos : Option (Side × Nat)} {path : List Nat} {b : BNode Cell}
    (e : (k.mapAddr fun q _ => (pos, path ++ q)).borrow = .ok b) : b.home = .ok (pos, path) := by
  cases n with
  | zero =>
    obtain ⟨l, c, rfl, hr⟩ := wf_zero.1 h
    rw [Node.mapAddr, Node.borrow] at e
    obtain ⟨w, e1, e⟩ := RVec.bind_ok e
    obtain ⟨_, hne, e1⟩ := RVec.bind_ok e1
    cases e1
    cases e
    have hl : l ≠ [] := by
      rintro rfl
      rw [show c.len = 0 from hr.len_eq] at hne
      cases hne
    obtain ⟨p, x, e⟩ := findSome_mapIdx c.data (fun p (_ : α) => (pos, path ++ [p])) (hr.exists_slot hl)
    simp only [BNode.home]
    rw [e]
    simp
  | succ n =>
    obtain ⟨ks, s, c, rfl, h1, h2, h3⟩ := wf_succ.1 h
    rw [Node.mapAddr, Node.borrow] at e
    obtain ⟨w, e1, e⟩ := RVec.bind_ok e
    obtain ⟨_, hne, e1⟩ := RVec.bind_ok e1
    cases e1
    cases e
    have hl : ks ≠ [] := by
      rintro rfl
      rw [show c.len = 0 from h2.len_eq] at hne
      cases hne
    obtain ⟨j, x, hj⟩ := h2.exists_slot hl
    obtain ⟨q, x, e, hq⟩ := someCellIn_mapAddr n (fun k f => Wf.someCell f) (fun q (_ : α) => (pos, path ++ q)) c.data 0 (by
      intro k hk
      obtain ⟨j, hj⟩ := List.mem_iff_getElem?.1 hk
      exact h3 k (h2.mem hj)) ⟨x, List.mem_of_getElem? hj⟩
    simp only [BNode.home]
    rw [e]
    have : BInternal.level ⟨s, { start := 0, stop := c.len, data := mapAddrList (fun q (_ : α) => (pos, path ++ q)) 0 c.data, front := c.front, len := c.len }⟩ = n + 1 := h1.1
    simp [this, hq]

theorem Portrays.home {v : RVec α} {h : Nat} (i : RVec.InvH v h) {a : Home} {b : BNode Cell} (hv : Portrays v.cells a b) :
    b.home = .ok a := by
  obtain ⟨nd, e1, e2⟩ := hv
  rw [RVec.at?_cells] at e1
  cases e3 : v.at? a with
  | none => rw [e3] at e1; cases e1
  | some k =>
    rw [e3] at e1
    cases e1
    exact Node.borrow_home (i.at_wf e3) e2

theorem Portrays.unique {v : RVec α} {h : Nat} (i : RVec.InvH v h) {a a' : Home} {b : BNode Cell} (hv : Portrays v.cells a b)
    (hv' : Portrays v.cells a' b) : a = a' := by
  have := hv.home i
  rw [hv'.home i] at this
  injection this with this
  exact this.symm

/-- The view of a child. -/
theorem Portrays.child {w : RVec Cell} {a : Home} {b : BInternal Cell} (h : Portrays w a (.internal b)) {p : Nat} {k : Node Cell}
    (hp : b.children.data[p]? = some (some k)) {b' : BNode Cell} (hk : k.borrow = .ok b') : Portrays w (a.1, a.2 ++ [p]) b' := by
  obtain ⟨nd, e1, e2⟩ := h
  refine ⟨k, ?_, hk⟩
  cases nd with
  | leaf c =>
    rw [Node.borrow] at e2
    obtain ⟨w, -, e2⟩ := RVec.bind_ok e2
    cases e2
  | internal s t c =>
    rw [Node.borrow] at e2
    obtain ⟨w, e3, e2⟩ := RVec.bind_ok e2
    cases e2
    obtain ⟨_, -, e3⟩ := RVec.bind_ok e3
    cases e3
    unfold RVec.at? at e1 ⊢
    dsimp only
    split at e1
    · next nd' hnd =>
      rw [Node.at?_append, e1]
      simp only [Option.bind_some, Node.at?]
      dsimp only at hp
      rw [hp]
    · cases e1

/-! ### Local sums -/
namespace ANode

/-- The sum of the items of a leaf, and of the cached sums of the children of any other node. -/
def lsum : ANode → Nat
  | .leaf b _ => b.toList.sum
  | .internal _ _ c _ => (c.toList.map ANode.cached).sum

/-- The node with another cached sum. -/
def withSum (m : Nat) : ANode → ANode
  | .leaf b _ => .leaf b m
  | .internal s t c _ => .internal s t c m

@[simp] theorem withSum_cached (m : Nat) (nd : ANode) : (nd.withSum m).cached = m := by cases nd <;> rfl
@[simp] theorem withSum_lsum (m : Nat) (nd : ANode) : (nd.withSum m).lsum = nd.lsum := by cases nd <;> rfl
theorem withSum_self (nd : ANode) : nd.withSum nd.cached = nd := by cases nd <;> rfl
theorem withSum_at (m : Nat) (nd : ANode) {q : List Nat} (hq : q ≠ []) : (nd.withSum m).at? q = nd.at? q := by
  cases q with
  | nil => exact absurd rfl hq
  | cons p q => cases nd <;> rfl

theorem toList_map_eq {c : CB α} (g : α → β) : c.toList.map g =
    (List.range c.len).filterMap fun i => (c.data[(c.front + i) % 64]?).join.map g := by
  unfold CB.toList
  rw [List.map_filterMap]

theorem lsum_congr {s : SizeTable} {t : Tag} {c : CB ANode} {m : Nat} {p : Nat} {k k' : ANode}
    (h : c.data[p]? = some (some k)) (hk : k'.cached = k.cached) :
    (internal s t { c with data := c.data.set p (some k') } m).lsum = (internal s t c m).lsum := by
  simp only [lsum]
  rw [toList_map_eq, toList_map_eq]
  congr 2
  funext i
  dsimp only
  rw [List.getElem?_set]
  by_cases hj : p = (c.front + i) % 64
  · rw [if_pos hj, ← hj, h]
    obtain ⟨hlt, -⟩ := List.getElem?_eq_some_iff.1 h
    rw [if_pos hlt]
    simp [hk]
  · rw [if_neg hj]

theorem total_eq (weight : κ → Nat) (data : List (Option κ)) (front len : Nat) (hl : len ≤ 64) :
    ∀ (n consumed acc r : Nat), consumed + n = len →
      BBuf.total weight { start := 0, stop := len, data := data, front := front, len := len } n consumed acc = .ok r →
      r = acc + (((List.range' consumed n).filterMap fun i => (data[(front + i) % 64]?).join).map weight).sum
  | 0, consumed, acc, r, _, h => by cases h; simp
  | n + 1, consumed, acc, r, hc, h => by
    rw [BBuf.total] at h
    obtain ⟨o, e1, h⟩ := RVec.bind_ok h
    unfold BBuf.get at e1
    obtain ⟨idx, e2, e1'⟩ := RVec.bind_ok e1
    clear e1
    have hidx : idx = consumed := by
      unfold uadd at e2
      split at e2
      · cases e2; simp only [Nat.add_zero]; exact Nat.mod_eq_of_lt (by show consumed < 64; omega)
      · cases e2
    subst hidx
    rw [if_pos (by rw [inRange_iff]; dsimp only; omega)] at e1'
    obtain ⟨x, e3, e1⟩ := RVec.bind_ok e1'
    cases e1
    dsimp only at h e3
    obtain ⟨acc', e4, h⟩ := RVec.bind_ok h
    have hx : data[(front + idx) % 64]? = some (some x) := by
      unfold BBuf.derefSlot at e3
      split at e3
      · next y hy => cases e3; exact hy
      · cases e3
    have hacc : acc' = weight x + acc := by
      unfold uadd at e4
      split at e4
      · cases e4; rfl
      · cases e4
    rw [total_eq weight data front len hl n (idx + 1) acc' r (by omega) h, List.range'_succ, List.filterMap_cons, hx, hacc]
    simp
    omega

/-- Dropping a view of the whole node sets the cached sum right. -/
theorem refresh_eq {nd nd' : ANode} {n : Nat} (hw : nd.erase.Wf n) {g : List Nat → Nat → Cell} {b : BNode Cell}
    (hb : (nd.erase.mapAddr g).borrow = .ok b) (h : refresh b nd = .ok nd') : nd' = nd.withSum nd.lsum := by
  cases nd with
  | leaf c m =>
    rw [erase_leaf] at hb hw
    rw [Node.mapAddr, Node.borrow] at hb
    obtain ⟨w, e1, hb⟩ := RVec.bind_ok hb
    obtain ⟨_, -, e1⟩ := RVec.bind_ok e1
    cases e1
    cases hb
    rw [refresh] at h
    obtain ⟨r, e, h⟩ := RVec.bind_ok h
    cases h
    have hl : c.len ≤ 64 := by
      cases n with
      | zero =>
        obtain ⟨l, b, e, hr⟩ := Node.wf_zero.1 hw
        cases e
        rw [hr.len_eq]; exact hr.le
      | succ n => exact hw.elim
    have := total_eq id c.data c.front c.len hl _ 0 0 r (by simp [BBuf.length]) e
    simp only [withSum, lsum]
    rw [this, Nat.zero_add, List.map_id]
    simp only [BBuf.length, Nat.sub_zero, ← List.range_eq_range']
    rfl
  | internal s t c m =>
    rw [erase_internal] at hb hw
    rw [Node.mapAddr, Node.borrow] at hb
    obtain ⟨w, e1, hb⟩ := RVec.bind_ok hb
    obtain ⟨_, -, e1⟩ := RVec.bind_ok e1
    cases e1
    cases hb
    rw [refresh] at h
    obtain ⟨r, e, h⟩ := RVec.bind_ok h
    cases h
    have hl : c.len ≤ 64 := by
      cases n with
      | zero => exact hw.elim
      | succ n =>
        obtain ⟨ks, s', c', e, h1, h2, h3⟩ := Node.wf_succ.1 hw
        cases e
        have := h2.len_eq
        rw [CB.map_len] at this
        rw [this]; exact h2.le
    have := total_eq ANode.cached c.data c.front c.len hl _ 0 0 r (by simp [BBuf.length]) e
    simp only [withSum, lsum]
    rw [this, Nat.zero_add]
    simp only [BBuf.length, Nat.sub_zero, ← List.range_eq_range', CB.map_len]
    rfl

/-- What a change at an address does to the nodes elsewhere. -/
theorem modifyAt_at {f : ANode → M ANode} : ∀ {path : List Nat} {nd nd' : ANode}, modifyAt f path nd = .ok nd' →
    ∃ k k', nd.at? path = some k ∧ f k = .ok k' ∧ nd'.at? path = some k' ∧ (path = [] ∧ nd = k ∧ nd' = k' ∨ path ≠ [] ∧ nd'.cached = nd.cached) ∧
      ∀ path2 k2, nd'.at? path2 = some k2 →
        (∃ q, path2 = path ++ q ∧ k'.at? q = some k2) ∨ ((∃ p, path = path2 ++ [p]) ∧ k'.cached ≠ k.cached) ∨
        ∃ k1, nd.at? path2 = some k1 ∧ k1.cached = k2.cached ∧ k1.lsum = k2.lsum
  | [], nd, nd', h => by
    rw [modifyAt] at h
    exact ⟨nd, nd', rfl, h, rfl, .inl ⟨rfl, rfl, rfl⟩, fun path2 k2 e => .inl ⟨path2, rfl, e⟩⟩
  | p :: path, .leaf _ _, nd', h => by rw [modifyAt] at h; cases h
  | p :: path, .internal s t c m, nd', h => by
    rw [modifyAt] at h
    obtain ⟨k0, e1, h⟩ := RVec.bind_ok h
    obtain ⟨k0', e2, h⟩ := RVec.bind_ok h
    obtain ⟨d, e3, h⟩ := RVec.bind_ok h
    cases h
    obtain ⟨rfl, -⟩ := assignSlot_eq e3
    have e1 := readSlot_eq e1
    obtain ⟨k, k', i1, i2, i5, i3, i4⟩ := modifyAt_at e2
    obtain ⟨hlt, -⟩ := List.getElem?_eq_some_iff.1 e1
    refine ⟨k, k', by simp only [at?, e1]; exact i1, i2, by simp [at?, List.getElem?_set, hlt, i5], .inr ⟨by simp, rfl⟩, ?_⟩
    intro path2 k2 e
    cases path2 with
    | nil =>
      cases e
      by_cases hk : k0'.cached = k0.cached
      · exact .inr (.inr ⟨_, rfl, rfl, (lsum_congr e1 hk).symm⟩)
      · rcases i3 with ⟨rfl, rfl, rfl⟩ | ⟨-, i3⟩
        · exact .inr (.inl ⟨⟨p, rfl⟩, hk⟩)
        · exact absurd i3 hk
    | cons p2 rest2 =>
      simp only [at?, List.getElem?_set] at e
      by_cases hp : p = p2
      · subst hp
        simp only [hlt, if_true] at e
        rcases i4 rest2 k2 e with ⟨q, rfl, hq⟩ | ⟨⟨q, rfl⟩, hq⟩ | ⟨k1, g1, g2⟩
        · exact .inl ⟨q, rfl, hq⟩
        · exact .inr (.inl ⟨⟨q, rfl⟩, hq⟩)
        · exact .inr (.inr ⟨k1, by simp only [at?, e1]; exact g1, g2⟩)
      · rw [if_neg hp] at e
        exact .inr (.inr ⟨k2, e, rfl, rfl⟩)

end ANode

/-! ### Where cached sums are wrong -/
namespace AVec

/-- The cached sum of the node at the address is not that of its items, or children. -/
def Broken (v : AVec) (a : Home) : Prop := ∃ nd, v.at? a = some nd ∧ nd.cached ≠ nd.lsum

theorem nodeAt_withNodeAt {v : AVec} {pos : Option (Side × Nat)} {nd : ANode} (h : v.nodeAt pos = .ok nd) (nd' : ANode)
    (pos2 : Option (Side × Nat)) :
    (v.withNodeAt pos nd').nodeAt pos2 = if pos2 = pos then .ok nd' else v.nodeAt pos2 := by
  rcases pos with _ | ⟨_ | _, i⟩
  · rcases pos2 with _ | ⟨_ | _, j⟩ <;> simp [withNodeAt, nodeAt]
  · obtain ⟨hlt, -⟩ := List.getElem?_eq_some_iff.1 (RVec.unwrap_eq h)
    rcases pos2 with _ | ⟨_ | _, j⟩
    · simp [withNodeAt, nodeAt]
    · simp only [withNodeAt, nodeAt, List.getElem?_set, Option.some.injEq, Prod.mk.injEq, true_and]
      by_cases hj : i = j
      · subst hj; simp [hlt, unwrap]
      · rw [if_neg hj, if_neg (Ne.symm hj)]
    · simp [withNodeAt, nodeAt]
  · obtain ⟨hlt, -⟩ := List.getElem?_eq_some_iff.1 (RVec.unwrap_eq h)
    rcases pos2 with _ | ⟨_ | _, j⟩
    · simp [withNodeAt, nodeAt]
    · simp [withNodeAt, nodeAt]
    · simp only [withNodeAt, nodeAt, List.getElem?_set, Option.some.injEq, Prod.mk.injEq, true_and]
      by_cases hj : i = j
      · subst hj; simp [hlt, unwrap]
      · rw [if_neg hj, if_neg (Ne.symm hj)]

theorem modifyAt_broken {f : ANode → M ANode} {v v' : AVec} {a : Home} (h : v.modifyAt f a = .ok v') :
    ∃ k k', v.at? a = some k ∧ f k = .ok k' ∧ v'.at? a = some k' ∧ ∀ a2, v'.Broken a2 →
      (∃ q, a2 = (a.1, a.2 ++ q) ∧ ∃ k2, k'.at? q = some k2 ∧ k2.cached ≠ k2.lsum) ∨
      ((∃ p, a = (a2.1, a2.2 ++ [p])) ∧ k'.cached ≠ k.cached) ∨ v.Broken a2 := by
  obtain ⟨pos, path⟩ := a
  obtain ⟨nd, e1, h⟩ := RVec.bind_ok h
  obtain ⟨nd', e2, h⟩ := RVec.bind_ok h
  cases h
  obtain ⟨k, k', i1, i2, i3, -, i4⟩ := ANode.modifyAt_at e2
  dsimp only at e1 e2 i1 i3
  refine ⟨k, k', by simp only [at?, e1]; exact i1, i2, by unfold at?; rw [nodeAt_withNodeAt e1, if_pos rfl]; exact i3, ?_⟩
  rintro ⟨pos2, path2⟩ ⟨nd2, g1, g2⟩
  unfold at? at g1
  rw [nodeAt_withNodeAt e1] at g1
  by_cases hp : pos2 = pos
  · subst hp
    rw [if_pos rfl] at g1
    dsimp only at g1
    rcases i4 path2 nd2 g1 with ⟨q, rfl, hq⟩ | ⟨⟨q, rfl⟩, hq⟩ | ⟨k1, j1, j2, j3⟩
    · exact .inl ⟨q, rfl, nd2, hq, g2⟩
    · exact .inr (.inl ⟨⟨q, rfl⟩, hq⟩)
    · exact .inr (.inr ⟨k1, by unfold at?; simp only [e1]; exact j1, by rw [j2, j3]; exact g2⟩)
  · rw [if_neg hp] at g1
    exact .inr (.inr ⟨nd2, by unfold at?; exact g1, g2⟩)

theorem at_below {v : AVec} {a : Home} {k : ANode} (h : v.at? a = some k) (q : List Nat) :
    v.at? (a.1, a.2 ++ q) = k.at? q := by
  unfold at? at h ⊢
  dsimp only
  split at h
  · next nd hnd => rw [ANode.at?_append, h]; rfl
  · cases h

/-- Dropping a view of the whole node at `a`: its sum is right, and only its parent may have become wrong. -/
theorem refresh_broken {v v' : AVec} {h : Nat} (i : RVec.InvH v.erase h) {a : Home} {b : BNode Cell}
    (hv : Portrays v.erase.cells a b) (e : v.modifyAt (ANode.refresh b) a = .ok v') :
    (∀ a2, v'.Broken a2 → (∃ p, a = (a2.1, a2.2 ++ [p])) ∨ v.Broken a2 ∧ a2 ≠ a) ∧ (¬ v.Broken a → ∀ a2, v'.Broken a2 → v.Broken a2) := by
  obtain ⟨k, k', e1, e2, e3, hb⟩ := modifyAt_broken e
  obtain ⟨nd, g1, g2⟩ := hv
  rw [RVec.at?_cells, at?_erase, e1] at g1
  cases g1
  have hw : k.erase.Wf k.erase.level := i.at_wf (a := a) (by rw [at?_erase, e1]; rfl)
  have hk := ANode.refresh_eq hw g2 e2
  subst hk
  have low : ∀ q k2, q ≠ [] → (k.withSum k.lsum).at? q = some k2 → k2.cached ≠ k2.lsum → v.Broken (a.1, a.2 ++ q) := by
    intro q k2 hq h1 h2
    rw [ANode.withSum_at _ _ hq] at h1
    exact ⟨k2, by rw [at_below e1]; exact h1, h2⟩
  constructor
  · intro a2 h2
    rcases hb a2 h2 with ⟨q, rfl, k2, h3, h4⟩ | ⟨h3, -⟩ | h3
    · by_cases hq : q = []
      · subst hq
        cases h3
        simp at h4
      · refine .inr ⟨low q k2 hq h3 h4, ?_⟩
        intro h5
        have := congrArg (fun x : Home => x.2.length) h5
        simp only [List.length_append] at this
        exact hq (List.length_eq_zero_iff.1 (by omega))
    · exact .inl h3
    · by_cases hq : a2 = a
      · subst hq
        exfalso
        obtain ⟨k2, h3, h4⟩ := h2
        rw [e3] at h3
        cases h3
        simp at h4
      · exact .inr ⟨h3, hq⟩
  · intro hn a2 h2
    have hkk : k.lsum = k.cached := by
      by_contra hne
      exact hn ⟨k, e1, fun h => hne h.symm⟩
    rcases hb a2 h2 with ⟨q, rfl, k2, h3, h4⟩ | ⟨-, h3⟩ | h3
    · by_cases hq : q = []
      · subst hq
        cases h3
        simp at h4
      · exact low q k2 hq h3 h4
    · simp [hkk] at h3
    · exact h3

end AVec
end Librrb
