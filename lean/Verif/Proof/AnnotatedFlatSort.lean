import Verif.Proof.AnnotatedSort
import Verif.Proof.AnnotatedFlatFocus
import Verif.Proof.SortVec

/-!
# Sorting and reversing annotated vectors of at most 64 items
-/
namespace Librrb

/-- The vectors of one leaf that differ from `w` in the items only, with the sum `m`. -/
structure OneLeaf (w : RVec Cell) (m : Nat) (u : RVec Nat) : Prop where
  built : Built u
  inv : RVec.InvH u 0
  cells : u.cells = w
  sum : u.toList.sum = m

/-- A part of the leaf. -/
def LeafPart (w : RVec Cell) (b : BNode Cell) : Prop :=
  ∃ cb s e, w.root = .leaf cb ∧ b = .leaf ⟨s, e, cb.data, cb.front, cb.len⟩ ∧ s ≤ e ∧ e ≤ cb.len ∧ cb.len ≠ 0

/-- A focus of the leaf, or of parts of it. -/
structure OnLeaf (w : RVec Cell) (f : FMut Cell) : Prop where
  views : ∃ a b, Views w.toList f a b
  nodes : ∀ b ∈ f.nodes, LeafPart w b

theorem OnLeaf.bare {w : RVec Cell} {f : FMut Cell} (h : OnLeaf w f) : f.Bare := by
  obtain ⟨a, b, hv⟩ := h.views
  rcases hv.ok.pos with ⟨-, h2, h3, -⟩ | ⟨ps, p, qs, -, h2, -, -, -, -, h3⟩
  · exact ⟨h3, h2⟩
  · have hp : p.1 ∈ f.nodes := by rw [h2]; simp
    obtain ⟨cb, s, e, -, hp, -⟩ := h.nodes _ hp
    by_contra hn
    obtain ⟨i, hi⟩ := h3 (by
      by_contra hc
      simp only [not_or, not_not] at hc
      exact hn ⟨hc.2, hc.1⟩)
    rw [hi] at hp
    cases hp

theorem BBuf.total_part {b : BBuf Nat} {pre l post : List Nat} (hh : b.Has pre l post) :
    ∀ (n consumed acc : Nat), consumed + n = l.length → acc + (l.drop consumed).sum < USIZE_LIMIT →
      ∃ r, BBuf.total id b n consumed acc = .ok r
  | 0, consumed, acc, _, _ => ⟨acc, rfl⟩
  | n + 1, consumed, acc, hc, hs => by
    have hle := hh.le
    rw [BBuf.total]
    have hm : consumed % RRB_WIDTH = consumed := Nat.mod_eq_of_lt (by show consumed < 64; omega)
    rw [hm, BBuf.get_ok hh (i := consumed) (by omega), ok_bind]
    dsimp only
    rw [List.drop_eq_getElem_cons (by omega), List.sum_cons] at hs
    rw [uadd_ok (by simp; omega), ok_bind]
    exact BBuf.total_part hh n (consumed + 1) _ (by omega) (by simp; omega)

theorem OneLeaf.shape {w : RVec Cell} {m : Nat} {v : AVec} (h : OneLeaf w m v.erase) :
    ∃ front n data s, v.left = [] ∧ v.right = [] ∧ v.root = .leaf ⟨front, n, data⟩ s ∧ CB.Rep ⟨front, n, data⟩ v.erase.toList ∧
      w.root = .leaf ⟨front, n, data.mapIdx fun p o => o.map fun _ => ((none, [p]) : Cell)⟩ := by
  have i := h.inv
  have h1 : v.left = [] := by
    have := i.length .front
    simpa [AVec.erase] using this
  have h2 : v.right = [] := by
    have := i.length .back
    simpa [AVec.erase] using this
  have hr := i.root
  cases hroot : v.root with
  | internal s t c m =>
    rw [show v.erase.root = v.root.erase from rfl, hroot, ANode.erase_internal] at hr
    exact hr.elim
  | leaf c s =>
    obtain ⟨front, n, data⟩ := c
    rw [show v.erase.root = v.root.erase from rfl, hroot, ANode.erase_leaf] at hr
    obtain ⟨l', b', e', hrep⟩ := Node.wf_zero.1 hr
    cases e'
    have ht : v.erase.toList = l' := by simp [RVec.toList, AVec.erase, h1, h2, hroot, hrep.toList]
    refine ⟨front, n, data, s, h1, h2, rfl, ht ▸ hrep, ?_⟩
    rw [← h.cells]
    simp [RVec.cells, RVec.mapAddr, AVec.erase, hroot, Node.mapAddr]

theorem AVec.Flat.self' {v : AVec} {l : List Nat} (h : v.Flat l) : v.Flat v.erase.toList := by rwa [h.toList]

theorem List.sum_part (l : List Nat) (a b : Nat) : ((l.drop a).take b).sum ≤ l.sum := by
  have h1 := List.sum_append (l₁ := l.take a) (l₂ := l.drop a)
  have h2 := List.sum_append (l₁ := (l.drop a).take b) (l₂ := (l.drop a).drop b)
  rw [List.take_append_drop] at h1 h2
  omega

theorem OneLeaf.drop {w : RVec Cell} {m : Nat} (hm : m < USIZE_LIMIT) : ∀ (bs : List (BNode Cell)) {v : AVec}, OneLeaf w m v.erase →
    (∀ b ∈ bs, LeafPart w b) → ∃ v', v.dropBorrowed bs = .ok v'
  | [], v, _, _ => ⟨v, rfl⟩
  | b :: bs, v, h, hb => by
    obtain ⟨front, n, data, s, h1, h2, hroot, hrep, hw⟩ := h.shape
    obtain ⟨cb, a, z, e1, rfl, haz, hz, hn⟩ := hb b (by simp)
    rw [hw] at e1
    cases e1
    dsimp only at hz hn
    have hlen : n = v.erase.toList.length := hrep.len_eq
    have hp : Portrays v.erase.cells (none, []) (.leaf ⟨0, n, data.mapIdx fun p o => o.map fun _ => ((none, [p]) : Cell), front, n⟩) := by
      refine ⟨w.root, ?_, ?_⟩
      · rw [h.cells]; rfl
      · rw [hw, Node.borrow, CB.mutableView, massert_ok (by simpa using hn)]; rfl
    have hh := hp.home h.inv
    have hh' : (BNode.leaf ⟨a, z, data.mapIdx fun p o => o.map fun _ => ((none, [p]) : Cell), front, n⟩).home = .ok (none, []) := hh
    have hhas : BBuf.Has ⟨a, z, data, front, n⟩ (v.erase.toList.take a) ((v.erase.toList.drop a).take (z - a))
        ((v.erase.toList.drop a).drop (z - a)) := by
      refine ⟨?_, ?_, ?_⟩
      · rw [List.append_assoc, List.take_append_drop, List.take_append_drop]; exact hrep
      · simp; omega
      · simp; omega
    obtain ⟨r, er⟩ := BBuf.total_part hhas (z - a) 0 0 (by simp; omega) (by
      have := List.sum_part v.erase.toList a (z - a)
      rw [h.sum] at this
      simp only [List.drop_zero]
      omega)
    have e1 : v.modifyAt (ANode.refresh (.leaf ⟨a, z, data.mapIdx fun p o => o.map fun _ => ((none, [p]) : Cell), front, n⟩)) (none, []) =
        .ok { v with root := .leaf ⟨front, n, data⟩ r } := by
      simp only [AVec.modifyAt, AVec.nodeAt, ok_bind, ANode.modifyAt, hroot, ANode.refresh, BBuf.length]
      rw [er]
      rfl
    have he : ({ v with root := .leaf ⟨front, n, data⟩ r } : AVec).erase = v.erase := by
      simp [AVec.erase, hroot]
    obtain ⟨v', ev⟩ := OneLeaf.drop hm bs (v := { v with root := .leaf ⟨front, n, data⟩ r }) (by rw [he]; exact h) fun b hb' => hb b (by simp [hb'])
    refine ⟨v', ?_⟩
    rw [AVec.dropBorrowed, hh', ok_bind, e1, ok_bind]
    exact ev

theorem LeafPart.splitAt {w : RVec Cell} {b b1 b2 : BBuf Cell} {k : Nat} (h : LeafPart w (.leaf b)) (e : b.splitAt k = .ok (b1, b2)) :
    LeafPart w (.leaf b1) ∧ LeafPart w (.leaf b2) := by
  obtain ⟨cb, s, z, h1, h2, h3, h4, h5⟩ := h
  cases h2
  unfold BBuf.splitAt at e
  obtain ⟨x, e1, e⟩ := RVec.bind_ok e
  obtain ⟨_, e2, e⟩ := RVec.bind_ok e
  cases e
  have hx : x = s + k := by
    unfold uadd at e1
    split at e1 <;> cases e1
    rfl
  have hle : x ≤ z := by
    unfold massert at e2
    by_contra hn
    simp [hn] at e2
  exact ⟨⟨cb, s, x, h1, rfl, by omega, by omega, h5⟩, ⟨cb, x, z, h1, rfl, hle, h4, h5⟩⟩

theorem LeafPart.splitLoop {w : RVec Cell} {k : Nat} {fuel : Nat} {left right : List (BNode Cell)} {r : List (BNode Cell) × List (BNode Cell)}
    (hl : ∀ b ∈ left, LeafPart w b) (hr : ∀ b ∈ right, LeafPart w b) (e : FMut.splitLoop fuel k left right = .ok r) :
    (∀ b ∈ r.1, LeafPart w b) ∧ (∀ b ∈ r.2, LeafPart w b) ∧
      ∃ ds, FMut.splitLoopDrops fuel k right = .ok ds ∧ ∀ b ∈ ds, LeafPart w b := by
  cases fuel with
  | zero => cases e
  | succ fuel =>
    rw [FMut.splitLoop.eq_def] at e
    rw [FMut.splitLoopDrops.eq_def]
    dsimp only at e ⊢
    split at e
    · next h0 =>
      cases e
      rw [if_pos h0]
      exact ⟨hl, hr, [], rfl, by simp⟩
    · next h0 =>
      rw [if_neg h0]
      cases right with
      | nil => cases e
      | cons b right =>
        obtain ⟨cb, s, z, h1, rfl, h3, h4, h5⟩ := hr b (by simp)
        have hb := hr _ (List.mem_cons_self ..)
        have hr' : ∀ b ∈ right, LeafPart w b := fun b h => hr b (by simp [h])
        dsimp only at e ⊢
        obtain ⟨⟨b1, b2⟩, e1, e⟩ := RVec.bind_ok e
        cases e
        obtain ⟨p1, p2⟩ := hb.splitAt e1
        dsimp only
        refine ⟨?_, ?_, _, by rw [e1, ok_bind], ?_⟩
        · split
          · intro b hb'
            rcases List.mem_cons.1 hb' with rfl | hb'
            exacts [p1, hl b hb']
          · exact hl
        · split
          · intro b hb'
            rcases List.mem_cons.1 hb' with rfl | hb'
            exacts [p2, hr' b hb']
          · exact hr'
        · intro b hb'
          dsimp only at hb'
          rw [List.mem_append, List.mem_append] at hb'
          rcases hb' with (hb' | hb') | hb'
          · split at hb' <;> simp at hb'
            subst hb'; exact p2
          · split at hb' <;> simp at hb'
            subst hb'; exact p1
          · simp at hb'; subst hb'; exact hb

theorem FMut.fromNodes_nodes {κ : Type} {bs : List (BNode κ)} {f : FMut κ} (e : FMut.fromNodes bs = .ok f) : f.nodes = bs := by
  unfold FMut.fromNodes at e
  obtain ⟨n, -, e⟩ := RVec.bind_ok e
  cases e
  rfl

theorem LeafPart.split {w : RVec Cell} {f f1 f2 : FMut Cell} {k : Nat} (hf : ∀ b ∈ f.nodes, LeafPart w b) (e : f.splitAt k = .ok (f1, f2)) :
    (∀ b ∈ f1.nodes, LeafPart w b) ∧ (∀ b ∈ f2.nodes, LeafPart w b) ∧ ∃ ds, f.splitDrops k = .ok ds ∧ ∀ b ∈ ds, LeafPart w b := by
  unfold FMut.splitAt at e
  unfold FMut.splitDrops
  split at e
  · next h0 =>
    obtain ⟨_, -, e⟩ := RVec.bind_ok e
    obtain ⟨_, -, e⟩ := RVec.bind_ok e
    cases e
    rw [if_pos h0]
    exact ⟨by simp [FMut.empty], hf, [], rfl, by simp⟩
  · next h0 =>
    rw [if_neg h0]
    split at e
    · next h1 =>
      obtain ⟨_, -, e⟩ := RVec.bind_ok e
      obtain ⟨_, -, e⟩ := RVec.bind_ok e
      cases e
      rw [if_pos h1]
      exact ⟨hf, by simp [FMut.empty], [], rfl, by simp⟩
    · next h1 =>
      rw [if_neg h1]
      obtain ⟨q, e1, e⟩ := RVec.bind_ok e
      obtain ⟨p, e2, e⟩ := RVec.bind_ok e
      obtain ⟨r, e3, e⟩ := RVec.bind_ok e
      obtain ⟨g1, e4, e⟩ := RVec.bind_ok e
      obtain ⟨g2, e5, e⟩ := RVec.bind_ok e
      obtain ⟨_, -, e⟩ := RVec.bind_ok e
      obtain ⟨_, -, e⟩ := RVec.bind_ok e
      obtain ⟨_, -, e⟩ := RVec.bind_ok e
      obtain ⟨_, -, e⟩ := RVec.bind_ok e
      cases e
      obtain ⟨h1, h2, ds, h3, h4⟩ := LeafPart.splitLoop (w := w) (fun b hb => hf b (List.mem_of_mem_take (List.mem_reverse.1 hb)))
        (fun b hb => hf b (List.mem_of_mem_drop hb)) e3
      rw [FMut.fromNodes_nodes e4, FMut.fromNodes_nodes e5]
      refine ⟨fun b hb => h1 b (List.mem_reverse.1 hb), h2, ds, ?_, h4⟩
      simp only [e1, e2, ok_bind]
      exact h3

theorem OnLeaf.index {w : RVec Cell} {f f' : FMut Cell} {i : Nat} {c : Cell} (h : OnLeaf w f) (e : f.index i = .ok (c, f')) :
    (∃ j : Nat, w.toList[j]? = some c) ∧ OnLeaf w f' := by
  obtain ⟨a, b, hv⟩ := h.views
  by_cases hi : a + i < b
  · have hl : i < (slice w.toList a b).length := by rw [slice_len _ hv.le']; omega
    obtain ⟨f2, e2, ho, hr, -, -, hn⟩ := FMut.get_at hv.ok (idx := i) hl (hv.fresh.not_stale i)
    rw [FMut.index, e2] at e
    cases e
    refine ⟨⟨a + i, ?_⟩, ⟨a, b, hv.le, hv.le', ho, .inl hr⟩, by rw [hn]; exact h.nodes⟩
    rw [← List.getElem?_eq_getElem, slice_get?, if_pos hi]
  · obtain ⟨f2, e2, -⟩ := FMut.get_out hv.ok (idx := i) (by rw [slice_len _ hv.le']; omega)
    rw [FMut.index, e2] at e
    cases e

theorem OnLeaf.split {w : RVec Cell} {f f1 f2 : FMut Cell} {k : Nat} (h : OnLeaf w f) (e : f.splitAt k = .ok (f1, f2)) :
    OnLeaf w f1 ∧ OnLeaf w f2 := by
  obtain ⟨a, b, hv⟩ := h.views
  obtain ⟨n1, n2, -⟩ := LeafPart.split h.nodes e
  by_cases hk : a + k ≤ b
  · obtain ⟨g1, g2, e', v1, v2⟩ := hv.splitAt hk
    rw [e] at e'
    cases e'
    exact ⟨⟨⟨_, _, v1⟩, n1⟩, ⟨⟨_, _, v2⟩, n2⟩⟩
  · rw [FMut.splitAt_panic hv.ok (by rw [slice_len _ hv.le']; have := hv.le; omega)] at e
    cases e

theorem OneLeaf.swap {w : RVec Cell} {m : Nat} {u u' : RVec Nat} {c d : Cell} (h : OneLeaf w m u) (hc : ∃ j : Nat, w.toList[j]? = some c)
    (hd : ∃ j : Nat, w.toList[j]? = some d) (e : u.swapCells c d = .ok u') : OneLeaf w m u' := by
  obtain ⟨i, hc⟩ := hc
  obtain ⟨j, hd⟩ := hd
  have hs := h.built.shows
  obtain ⟨u2, e2, b2, s2, -⟩ := swapCells_ok h.built hs (by rw [h.cells]; exact hc) (by rw [h.cells]; exact hd)
  rw [e] at e2
  cases e2
  have hcells : u'.cells = w := by
    unfold RVec.swapCells at e
    obtain ⟨x, -, e⟩ := RVec.bind_ok e
    obtain ⟨y, -, e⟩ := RVec.bind_ok e
    obtain ⟨v1, e3, e⟩ := RVec.bind_ok e
    rw [RVec.writeCell_cells e, RVec.writeCell_cells e3, h.cells]
  obtain ⟨k, i'⟩ := b2.inv
  have hk : k = 0 := by
    have h1 := h.inv.length .front
    have h2 := i'.length .front
    have h3 : u'.cells.left.length = u.cells.left.length := by rw [hcells, h.cells]
    simp only [RVec.cells, RVec.mapAddr, List.length_mapIdx] at h1 h2 h3
    change u.left.length = 0 at h1
    change u'.left.length = k at h2
    omega
  subst hk
  refine ⟨b2, i', hcells, ?_⟩
  rw [(RVec.shows_iff i').1 s2, (swapAt_perm _ _ _).sum_nat, h.sum]

/-- The foci of a vector of one leaf. -/
theorem OneLeaf.foci (w : RVec Cell) {m : Nat} (hm : m < USIZE_LIMIT) (hw : ∀ c ∈ w.toList, c.2.length = 1) :
    Foci (fun v => OneLeaf w m v.erase) (OnLeaf w) (fun c => ∃ j : Nat, w.toList[j]? = some c) True where
  index h e := h.index e
  split h e := h.split e
  swap h hc hd e := h.swap hc hd (AVec.swapCells_erase _ _ _ _ e)
  keep h _ _ e := by rw [AVec.dropBorrowed_erase _ e]; exact h
  moves _ _ h _ := by rw [h.bare.moveDrops]; exact ⟨_, rfl⟩
  splits _ hq h e := by
    obtain ⟨-, -, ds, e1, h1⟩ := LeafPart.split h.nodes e
    obtain ⟨v', e2⟩ := hq.drop hm ds h1
    exact ⟨ds, v', e1, e2⟩
  ends _ _ h := by
    have hb := h.bare
    rw [show FMut.pathNodes _ = [] by simp [FMut.pathNodes, hb.1, hb.2]]
    exact ⟨_, rfl⟩
  swaps _ _ hc hd e := by
    obtain ⟨i, hc⟩ := hc
    obtain ⟨j, hd⟩ := hd
    unfold RVec.swapCells at e
    obtain ⟨x, e1, e⟩ := RVec.bind_ok e
    obtain ⟨y, e2, e⟩ := RVec.bind_ok e
    obtain ⟨u1, e3, e⟩ := RVec.bind_ok e
    obtain ⟨v1, e4⟩ := AVec.writeCell_back (hw _ (List.mem_of_getElem? hc)) e3
    have := AVec.writeCell_erase _ y _ _ e4
    rw [e3] at this
    cases this
    obtain ⟨v2, e5⟩ := AVec.writeCell_back (hw _ (List.mem_of_getElem? hd)) e
    refine ⟨v2, ?_⟩
    unfold AVec.swapCells
    rw [e1, ok_bind, e2, ok_bind, e4, ok_bind, e5]

theorem OneLeaf.only {w : RVec Cell} {m : Nat} {v : AVec} (h : OneLeaf w m v.erase) {a : Home} {nd : ANode} (e : v.at? a = some nd) :
    a = (none, []) := by
  obtain ⟨front, n, data, s, h1, h2, hroot, -⟩ := h.shape
  obtain ⟨pos, path⟩ := a
  rcases pos with _ | ⟨_ | _, j⟩
  · cases path with
    | nil => rfl
    | cons p path => simp [AVec.at?, AVec.nodeAt, hroot, ANode.at?] at e
  · simp [AVec.at?, AVec.nodeAt, unwrap, h1] at e
  · simp [AVec.at?, AVec.nodeAt, unwrap, h2] at e

/-- The focus of a vector of one leaf that is not empty. -/
theorem OneLeaf.closes {v : AVec} {l : List Nat} (b : Built v.erase) (h : v.Flat l) (hs : SmallSeq l) (hl : l ≠ []) {f : FMut Cell}
    (e : v.erase.cells.focusMut = .ok f) {m : Nat} (hm : m < USIZE_LIMIT) : OnLeaf v.erase.cells f ∧
      Closes (fun v' => OneLeaf v.erase.cells m v'.erase) (fun v' => v'.Flat v'.erase.toList) True f := by
  obtain ⟨f', e', hw, hf⟩ := FlatWorks.start b h
  rw [e] at e'
  cases e'
  have hq : OneLeaf v.erase.cells l.sum v.erase := ⟨b, h.inv b, rfl, by rw [h.toList]⟩
  have hnodes : ∀ b ∈ f.nodes, LeafPart v.erase.cells b ∧ Portrays v.erase.cells (none, []) b := by
    intro b hb
    obtain ⟨pos, hp⟩ := hw.rests.nodes b hb
    obtain ⟨front, n, data, s, h1, h2, hroot, hrep, hr⟩ := hq.shape
    obtain ⟨nd, g1, g2⟩ := hp
    have hpos : pos = none := by
      rcases pos with _ | ⟨_ | _, j⟩
      · rfl
      · simp [RVec.at?, RVec.nodeAt, RVec.cells, RVec.mapAddr, AVec.erase, h1, unwrap] at g1
      · simp [RVec.at?, RVec.nodeAt, RVec.cells, RVec.mapAddr, AVec.erase, h2, unwrap] at g1
    subst hpos
    refine ⟨?_, nd, g1, g2⟩
    have hnd : nd = v.erase.cells.root := by cases g1; rfl
    subst hnd
    rw [hr, Node.borrow] at g2
    obtain ⟨x, g3, g2⟩ := RVec.bind_ok g2
    cases g2
    unfold CB.mutableView at g3
    obtain ⟨_, g4, g3⟩ := RVec.bind_ok g3
    cases g3
    refine ⟨_, 0, n, hr, rfl, Nat.zero_le _, Nat.le_refl _, ?_⟩
    rintro rfl
    cases g4
  have hlen : v.erase.cells.toList.length = l.length := by
    have := b.cells_length b.shows
    rw [h.toList] at this
    exact this
  refine ⟨⟨⟨0, l.length, Nat.zero_le _, by omega, ?_, hf⟩, fun b hb => (hnodes b hb).1⟩, fun v1 hu => ⟨fun _ => ?_, fun v2 e2 => ?_⟩⟩
  · rw [← hlen]
    simpa [slice] using hw.ok
  · refine hu.drop hm _ fun b hb => ?_
    rw [FMut.rootedNodes, List.mem_append] at hb
    rcases hb with hb | hb
    · exact (hnodes b (by simpa using hb)).1
    · simp [FMut.pathNodes, hw.bare.1, hw.bare.2] at hb
  · have hne : f.nodes ≠ [] := by
      obtain ⟨ps, p1, p2, -⟩ := hw.ok.nodes
      intro hn
      rw [hn] at p1
      have : ps = [] := List.map_eq_nil_iff.1 p1.symm
      subst this
      rw [p2] at hlen
      exact hl (List.eq_nil_of_length_eq_zero (by rw [← hlen]; rfl))
    have hw1 : FlatWorks v.erase.cells v1 f v1.erase.toList := by
      refine ⟨⟨hu.built, hu.cells, hw.ok, hw.rests, ?_⟩, hw.bare, hu.inv, rfl⟩
      rintro a ⟨nd, e3, -⟩
      have := hu.only e3
      subst this
      obtain ⟨b, hb⟩ := List.exists_mem_of_ne_nil _ hne
      exact ⟨b, List.mem_append_left _ hb, (hnodes b hb).2⟩
    have hl1 : v1.erase.toList.length = l.length := by
      have := hu.built.cells_length hu.built.shows
      rw [hu.cells, hlen] at this
      exact this.symm
    obtain ⟨v3, e3, hf3⟩ := hw1.finish ⟨by rw [hl1]; exact hs.1, by rw [hu.sum]; exact hm⟩
    rw [AVec.dropFoci, e2] at e3
    cases e3
    exact hf3.self'

/-- The focus of an empty vector. -/
theorem AVec.Flat.focus_nil {v : AVec} (h : v.Flat []) : v.erase.cells.focusMut = .ok FMut.empty := by
  obtain ⟨c, hc, rfl⟩ := h
  have hc0 : c.len = 0 := hc.len_eq
  simp [RVec.focusMut, RVec.cells, RVec.mapAddr, AVec.erase, RVec.borrowNodes, Node.mapAddr, Node.isEmpty, Node.len, hc0, FMut.fromNodes, FMut.sumLens, FMut.empty]

theorem FMut.empty_split {k : Nat} {f1 f2 : FMut Cell} (e : (FMut.empty : FMut Cell).splitAt k = .ok (f1, f2)) :
    k = 0 ∧ f1 = FMut.empty ∧ f2 = FMut.empty := by
  by_cases hk : k = 0
  · subst hk
    have : (FMut.empty : FMut Cell).splitAt 0 = .ok (FMut.empty, FMut.empty) := rfl
    rw [this] at e
    cases e
    exact ⟨rfl, rfl, rfl⟩
  · rw [show (FMut.empty : FMut Cell).splitAt k = .error .panic by
      simp [FMut.splitAt, hk, FMut.empty, FMut.findNodeInfoForIndex]] at e
    cases e

/-- The foci of an empty vector. -/
theorem AVec.foci_nil (v : AVec) : Foci (fun v' => v' = v) (fun f => f = FMut.empty) (fun _ => False) True where
  index h e := by subst h; cases e
  split h e := by subst h; exact (FMut.empty_split e).2
  swap _ h := h.elim
  keep := by
    rintro v1 v2 f bs rfl rfl hd e
    have : bs = [] := by
      obtain rfl | ⟨i, rfl⟩ | ⟨k, e⟩ := hd
      · rfl
      · simp [FMut.moveDrops, FMut.empty]
      · by_cases hk : k = 0
        · subst hk; cases e; rfl
        · simp [FMut.splitDrops, hk, FMut.empty, FMut.findNodeInfoForIndex] at e
    subst this
    cases e
    rfl
  moves _ _ h e := by subst h; cases e
  splits _ h1 h e := by subst h; obtain ⟨rfl, -⟩ := FMut.empty_split e; exact ⟨[], _, rfl, rfl⟩
  ends _ _ h := by subst h; exact ⟨_, rfl⟩
  swaps _ _ h := h.elim

/-- What `sort`, `reverse` and `dual_sort` need of a vector of at most one leaf. -/
theorem AVec.Flat.foci {v : AVec} {l : List Nat} (b : Built v.erase) (h : v.Flat l) (hs : SmallSeq l) :
    ∃ (Q : AVec → Prop) (V : FMut Cell → Prop) (P : Cell → Prop), Foci Q V P True ∧ Q v ∧
      ∀ f, v.erase.cells.focusMut = .ok f → V f ∧ Closes Q (fun v' => v'.Flat v'.erase.toList) True f := by
  by_cases hl : l = []
  · subst hl
    refine ⟨_, _, _, AVec.foci_nil v, rfl, fun f e => ?_⟩
    rw [h.focus_nil] at e
    cases e
    refine ⟨rfl, ?_⟩
    rintro v1 rfl
    refine ⟨fun _ => ⟨_, rfl⟩, ?_⟩
    rintro v2 e
    cases e
    exact h.self'
  · exact ⟨_, _, _, OneLeaf.foci v.erase.cells hs.2 (fun c hc => (h.inv b).flat_place hc), ⟨b, h.inv b, rfl, by rw [h.toList]⟩, fun f e => OneLeaf.closes b h hs hl e hs.2⟩

theorem AVec.Flat.sortRangeBy {v : AVec} {l : List Nat} (b : Built v.erase) (h : v.Flat l) (hs : SmallSeq l) {cmp : Nat → Nat → Ordering}
    {sb eb : Bound} {next : ρ → Nat × ρ} {rng : ρ} {u : RVec Nat} (e : v.erase.sortRangeBy cmp sb eb next rng = .ok u) :
    ∃ v', v.sortRangeBy cmp sb eb next rng = .ok v' ∧ v'.erase = u ∧ v'.Flat u.toList := by
  obtain ⟨Q, V, P, L, hq, hw⟩ := h.foci b hs
  obtain ⟨v', e1, rfl, h1⟩ := (AVec.sortRangeBy_sim L hq hw cmp sb eb next rng).2 trivial _ e
  exact ⟨v', e1, rfl, h1⟩

theorem AVec.Flat.reverseRange {v : AVec} {l : List Nat} (b : Built v.erase) (h : v.Flat l) (hs : SmallSeq l)
    {sb eb : Bound} {u : RVec Nat} (e : v.erase.reverseRange sb eb = .ok u) :
    ∃ v', v.reverseRange sb eb = .ok v' ∧ v'.erase = u ∧ v'.Flat u.toList := by
  obtain ⟨Q, V, P, L, hq, hw⟩ := h.foci b hs
  obtain ⟨v', e1, rfl, h1⟩ := (AVec.reverseRange_sim L hq hw sb eb).2 trivial _ e
  exact ⟨v', e1, rfl, h1⟩

theorem AVec.Flat.dualSortRangeBy {v w : AVec} {l l' : List Nat} (b : Built v.erase) (h : v.Flat l) (hs : SmallSeq l) (b' : Built w.erase)
    (h' : w.Flat l') (hs' : SmallSeq l') {cmp : Nat → Nat → Ordering} {sb eb : Bound} {next : ρ → Nat × ρ} {rng : ρ} {u u' : RVec Nat}
    (e : v.erase.dualSortRangeBy w.erase cmp sb eb next rng = .ok (u, u')) :
    ∃ v' w', v.dualSortRangeBy w cmp sb eb next rng = .ok (v', w') ∧ (v'.erase = u ∧ v'.Flat u.toList) ∧ w'.erase = u' ∧ w'.Flat u'.toList := by
  obtain ⟨Q, V, P, L, hq, hw⟩ := h.foci b hs
  obtain ⟨Q', V', P', L', hq', hw'⟩ := h'.foci b' hs'
  obtain ⟨⟨v', w'⟩, e1, ⟨rfl, h1⟩, rfl, h2⟩ := (AVec.dualSortRangeBy_sim L L' hq hw hq' hw' cmp sb eb next rng).2 trivial _ e
  exact ⟨v', w', e1, ⟨rfl, h1⟩, rfl, h2⟩

end Librrb
