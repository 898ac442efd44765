import Verif.Proof.AnnotatedRests
import Verif.Proof.AnnotatedFlat

/-!
# Mutable foci of annotated vectors of at most 64 items
-/
namespace Librrb

theorem RVec.InvH.flat_place {v : RVec α} (i : RVec.InvH v 0) {c : Cell} (hc : c ∈ v.cells.toList) : c.2.length = 1 := by
  have h1 : v.left = [] := List.eq_nil_of_length_eq_zero (i.length .front)
  have h2 : v.right = [] := List.eq_nil_of_length_eq_zero (i.length .back)
  have ht : v.cells.toList = (v.root.mapAddr fun q _ => ((none, q) : Cell)).toList := by
    simp [RVec.cells, RVec.mapAddr, RVec.toList, h1, h2]
  rw [ht] at hc
  obtain ⟨l, b, e, -⟩ := Node.wf_zero.1 i.root
  rw [e] at hc
  exact Node.leaf_places hc

theorem AVec.writeCell_back {v : AVec} {u : RVec Nat} {x : Nat} {c : Cell} (hl : c.2.length = 1)
    (e : v.erase.writeCell x c = .ok u) : ∃ v', v.writeCell x c = .ok v' := by
  obtain ⟨pos, path⟩ := c
  match path, hl with
  | [p], _ =>
    obtain ⟨nd', e1, e⟩ := RVec.bind_ok e
    obtain ⟨nd2, e2, e⟩ := RVec.bind_ok e
    rw [nodeAt_erase_eq] at e1
    cases e3 : v.nodeAt pos with
    | error f => rw [e3] at e1; cases e1
    | ok nd =>
      rw [e3] at e1
      cases e1
      cases nd with
      | internal s t c m => rw [ANode.erase_internal] at e2; cases e2
      | leaf b m =>
        rw [ANode.erase_leaf, Node.writeAt] at e2
        obtain ⟨d, e4, e2⟩ := RVec.bind_ok e2
        refine ⟨v.withNodeAt pos (.leaf { b with data := d } m), ?_⟩
        simp only [AVec.writeCell, List.getLast?_singleton, AVec.modifyAt, e3, ok_bind, List.dropLast_singleton, ANode.modifyAt,
          ANode.putItem, e4]

theorem FMut.Bare.moveDrops {f : FMut Cell} (h : f.Bare) (idx : Nat) : f.moveDrops idx = [] := by
  unfold FMut.moveDrops
  rw [h.1, h.2]
  split
  · rfl
  · split
    · split <;> rfl
    · split <;> rfl

/-- A vector of one leaf and a focus of it. -/
structure FlatWorks (w : RVec Cell) (v : AVec) (f : FMut Cell) (l : List Nat) : Prop extends Works w v f where
  bare : f.Bare
  inv : RVec.InvH v.erase 0
  items : v.erase.toList = l

theorem FlatWorks.one {w : RVec Cell} {v : AVec} {f : FMut Cell} {l : List Nat} (h : FlatWorks w v f l) {idx : Nat} {c : Cell}
    (hc : w.toList[idx]? = some c) : c.2.length = 1 := by
  have := h.cells
  subst this
  exact h.inv.flat_place (List.mem_of_getElem? hc)

theorem FlatWorks.inv_of {w : RVec Cell} {v v' : AVec} {f f' : FMut Cell} {l : List Nat} (h : FlatWorks w v f l) (h' : Works w v' f') :
    RVec.InvH v'.erase 0 := by
  obtain ⟨k, i⟩ := h'.built.inv
  have := AVec.height_eq h.inv i (by rw [h'.cells, h.cells])
  subst this
  exact i

theorem FlatWorks.op {w : RVec Cell} {v : AVec} {f : FMut Cell} {l : List Nat} (h : FlatWorks w v f l) (hf : f.Fresh) {o : FOp Nat}
    (ho : o.index < l.length) : ∃ x v' f', o.runA (v, f) = .ok (x, (v', f')) ∧ FlatWorks w v' f' (o.spec l).2 ∧ f'.Fresh := by
  have hs : Shows v.erase l := by rw [← h.items]; exact h.built.shows
  have hl := h.built.cells_length hs
  obtain ⟨u, f', e, bu, su, -, -, fr⟩ := (FOp.run_ok h.built hs (lo := 0) (Nat.le_refl _)
    (by rw [← hl, List.take_length, List.drop_zero, h.cells]; exact h.ok) o).1 ho hf
  have hex : ∃ r, o.runA (v, f) = .ok r := by
    unfold FOp.run at e
    obtain ⟨p, e1, e⟩ := RVec.bind_ok e
    obtain ⟨q, e2, -⟩ := RVec.bind_ok e
    obtain ⟨c?, f'⟩ := p
    unfold FOp.runA AVec.focusGet
    simp only [h.bare.moveDrops, AVec.dropBorrowed, ok_bind] at e1 e2 ⊢
    rw [e1, ok_bind, ok_bind]
    have hg := (h.toWorks.get (idx := o.index) (v1 := v) (by rw [h.bare.moveDrops]; rfl) e1).2.2.1
    cases c? with
    | none => simp only [FOp.accessA, ok_bind]; exact ⟨_, rfl⟩
    | some c =>
      rw [FOp.access] at e2
      obtain ⟨y, e3, e2⟩ := RVec.bind_ok e2
      cases o with
      | read j => simp only [FOp.accessA, e3, ok_bind]; exact ⟨_, rfl⟩
      | write j z =>
        obtain ⟨u', e4, e2⟩ := RVec.bind_ok e2
        obtain ⟨v', e5⟩ := AVec.writeCell_back (h.one hg.symm) e4
        simp only [FOp.accessA, e3, ok_bind, e5]
        exact ⟨_, rfl⟩
  obtain ⟨⟨x, v', f''⟩, er⟩ := hex
  have hp := FOp.runA_erase o v f _ er
  rw [e] at hp
  cases hp
  obtain ⟨w1, w2⟩ := h.toWorks.op er
  refine ⟨_, _, _, er, ⟨w1, w2 fun c hc => h.one hc, h.inv_of w1, ?_⟩, fr⟩
  obtain ⟨k, i⟩ := bu.inv
  have := (RVec.shows_iff i).1 su
  dsimp only at this
  rw [this]
  cases o <;> simp [shiftedSpec, FOp.spec]

theorem FlatWorks.ops {w : RVec Cell} : ∀ {ops : List (FOp Nat)} {v : AVec} {f : FMut Cell} {l : List Nat}, FlatWorks w v f l → f.Fresh →
    (∀ o ∈ ops, o.index < l.length) → ∃ x v' f', runAll FOp.runA ops (v, f) = .ok (x, (v', f')) ∧ FlatWorks w v' f' (FOp.specAll ops l).2
  | [], v, f, l, h, _, _ => ⟨_, v, f, rfl, h⟩
  | o :: ops, v, f, l, h, hf, ho => by
    obtain ⟨x, v1, f1, e1, h1, hf1⟩ := h.op hf (ho o (by simp))
    have hl : (o.spec l).2.length = l.length := by cases o <;> simp [FOp.spec]
    obtain ⟨xs, v2, f2, e2, h2⟩ := FlatWorks.ops (ops := ops) h1 hf1 (fun q hq => by rw [hl]; exact ho q (List.mem_cons_of_mem _ hq))
    exact ⟨x :: xs, v2, f2, by simp only [runAll, e1, ok_bind, e2], h2⟩

/-! ### Passes that change items -/

theorem FlatWorks.mapStep (g : Nat → Nat) {w : RVec Cell} {v : AVec} {it : VIterMut Cell} {l : List Nat}
    (h : FlatWorks w v it.focus (halfMapped g l it.front it.back)) (hl : w.toList.length = l.length) (hi : VIterMut.Has w.toList it) (s : Side) :
    ∃ x v' it', mapStepA g s (v, it) = .ok (x, (v', it')) ∧ FlatWorks w v' it'.focus (halfMapped g l it'.front it'.back) ∧
      VIterMut.Has w.toList it' := by
  have hs : Shows v.erase (halfMapped g l it.front it.back) := by rw [← h.items]; exact h.built.shows
  obtain ⟨u, it1, e, bu, su, -, hi1, -, n1, n2⟩ := mapStep_ok g (cs := w.toList) s hl h.built hs (by rw [h.cells]) hi
  have hex : ∃ r, mapStepA g s (v, it) = .ok r := by
    unfold Librrb.mapStep at e
    unfold mapStepA
    obtain ⟨p, e1, e⟩ := RVec.bind_ok e
    have hd : ∀ n, (if it.front != it.back then v.dropBorrowed (it.focus.moveDrops n) else .ok v) = .ok v := by
      intro n
      rw [h.bare.moveDrops]; split <;> rfl
    dsimp only at e1 ⊢
    rw [hd, ok_bind, e1, ok_bind]
    obtain ⟨c?, it2⟩ := p
    cases c? with
    | none => exact ⟨_, rfl⟩
    | some c =>
      dsimp only at e ⊢
      obtain ⟨y, e3, e⟩ := RVec.bind_ok e
      obtain ⟨u', e4, e⟩ := RVec.bind_ok e
      have hm : c ∈ w.toList := by
        obtain ⟨it3, e5, -⟩ := VIterMut.step_ok s it hi
        rw [e5] at e1
        simp only [Except.ok.injEq, Prod.mk.injEq] at e1
        have : c ∈ (w.toList.take it.back).drop it.front := by
          cases s with
          | front => exact List.mem_of_mem_head? (by simpa [takeEnd] using e1.1)
          | back => exact List.mem_of_getLast? (by simpa [takeEnd] using e1.1)
        exact List.mem_of_mem_take (List.mem_of_mem_drop this)
      have hc := h.cells
      rw [← hc] at hm
      obtain ⟨v', e5⟩ := AVec.writeCell_back (h.inv.flat_place hm) e4
      rw [e3, ok_bind, e5, ok_bind]
      exact ⟨_, rfl⟩
  obtain ⟨⟨x, v', it2⟩, er⟩ := hex
  have hp := mapStepA_erase g s v it _ er
  rw [e] at hp
  simp only [Except.ok.injEq, Prod.mk.injEq] at hp
  obtain ⟨-, hu, hit⟩ := hp
  subst hu hit
  obtain ⟨w1, w2, w3⟩ := h.toWorks.mapStep g s er hi.1 hi.2.1
  dsimp only at w1 w2 w3
  refine ⟨_, _, _, er, ⟨w1, ?_, h.inv_of w1, ?_⟩, hi1⟩
  · by_cases hne : it.front = it.back
    · rw [w2 hne]; exact h.bare
    · exact (w3 hne).2 fun c hc => h.one hc
  · obtain ⟨k, i⟩ := bu.inv
    exact (RVec.shows_iff i).1 su

theorem FlatWorks.pass (g : Nat → Nat) {w : RVec Cell} {l : List Nat} (hl : w.toList.length = l.length) : ∀ (ss : List Side) {v : AVec} {it : VIterMut Cell},
    FlatWorks w v it.focus (halfMapped g l it.front it.back) → VIterMut.Has w.toList it →
    ∃ x v' it' l', runScript (mapStepA g) ss (v, it) = .ok (x, (v', it')) ∧ FlatWorks w v' it'.focus l'
  | [], v, it, h, _ => ⟨_, v, it, _, rfl, h⟩
  | s :: ss, v, it, h, hi => by
    obtain ⟨x, v1, it1, e1, h1, hi1⟩ := h.mapStep g hl hi s
    obtain ⟨xs, v2, it2, l2, e2, h2⟩ := FlatWorks.pass g hl ss h1 hi1
    exact ⟨x :: xs, v2, it2, l2, by simp only [runScript, e1, ok_bind, e2], h2⟩

/-! ### The end -/

theorem BBuf.total_ok {data : List (Option Nat)} {front len : Nat} {l : List Nat} (hr : CB.Rep ⟨front, len, data⟩ l) :
    ∀ (n consumed acc : Nat), consumed + n = len → acc + (l.drop consumed).sum < USIZE_LIMIT →
      ∃ r, BBuf.total id { start := 0, stop := len, data := data, front := front, len := len } n consumed acc = .ok r
  | 0, consumed, acc, _, _ => ⟨acc, rfl⟩
  | n + 1, consumed, acc, hc, hs => by
    have hlen : len = l.length := hr.len_eq
    have hle := hr.le
    have hh : BBuf.Has { start := 0, stop := len, data := data, front := front, len := len } [] l [] :=
      ⟨by simpa using hr, rfl, by simp [hlen]⟩
    rw [BBuf.total]
    have hm : consumed % RRB_WIDTH = consumed := Nat.mod_eq_of_lt (by show consumed < 64; omega)
    rw [hm, BBuf.get_ok hh (i := consumed) (by omega), ok_bind]
    dsimp only
    rw [List.drop_eq_getElem_cons (by omega), List.sum_cons] at hs
    rw [uadd_ok (by simp; omega), ok_bind]
    exact BBuf.total_ok hr n (consumed + 1) _ (by omega) (by simp; omega)

theorem FlatWorks.finish {w : RVec Cell} {v : AVec} {f : FMut Cell} {l : List Nat} (h : FlatWorks w v f l) (hs : SmallSeq l) :
    ∃ v', v.dropFoci [f] = .ok v' ∧ v'.Flat l := by
  have hex : ∃ v', v.dropFoci [f] = .ok v' := by
    have hp : f.pathNodes = [] := by simp [FMut.pathNodes, h.bare.1, h.bare.2]
    rw [AVec.dropFoci, FMut.rootedNodes, hp, List.append_nil]
    have key : ∀ (bs : List (BNode Cell)), (∀ b ∈ bs, ∃ pos, Portrays w (pos, []) b) → ∀ v : AVec, RVec.InvH v.erase 0 → v.erase.toList = l →
        v.erase.cells = w → ∃ v', v.dropBorrowed bs = .ok v' := by
      intro bs
      induction bs with
      | nil => intro _ v _ _ _; exact ⟨v, rfl⟩
      | cons b bs ih =>
        intro hbs v i ht hw
        obtain ⟨pos, hv⟩ := hbs b (by simp)
        subst hw
        have hh := hv.home i
        obtain ⟨nd, g1, g2⟩ := hv
        have h1 : v.left = [] := by
          have := i.length .front
          simpa [AVec.erase] using this
        have h2 : v.right = [] := by
          have := i.length .back
          simpa [AVec.erase] using this
        have hpos : pos = none := by
          rcases pos with _ | ⟨_ | _, j⟩
          · rfl
          · simp [RVec.at?, RVec.nodeAt, RVec.cells, RVec.mapAddr, AVec.erase, h1, unwrap] at g1
          · simp [RVec.at?, RVec.nodeAt, RVec.cells, RVec.mapAddr, AVec.erase, h2, unwrap] at g1
        subst hpos
        have hnd : nd = v.root.erase.mapAddr fun q _ => ((none, q) : Cell) := by
          cases g1; rfl
        subst hnd
        have hr := i.root
        cases hroot : v.root with
        | internal s t c m =>
          rw [show v.erase.root = v.root.erase from rfl, hroot, ANode.erase_internal] at hr
          exact hr.elim
        | leaf c m =>
          obtain ⟨front, len, data⟩ := c
          rw [show v.erase.root = v.root.erase from rfl, hroot, ANode.erase_leaf] at hr
          obtain ⟨l', b', e', hrep⟩ := Node.wf_zero.1 hr
          cases e'
          have hl' : l' = l := by
            rw [← ht]
            simp [RVec.toList, AVec.erase, h1, h2, hroot, hrep.toList]
          subst hl'
          rw [hroot, ANode.erase_leaf] at g2
          simp only [Node.mapAddr, Node.borrow] at g2
          obtain ⟨u, g3, g2⟩ := RVec.bind_ok g2
          cases g2
          obtain ⟨_, -, g3⟩ := RVec.bind_ok g3
          cases g3
          obtain ⟨r, er⟩ := BBuf.total_ok hrep len 0 0 (by omega) (by simpa using hs.2)
          have e1 : v.modifyAt (ANode.refresh (.leaf ⟨0, len, data.mapIdx fun p o => o.map fun _ => ((none, [p]) : Cell), front, len⟩)) (none, []) =
              .ok { v with root := .leaf ⟨front, len, data⟩ r } := by
            simp only [AVec.modifyAt, AVec.nodeAt, ok_bind, ANode.modifyAt, hroot, ANode.refresh, BBuf.length, Nat.sub_zero]
            rw [er]
            rfl
          have he : ({ v with root := .leaf ⟨front, len, data⟩ r } : AVec).erase = v.erase := by
            simp [AVec.erase, hroot]
          obtain ⟨v', ev⟩ := ih (fun b hb => hbs b (by simp [hb])) { v with root := .leaf ⟨front, len, data⟩ r }
            (by rw [he]; exact i) (by rw [he]; exact ht) (by rw [he])
          refine ⟨v', ?_⟩
          rw [AVec.dropBorrowed, hh, ok_bind]
          rw [e1, ok_bind]
          exact ev
    exact key _ (fun b hb => h.rests.nodes b (by simpa using hb)) v h.inv h.items h.cells
  obtain ⟨v', e⟩ := hex
  refine ⟨v', e, ?_⟩
  have hb := h.toWorks.finish h.bare e
  have he := AVec.dropFoci_erase _ e
  have i := h.inv
  rw [← he] at i
  have ht := h.items
  rw [← he] at ht
  have h1 : v'.left = [] := by
    have := i.length .front
    simpa [AVec.erase] using this
  have h2 : v'.right = [] := by
    have := i.length .back
    simpa [AVec.erase] using this
  have hr := i.root
  have hlen := i.len
  cases hroot : v'.root with
  | internal s t c m =>
    rw [show v'.erase.root = v'.root.erase from rfl, hroot, ANode.erase_internal] at hr
    exact hr.elim
  | leaf c m =>
    rw [show v'.erase.root = v'.root.erase from rfl, hroot, ANode.erase_leaf] at hr
    obtain ⟨l', b', e', hrep⟩ := Node.wf_zero.1 hr
    cases e'
    have hl' : l' = l := by
      rw [← ht]
      simp [RVec.toList, AVec.erase, h1, h2, hroot, hrep.toList]
    subst hl'
    have hm : m = l'.sum := by
      by_contra hne
      refine hb (none, []) ⟨.leaf c m, by simp [AVec.at?, AVec.nodeAt, hroot, ANode.at?], ?_⟩
      simp only [ANode.cached, ANode.lsum, hrep.toList]
      exact hne
    rw [ht] at hlen
    refine ⟨c, hrep, ?_⟩
    cases v'
    simp only at h1 h2 hroot
    subst h1 h2 hroot hm
    congr 1

theorem AVec.Flat.inv {v : AVec} {l : List Nat} (h : v.Flat l) (b : Built v.erase) : RVec.InvH v.erase 0 := by
  obtain ⟨k, i⟩ := b.inv
  obtain ⟨c, -, rfl⟩ := h
  cases k with
  | zero => exact i
  | succ k => exact absurd (i.length .front) (by simp [AVec.erase])

theorem AVec.Flat.cached {v : AVec} {l : List Nat} (h : v.Flat l) (b : Built v.erase) : v.Cached 0 := by
  refine (AVec.cached_iff (h.inv b)).2 ⟨Nat.le_refl _, ?_⟩
  obtain ⟨c, hc, rfl⟩ := h
  rintro ⟨pos, path⟩ ⟨nd, e, hne⟩
  rcases pos with _ | ⟨_ | _, j⟩
  · cases path with
    | nil =>
      cases e
      exact hne (by simp [ANode.cached, ANode.lsum, hc.toList])
    | cons p path => cases e
  · simp [AVec.at?, AVec.nodeAt, unwrap] at e
  · simp [AVec.at?, AVec.nodeAt, unwrap] at e

theorem FlatWorks.start {v : AVec} {l : List Nat} (b : Built v.erase) (h : v.Flat l) :
    ∃ f, v.erase.cells.focusMut = .ok f ∧ FlatWorks v.erase.cells v f l ∧ f.Fresh := by
  have i := h.inv b
  obtain ⟨f, e, -, hf⟩ := RVec.focusMut_ok (i.mapAddr fun c _ => c)
  obtain ⟨hw, hb⟩ := Works.start b i (h.cached b) e
  exact ⟨f, e, ⟨hw, hb, i, h.toList⟩, hf⟩

theorem AVec.Flat.editFocus {v : AVec} {l : List Nat} (b : Built v.erase) (h : v.Flat l) {ops : List (FOp Nat)}
    (ho : ∀ o ∈ ops, o.index < l.length) (hs : SmallSeq (FOp.specAll ops l).2) :
    ∃ x v', (AAct.editFocus ops).run v = .ok (x, v', []) ∧ v'.Flat (FOp.specAll ops l).2 := by
  obtain ⟨f, e, hw, hf⟩ := FlatWorks.start b h
  obtain ⟨x, v1, f1, e1, h1⟩ := hw.ops hf ho
  obtain ⟨v2, e2, h2⟩ := h1.finish hs
  exact ⟨.items x, v2, by simp only [AAct.run, e, ok_bind, e1, e2], h2⟩

theorem AVec.Flat.mapEnds {v : AVec} {l : List Nat} (b : Built v.erase) (h : v.Flat l) (g : Nat → Nat) {script : List Side}
    (hs : SmallSeq (Librrb.mapEnds g script l)) :
    ∃ x v', (AAct.mapEnds g script).run v = .ok (x, v', []) ∧ v'.Flat (Librrb.mapEnds g script l) := by
  have i := h.inv b
  obtain ⟨f, e, hw, hf⟩ := FlatWorks.start b h
  obtain ⟨it, e0, hi, h1, h2⟩ := VIterMut.new_ok i
  have hl : v.erase.cells.toList.length = l.length := b.cells_length ((RVec.shows_iff i).2 h.toList)
  have hfo : it.focus = f := by
    unfold VIterMut.new at e0
    rw [e, ok_bind] at e0
    cases e0; rfl
  have hh : halfMapped g l it.front it.back = l := by simp [halfMapped, h1, h2, hl]
  have hw' : FlatWorks v.erase.cells v it.focus (halfMapped g l it.front it.back) := by rw [hh, hfo]; exact hw
  obtain ⟨x, v1, it1, l1, e1, w1⟩ := FlatWorks.pass g hl script hw' hi
  obtain ⟨u, it2, e2, bu, su⟩ := mapScript_ok g script hl b (by rw [hh]; exact (RVec.shows_iff i).2 h.toList) rfl hi
  have hr := runScript_refines (φ := fun st => (st.1.erase, st.2)) (fun s st => mapStepA_erase g s st.1 st.2) script (v, it) _ e1
  rw [e2] at hr
  simp only [Except.ok.injEq, Prod.mk.injEq] at hr
  obtain ⟨-, hu, -⟩ := hr
  obtain ⟨k, iu⟩ := bu.inv
  have ht := (RVec.shows_iff iu).1 su
  rw [hu, w1.items, h1, h2, hl] at ht
  simp only [List.take_zero, List.map_nil, List.nil_append, List.take_length, List.drop_zero, List.drop_length, List.append_nil] at ht
  subst ht
  obtain ⟨v2, e3, h3⟩ := w1.finish hs
  exact ⟨.items x, v2, by simp only [AAct.run, e0, ok_bind, e1, e3], h3⟩

end Librrb
