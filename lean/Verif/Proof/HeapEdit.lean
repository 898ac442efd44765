import Verif.Proof.HeapSort
import Verif.HeapHistory
import Verif.Proof.Pieces

/-!
# Sorting two vectors, and edits through foci and mutable iterators, do on the heap what they do on plain trees
-/
namespace Librrb

open VecOf

/-! ### Two vectors -/

/-- Two vectors behind fixed entries. -/
def DualHolds (h : St α) (hv hw : HVec) (C D : RVec Cell) (F : Ctx α) (s : RVec α × RVec α) : Prop :=
  ∃ p q : VecOf (Addr × Node α), p.addrs = hv ∧ p.nodes = s.1 ∧ s.1.cells = C ∧ q.addrs = hw ∧ q.nodes = s.2 ∧ s.2.cells = D ∧
    Own h (p.owned + q.owned + F)

/-- The owners from outside. -/
def entries2 (hv hw : HVec) (F : Ctx α) (e : Addr) : Prop := 1 ≤ hv.entries.count e + (hw.entries.count e + F.refs e)

section Two

variable {h : St α} {hv hw : HVec} {C D : RVec Cell} {F : Ctx α} {s : RVec α × RVec α}

theorem DualHolds.left (w : DualHolds h hv hw C D F s) : ∃ F', HoldsAt h hv C F' s.1 ∧ entriesOf hv F' = entries2 hv hw F ∧
    ∀ h' v', HoldsAt h' hv C F' v' → DualHolds h' hv hw C D F (v', s.2) := by
  obtain ⟨p, q, rfl, h1, h2, rfl, h3, h4, w⟩ := w
  refine ⟨q.owned + F, ⟨p, rfl, h1, h2, by rw [← add_assoc]; exact w⟩, ?_, ?_⟩
  · funext e
    unfold entriesOf entries2
    rw [refs_add, ← own_entries q, refs_own, entries_addrs q]
  · rintro h' v' ⟨p', k1, k2, k3, w'⟩
    exact ⟨p', q, k1, k2, k3, rfl, h3, h4, by rw [add_assoc]; exact w'⟩

theorem DualHolds.right (w : DualHolds h hv hw C D F s) : ∃ F', HoldsAt h hw D F' s.2 ∧ entriesOf hw F' = entries2 hv hw F ∧
    ∀ h' v', HoldsAt h' hw D F' v' → DualHolds h' hv hw C D F (s.1, v') := by
  obtain ⟨p, q, rfl, h1, h2, rfl, h3, h4, w⟩ := w
  refine ⟨p.owned + F, ⟨q, rfl, h3, h4, by rw [← add_assoc, add_comm q.owned]; exact w⟩, ?_, ?_⟩
  · funext e
    unfold entriesOf entries2
    rw [refs_add, ← own_entries p, refs_own, entries_addrs p]
    have : ∀ a b c : Nat, a + (b + c) = b + (a + c) := by omega
    rw [this]
  · rintro h' v' ⟨q', k1, k2, k3, w'⟩
    exact ⟨p, q', rfl, h1, h2, k1, k2, k3, by rw [add_comm p.owned, add_assoc]; exact w'⟩

theorem dual_sim (w0 : DualHolds h hv hw C D F s) (cmp : α → α → Ordering) :
    SortSim (entries2 hv hw F) (fun h s => DualHolds h hv hw C D F s)
      (fun h a b => SameFM h hv C a.1 b.1 ∧ SameFM h hw D a.2 b.2) (HSortFocus.dual cmp) (SortFocus.dual cmp) := by
  have monoL : ∀ {h1 h2 : St α} {g d}, SameFM h1 hv C g d → Later (entries2 hv hw F) h1.heap h2.heap → SameFM h2 hv C g d := by
    intro h1 h2 g d r lt
    obtain ⟨F', wl, hE, -⟩ := w0.left
    exact wl.sameFM r (by rw [hE]; exact lt)
  have monoR : ∀ {h1 h2 : St α} {g d}, SameFM h1 hw D g d → Later (entries2 hv hw F) h1.heap h2.heap → SameFM h2 hw D g d := by
    intro h1 h2 g d r lt
    obtain ⟨F', wl, hE, -⟩ := w0.right
    exact wl.sameFM r (by rw [hE]; exact lt)
  refine ⟨fun r => r.1.len, ?_, fun r lt => ⟨monoL r.1 lt, monoR r.2 lt⟩, ?_, ?_, ?_⟩
  · intro h a b r
    show massert (a.1.len == a.2.len) = massert (b.1.len == b.2.len)
    rw [r.1.len, r.2.len]
  · intro h s a b k w r
    obtain ⟨F1, w1, hE1, b1⟩ := w.left
    have n1 := splitAt_holds w1 r.1 k
    rw [hE1] at n1
    refine Nav.bind n1 fun h1 x x' l1 q1 => ?_
    obtain ⟨F2, w2, hE2, b2⟩ := (b1 h1 _ q1.1).right
    have n2 := splitAt_holds w2 (monoR r.2 l1) k
    rw [hE2] at n2
    refine Nav.bind n2 fun h2 y y' l2 q2 => ?_
    exact Nav.pure ⟨b2 h2 _ q2.1, ⟨monoL q1.2.1 l2, q2.2.1⟩, monoL q1.2.2 l2, q2.2.2⟩
  · intro h s a a' b b' i j w ra rb
    obtain ⟨F1, w1, hE1, b1⟩ := w.left
    have := index2_holds w1 ra.1 rb.1 i j (Q := fun h' g d => DualHolds h' hv hw C D F s ∧ g.1 = d.1 ∧
        (SameFM h' hv C g.2.1.1 d.2.1.1 ∧ SameFM h' hw D g.2.1.2 d.2.1.2) ∧
        (SameFM h' hv C g.2.2.1 d.2.2.1 ∧ SameFM h' hw D g.2.2.2 d.2.2.2))
      (k := fun x y => do
        let p ← readPtr x.1
        let q ← readPtr y.1
        pure (cmp p q, (x.2, a.2), (y.2, b.2)))
      (k' := fun x y => do
        let p ← s.1.readCell x.1
        let q ← s.1.readCell y.1
        .ok (cmp p q, (x.2, a'.2), (y.2, b'.2)))
      fun h1 x y x' y' l1 w1' px py rx ry => by
        refine Nav.bind (readPtr_nav w1' px) fun h2 p p' _ q => ?_
        obtain ⟨rfl, rfl⟩ := q
        refine Nav.bind (readPtr_nav w1' py) fun h2 p p' _ q => ?_
        obtain ⟨rfl, rfl⟩ := q
        rw [hE1] at l1
        exact Nav.pure ⟨b1 _ _ w1', rfl, ⟨rx, monoR ra.2 l1⟩, ry, monoR rb.2 l1⟩
    rw [hE1] at this
    exact this
  · intro h s a a' b b' i j w ra rb
    obtain ⟨F1, w1, hE1, b1⟩ := w.left
    have := index2_holds w1 ra.1 rb.1 i j (Q := fun h' g d => DualHolds h' hv hw C D F d.1 ∧
        (SameFM h' hv C g.1.1 d.2.1.1 ∧ SameFM h' hw D g.1.2 d.2.1.2) ∧
        (SameFM h' hv C g.2.1 d.2.2.1 ∧ SameFM h' hw D g.2.2 d.2.2.2))
      (k := fun x y => do
        swapPtrs x.1 y.1
        let p ← a.2.index i
        let q ← b.2.index j
        swapPtrs p.1 q.1
        pure ((x.2, p.2), (y.2, q.2)))
      (k' := fun x y => do
        let v ← s.1.swapCells x.1 y.1
        let p ← a'.2.index i
        let q ← b'.2.index j
        let w ← s.2.swapCells p.1 q.1
        .ok ((v, w), (x.2, p.2), (y.2, q.2)))
      fun h1 x y x' y' l1 w1' px py rx ry => by
        have n1 := swapPtrs_nav w1' px py
        rw [hE1] at n1 l1 ⊢
        refine Nav.bind n1 fun h2 _ v' l2 w2 => ?_
        obtain ⟨F2, w3, hE2, b2⟩ := (b1 h2 _ w2).right
        have := index2_holds w3 (monoR (monoR ra.2 l1) l2) (monoR (monoR rb.2 l1) l2) i j
          (Q := fun h' g d => DualHolds h' hv hw C D F d.1 ∧
            (SameFM h' hv C g.1.1 d.2.1.1 ∧ SameFM h' hw D g.1.2 d.2.1.2) ∧
            (SameFM h' hv C g.2.1 d.2.2.1 ∧ SameFM h' hw D g.2.2 d.2.2.2))
          (k := fun p q => do
            swapPtrs p.1 q.1
            pure ((x.2, p.2), (y.2, q.2)))
          (k' := fun p q => do
            let w ← s.2.swapCells p.1 q.1
            .ok ((v', w), (x'.2, p.2), (y'.2, q.2)))
          fun h3 p q p' q' l3 w3' pp pq rp rq => by
            have n3 := swapPtrs_nav w3' pp pq
            rw [hE2] at n3 l3 ⊢
            refine Nav.bind n3 fun h4 _ w' l4 w4 => ?_
            exact Nav.pure ⟨b2 h4 _ w4, ⟨monoL (monoL (monoL rx l2) l3) l4, monoR rp l4⟩,
              monoL (monoL (monoL ry l2) l3) l4, monoR rq l4⟩
        rw [hE2] at this
        exact this
    rw [hE1] at this
    exact this

/-- `dual_sort_range_by`. -/
theorem hdualSortRangeBy_nav {p q : VecOf (Addr × Node α)} (w : Own h (p.owned + q.owned + F))
    (hp : ∃ d, p.nodes.cells.focusMut = .ok d) (hq : ∃ d, q.nodes.cells.focusMut = .ok d) (cmp : α → α → Ordering)
    (sb eb : Bound) (next : ρ → Nat × ρ) (rng : ρ) :
    Nav F.starts h (p.addrs.dualSortRangeBy q.addrs cmp sb eb next rng) (p.nodes.dualSortRangeBy q.nodes cmp sb eb next rng)
      fun h' a s => ∃ p' q' : VecOf (Addr × Node α), a = (p'.addrs, q'.addrs) ∧ p'.nodes = s.1 ∧ q'.nodes = s.2 ∧
        Own h' (p'.owned + q'.owned + F) := by
  unfold HVec.dualSortRangeBy RVec.dualSortRangeBy
  refine Nav.same fun lo _ => Nav.same fun hi _ => ?_
  rw [add_assoc] at w
  refine Nav.bind ((hwindow_nav w hp lo hi).mono_E fun a ha => Ctx.starts_add.2 (.inr ha)) fun h1 a1 d1 _ q1 => ?_
  obtain ⟨a1, g1⟩ := a1
  obtain ⟨⟨p1, rfl, n2, -, w1⟩, r1⟩ := q1
  dsimp only at r1 ⊢
  rw [← add_assoc, add_comm p1.owned, add_assoc] at w1
  refine Nav.bind (((hwindow_nav w1 hq lo hi).mono (Q' := fun h' a b => Later (p1.owned + F).starts h1.heap h'.heap ∧
    HoldsAt h' a.1 q.nodes.cells (p1.owned + F) q.nodes ∧ SameFM h' a.1 q.nodes.cells a.2 b) fun h' a b lt q => ⟨lt, q⟩).mono_E
    fun a ha => Ctx.starts_add.2 (.inr ha)) fun h2 a2 d2 _ q2 => ?_
  obtain ⟨a2, g2⟩ := a2
  obtain ⟨l2, ⟨q1, rfl, m2, -, w2⟩, r2⟩ := q2
  dsimp only at r2 ⊢
  have hs : DualHolds h2 p1.addrs q1.addrs p.nodes.cells q.nodes.cells F (p.nodes, q.nodes) :=
    ⟨p1, q1, rfl, n2, rfl, rfl, m2, rfl, by rw [add_comm p1.owned, add_assoc]; exact w2⟩
  have r1' : SameFM h2 p1.addrs p.nodes.cells g1 d1 := by
    have o : Owns (p1.owned + F) p1.addrs p.nodes.cells := ⟨p1, F, rfl, by rw [n2], rfl⟩
    exact r1.mono o l2
  rw [r1'.len]
  refine Nav.mono_E (E := entries2 p1.addrs q1.addrs F) ?_ ?_
  · refine Nav.bind ((dual_sim hs cmp).sort next _ (f := (g1, g2)) (f' := (d1, d2)) rng hs ⟨r1', r2⟩) fun h3 _ s _ q3 => ?_
    obtain ⟨⟨p2, q2, a1, a2, a3, b1, b2, b3, w3⟩, -⟩ := q3
    exact Nav.pure ⟨p2, q2, by rw [a1, b1], a2, b2, w3⟩
  · intro e he
    have : 1 ≤ Ctx.refs _ _ := he
    show 1 ≤ _
    omega

end Two

/-! ### Foci and iterators -/

section Edit

variable {h : St α} {hv : HVec} {C : RVec Cell} {F : Ctx α} {v : RVec α}

/-- A focus behind fixed entries, as an operation leaves it. -/
theorem fop_nav (o : FOp α) (w : HoldsAt h hv C F v) {g : HFMut} {d : FMut Cell} (r : SameFM h hv C g d) :
    Nav (entriesOf hv F) h (o.hrun g) (o.run (v, d)) fun h' a b =>
      a.1 = b.1 ∧ HoldsAt h' hv C F b.2.1 ∧ SameFM h' hv C a.2 b.2.2 := by
  unfold FOp.hrun FOp.run
  refine Nav.bind (get_holds w r o.index) fun h1 x x' l1 q => ?_
  obtain ⟨x, g1⟩ := x
  obtain ⟨x', d1⟩ := x'
  obtain ⟨w1, hp, r1⟩ := q
  refine Nav.bind (Q := fun h' a b => a = b.1 ∧ HoldsAt h' hv C F b.2) ?_ fun h2 a b l2 q => ?_
  · cases hp with
    | none => exact Nav.pure ⟨rfl, w1⟩
    | some hp =>
      refine Nav.bind (readPtr_nav w1 hp) fun h2 y y' _ q => ?_
      obtain ⟨rfl, rfl⟩ := q
      cases o with
      | read i => exact Nav.pure ⟨rfl, w1⟩
      | write i z => exact Nav.bind (writePtr_nav w1 hp z) fun h3 _ v' _ w3 => Nav.pure ⟨rfl, w3⟩
  · exact Nav.pure ⟨q.1, q.2, w.sameFM r1 l2⟩

/-- The two iterators are at the same place. -/
structure SameIM (h : St α) (hv : HVec) (C : RVec Cell) (g : HVIterMut) (d : VIterMut Cell) : Prop where
  front : g.front = d.front
  back : g.back = d.back
  focus : SameFM h hv C g.focus d.focus

theorem stepMut_nav (s : Side) (w : HoldsAt h hv C F v) {g : HVIterMut} {d : VIterMut Cell} (r : SameIM h hv C g d) :
    Nav (entriesOf hv F) h (HVIterMut.step s g) (VIterMut.step s d) fun h' a b =>
      HoldsAt h' hv C F v ∧ Option.Rel (PtrAt h' hv C) a.1 b.1 ∧ SameIM h' hv C a.2 b.2 := by
  cases s with
  | front =>
    show Nav _ h g.next d.next _
    unfold HVIterMut.next VIterMut.next
    rw [r.front, r.back]
    refine Nav.ite (fun _ => ?_) fun _ => Nav.pure ⟨w, .none, ⟨r.front, r.back, r.focus⟩⟩
    refine Nav.bind (get_holds w r.focus _) fun h1 x x' l1 q => ?_
    refine Nav.lift (MRel.unwrap q.2.1) fun y y' hy => ?_
    exact Nav.pure ⟨q.1, .some hy, ⟨rfl, rfl, q.2.2⟩⟩
  | back =>
    show Nav _ h g.nextBack d.nextBack _
    unfold HVIterMut.nextBack VIterMut.nextBack
    rw [r.front, r.back]
    refine Nav.ite (fun _ => ?_) fun _ => Nav.pure ⟨w, .none, ⟨r.front, r.back, r.focus⟩⟩
    refine Nav.same fun bk _ => ?_
    refine Nav.bind (get_holds w r.focus _) fun h1 x x' l1 q => ?_
    exact Nav.pure ⟨q.1, q.2.1, ⟨rfl, rfl, q.2.2⟩⟩

theorem mapStep_nav (f : α → α) (s : Side) (w : HoldsAt h hv C F v) {g : HVIterMut} {d : VIterMut Cell} (r : SameIM h hv C g d) :
    Nav (entriesOf hv F) h (hmapStep f s g) (mapStep f s (v, d)) fun h' a b =>
      a.1 = b.1 ∧ HoldsAt h' hv C F b.2.1 ∧ SameIM h' hv C a.2 b.2.2 := by
  unfold hmapStep mapStep
  refine Nav.bind (stepMut_nav s w r) fun h1 x x' l1 q => ?_
  obtain ⟨x, g1⟩ := x
  obtain ⟨x', d1⟩ := x'
  obtain ⟨w1, hp, r1⟩ := q
  dsimp only
  cases hp with
  | none => exact Nav.pure ⟨rfl, w1, r1⟩
  | some hp =>
    refine Nav.bind (readPtr_nav w1 hp) fun h2 y y' _ q => ?_
    obtain ⟨rfl, rfl⟩ := q
    refine Nav.bind (writePtr_nav w1 hp (f y)) fun h3 _ v' l3 w3 => ?_
    exact Nav.pure ⟨rfl, w3, r1.front, r1.back, w.sameFM r1.focus l3⟩

/-- A list of calls, each of which does the same on both sides. -/
theorem runAll_nav {E : Addr → Prop} {R : St α → σ → τ → Prop} {step : ι → σ → HM α (β × σ)} {step' : ι → τ → M (β × τ)}
    (hs : ∀ h o a b, R h a b → Nav E h (step o a) (step' o b) fun h' x y => x.1 = y.1 ∧ R h' x.2 y.2) :
    ∀ (os : List ι) {h : St α} {a : σ} {b : τ}, R h a b →
      Nav E h (hrunAll step os a) (runAll step' os b) fun h' x y => x.1 = y.1 ∧ R h' x.2 y.2
  | [], h, a, b, r => Nav.pure ⟨rfl, r⟩
  | o :: os, h, a, b, r => by
    unfold hrunAll runAll
    refine Nav.bind (hs h o a b r) fun h1 x y _ q => ?_
    refine Nav.bind (runAll_nav hs os q.2) fun h2 x' y' _ q' => ?_
    exact Nav.pure ⟨by rw [q.1, q'.1], q'.2⟩

theorem runScript_eq_runAll (step : Side → σ → M (Option β × σ)) : ∀ (ss : List Side) (st : σ),
    runScript step ss st = runAll step ss st
  | [], st => rfl
  | s :: ss, st => by
    unfold runScript runAll
    congr 1
    funext r
    rw [runScript_eq_runAll step ss r.2]

/-- An operation on the pieces of a focus. -/
theorem top_nav (t : TOp α) (w : HoldsAt h hv C F v) {gs : List HFMut} {ds : List (FMut Cell)}
    (r : List.Forall₂ (SameFM h hv C) gs ds) :
    Nav (entriesOf hv F) h (t.hrun gs) (t.run (v, ds)) fun h' a b =>
      a.1 = b.1 ∧ HoldsAt h' hv C F b.2.1 ∧ List.Forall₂ (SameFM h' hv C) a.2 b.2.2 := by
  have later : ∀ {h' : St α} {gs : List HFMut} {ds : List (FMut Cell)}, List.Forall₂ (SameFM h hv C) gs ds →
      Later (entriesOf hv F) h.heap h'.heap → List.Forall₂ (SameFM h' hv C) gs ds :=
    fun r l => r.imp fun _ _ q => w.sameFM q l
  have none_case : ∀ {k : Nat}, gs[k]? = none → ds[k]? = none := by
    intro k hk
    rw [List.getElem?_eq_none_iff] at hk ⊢
    rw [← r.length_eq]
    exact hk
  cases t with
  | use k o =>
    unfold TOp.hrun TOp.run
    dsimp only
    cases hk : gs[k]? with
    | none => rw [none_case hk]; exact Nav.pure ⟨rfl, w, r⟩
    | some g =>
      obtain ⟨d, hd, r0, r1, r2⟩ := forall₂_at r hk
      rw [hd]
      refine Nav.bind (fop_nav o w r0) fun h1 a b l q => ?_
      refine Nav.pure ⟨q.1, q.2.1, ?_⟩
      rw [set_at_index hk, set_at_index hd]
      exact forall₂_join (later r1 l) q.2.2 (later r2 l)
  | split k i =>
    unfold TOp.hrun TOp.run
    dsimp only
    cases hk : gs[k]? with
    | none => rw [none_case hk]; exact Nav.pure ⟨rfl, w, r⟩
    | some g =>
      obtain ⟨d, hd, r0, r1, r2⟩ := forall₂_at r hk
      rw [hd]
      refine Nav.bind (splitAt_holds w r0 i) fun h1 a b l q => ?_
      exact Nav.pure ⟨rfl, q.1, forall₂_join (later r1 l) q.2.1 (.cons q.2.2 (later r2 l))⟩

/-- A call that changes the vector and has answers. -/
def LeftBy (F : Ctx α) (h : St α) (a : List (Option α) × HVec) (b : List (Option α) × RVec α) : Prop :=
  a.1 = b.1 ∧ VecLeft F h a.2 b.2

/-- Edits through `focus_mut`. -/
theorem editFocus_nav {p : VecOf (Addr × Node α)} (w : Own h (p.owned + F)) (hf : ∃ d, p.nodes.cells.focusMut = .ok d)
    (ops : List (FOp α)) {k : List (Option α) × HVec → γ} {k' : List (Option α) × RVec α → δ} {Q : St α → γ → δ → Prop}
    (hk : ∀ h a b, LeftBy F h a b → Q h (k a) (k' b)) :
    Nav F.starts h (p.addrs.focusMut >>= fun w => hrunAll FOp.hrun ops w.2 >>= fun r => pure (k (r.1, w.1)) : HM α γ)
      (p.nodes.cells.focusMut >>= fun f => runAll FOp.run ops (p.nodes, f) >>= fun r => .ok (k' (r.1, r.2.1))) Q := by
  obtain ⟨f, e1⟩ := hf
  rw [e1]
  refine Nav.bind (focusMut_nav w e1) fun h1 a f _ q => ?_
  obtain ⟨a, g⟩ := a
  obtain ⟨p', rfl, n1, w1, r1⟩ := q
  have w1 : HoldsAt h1 p'.addrs p.nodes.cells F p.nodes := ⟨p', rfl, n1, rfl, w1⟩
  refine Nav.mono_E ?_ (entries_F p'.addrs F)
  refine Nav.bind (runAll_nav
    (R := fun h g st => HoldsAt h p'.addrs p.nodes.cells F st.1 ∧ SameFM h p'.addrs p.nodes.cells g st.2)
    (step := FOp.hrun) (step' := FOp.run) (E := entriesOf p'.addrs F)
    (fun h o a b q => fop_nav o q.1 q.2) ops ⟨w1, r1⟩) fun h2 a b l2 q => ?_
  exact Nav.pure (hk _ _ _ ⟨q.1, q.2.1.vecLeft⟩)

/-- Work on the pieces of a `focus_mut`. -/
theorem shareFocus_nav {p : VecOf (Addr × Node α)} (w : Own h (p.owned + F)) (hf : ∃ d, p.nodes.cells.focusMut = .ok d)
    (ops : List (TOp α)) {k : List (Option α) × HVec → γ} {k' : List (Option α) × RVec α → δ} {Q : St α → γ → δ → Prop}
    (hk : ∀ h a b, LeftBy F h a b → Q h (k a) (k' b)) :
    Nav F.starts h (p.addrs.focusMut >>= fun w => hrunAll TOp.hrun ops [w.2] >>= fun r => pure (k (r.1, w.1)) : HM α γ)
      (p.nodes.cells.focusMut >>= fun f => runAll TOp.run ops (p.nodes, [f]) >>= fun r => .ok (k' (r.1, r.2.1))) Q := by
  obtain ⟨f, e1⟩ := hf
  rw [e1]
  refine Nav.bind (focusMut_nav w e1) fun h1 a f _ q => ?_
  obtain ⟨a, g⟩ := a
  obtain ⟨p', rfl, n1, w1, r1⟩ := q
  have w1 : HoldsAt h1 p'.addrs p.nodes.cells F p.nodes := ⟨p', rfl, n1, rfl, w1⟩
  refine Nav.mono_E ?_ (entries_F p'.addrs F)
  refine Nav.bind (runAll_nav
    (R := fun h gs st => HoldsAt h p'.addrs p.nodes.cells F st.1 ∧ List.Forall₂ (SameFM h p'.addrs p.nodes.cells) gs st.2)
    (step := TOp.hrun) (step' := TOp.run) (E := entriesOf p'.addrs F)
    (fun h o a b q => top_nav o q.1 q.2) ops ⟨w1, .cons r1 .nil⟩) fun h2 a b l2 q => ?_
  exact Nav.pure (hk _ _ _ ⟨q.1, q.2.1.vecLeft⟩)

/-- A loop over `iter_mut`. -/
theorem mapEnds_nav {p : VecOf (Addr × Node α)} (w : Own h (p.owned + F)) (hf : ∃ d, p.nodes.cells.focusMut = .ok d)
    (f : α → α) (script : List Side) {k : List (Option α) × HVec → γ} {k' : List (Option α) × RVec α → δ}
    {Q : St α → γ → δ → Prop} (hk : ∀ h a b, LeftBy F h a b → Q h (k a) (k' b)) :
    Nav F.starts h (HVIterMut.new p.addrs >>= fun w => hrunAll (hmapStep f) script w.2 >>= fun r => pure (k (r.1, w.1)) : HM α γ)
      (VIterMut.new p.nodes.cells >>= fun it => runScript (mapStep f) script (p.nodes, it) >>= fun r =>
        .ok (k' (r.1, r.2.1))) Q := by
  obtain ⟨d, e1⟩ := hf
  unfold HVIterMut.new VIterMut.new
  simp only [bind_assoc, runScript_eq_runAll]
  rw [e1]
  refine Nav.bind (focusMut_nav w e1) fun h1 a d2 _ q => ?_
  obtain ⟨a, g⟩ := a
  obtain ⟨p', rfl, n1, w1, r1⟩ := q
  have w1 : HoldsAt h1 p'.addrs p.nodes.cells F p.nodes := ⟨p', rfl, n1, rfl, w1⟩
  refine Nav.mono_E ?_ (entries_F p'.addrs F)
  simp only [pure_bind, ok_bind]
  refine Nav.bind (runAll_nav
    (R := fun h g st => HoldsAt h p'.addrs p.nodes.cells F st.1 ∧ SameIM h p'.addrs p.nodes.cells g st.2)
    (step := hmapStep f) (step' := mapStep f) (E := entriesOf p'.addrs F)
    (fun h o a b q => mapStep_nav f o q.1 q.2) script (a := ⟨0, p.addrs.len, g⟩) ⟨w1, rfl, rfl, r1⟩) fun h2 a b l2 q => ?_
  exact Nav.pure (hk _ _ _ ⟨q.1, q.2.1.vecLeft⟩)

end Edit
end Librrb
