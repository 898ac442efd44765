import Verif.Proof.HeapWindow

/-!
# Reversing, sorting and `iter_mut` on the heap do what they do on plain trees
-/
namespace Librrb

open VecOf

/-! ### The algorithm -/

/-- What the foci of the two sides have to do with each other. -/
structure SortSim (E : Addr → Prop) (Sa : St α → σ → Prop) (Fo : St α → ψ → φ → Prop) (o : HSortFocus α ψ)
    (o' : SortFocus σ φ) : Prop where
  len : ∀ {h a b}, Fo h a b → o.len a = o'.len b
  check : ∀ {h a b}, Fo h a b → o.check a = o'.check b
  mono : ∀ {h h' a b}, Fo h a b → Later E h.heap h'.heap → Fo h' a b
  splitAt : ∀ {h s a b} (k : Nat), Sa h s → Fo h a b → Nav E h (o.splitAt a k) (o'.splitAt b k) fun h' g d =>
    Sa h' s ∧ Fo h' g.1 d.1 ∧ Fo h' g.2 d.2
  compare : ∀ {h s a a' b b'} (i j : Nat), Sa h s → Fo h a a' → Fo h b b' →
    Nav E h (o.compare a i b j) (o'.compare s a' i b' j) fun h' g d =>
      Sa h' s ∧ g.1 = d.1 ∧ Fo h' g.2.1 d.2.1 ∧ Fo h' g.2.2 d.2.2
  swap : ∀ {h s a a' b b'} (i j : Nat), Sa h s → Fo h a a' → Fo h b b' →
    Nav E h (o.swap a i b j) (o'.swap s a' i b' j) fun h' g d => Sa h' d.1 ∧ Fo h' g.1 d.2.1 ∧ Fo h' g.2 d.2.2

namespace SortSim

variable {E : Addr → Prop} {Sa : St α → σ → Prop} {Fo : St α → ψ → φ → Prop} {o : HSortFocus α ψ}
  {o' : SortFocus σ φ} (S : SortSim E Sa Fo o o')
include S

theorem countLoop (n : Nat) : ∀ {h : St α} {s : σ} {first rest : ψ} {first' rest' : φ} (i less equal : Nat), Sa h s →
    Fo h first first' → Fo h rest rest' →
    Nav E h (o.countLoop n i first rest less equal) (o'.countLoop s n i first' rest' less equal) fun h' g d =>
      Sa h' s ∧ g.1 = d.1 ∧ g.2.1 = d.2.1 ∧ Fo h' g.2.2.1 d.2.2.1 ∧ Fo h' g.2.2.2 d.2.2.2 := by
  induction n with
  | zero => intro h s f r f' r' i l e hs hf hr; exact Nav.pure ⟨hs, rfl, rfl, hf, hr⟩
  | succ n ih =>
    intro h s f r f' r' i l e hs hf hr
    unfold HSortFocus.countLoop SortFocus.countLoop
    refine Nav.bind (S.compare i 0 hs hr hf) fun h1 g d _ hq => ?_
    obtain ⟨c, g1, g2⟩ := g
    obtain ⟨c', d1, d2⟩ := d
    obtain ⟨hs, rfl, q1, q2⟩ := hq
    cases c
    · exact ih _ _ _ hs q2 q1
    · exact ih _ _ _ hs q2 q1
    · exact ih _ _ _ hs q2 q1

theorem minLoop (lc n : Nat) : ∀ {h : St α} {s : σ} {first rest : ψ} {first' rest' : φ} (i : Nat), Sa h s →
    Fo h first first' → Fo h rest rest' →
    Nav E h (o.minLoop lc n i first rest) (o'.minLoop lc n i s first' rest') fun h' g d =>
      Sa h' d.1 ∧ Fo h' g.1 d.2.1 ∧ Fo h' g.2 d.2.2 := by
  induction n with
  | zero => intro h s f r f' r' i hs hf hr; exact Nav.pure ⟨hs, hf, hr⟩
  | succ n ih =>
    intro h s f r f' r' i hs hf hr
    unfold HSortFocus.minLoop SortFocus.minLoop
    refine Nav.ite (fun _ => ih _ hs hf hr) fun _ => ?_
    refine Nav.bind (S.compare i 0 hs hr hf) fun h1 g d _ hq => ?_
    rw [hq.2.1]
    refine Nav.ite (fun _ => ?_) fun _ => ih _ hq.1 hq.2.2.2 hq.2.2.1
    refine Nav.bind (S.swap 0 i hq.1 hq.2.2.2 hq.2.2.1) fun h2 g' d' _ hq' => ?_
    exact ih _ hq'.1 hq'.2.1 hq'.2.2

omit S in
/-- The variables of the partition. -/
structure SameParts (Fo : St α → ψ → φ → Prop) (h : St α) (p : SortFocus.Parts ψ) (q : SortFocus.Parts φ) : Prop where
  less : Fo h p.less q.less
  equal : Fo h p.equal q.equal
  greater : Fo h p.greater q.greater
  lp : p.lp = q.lp
  ep : p.ep = q.ep
  gp : p.gp = q.gp

theorem advanceLess (n : Nat) : ∀ {h : St α} {s : σ} {p : SortFocus.Parts ψ} {q : SortFocus.Parts φ}, Sa h s →
    SameParts Fo h p q → Nav E h (o.advanceLess n p) (o'.advanceLess s n q) fun h' g d =>
      Sa h' s ∧ g.1 = d.1 ∧ SameParts Fo h' g.2 d.2 := by
  induction n with
  | zero => intro h s p q hs hp; exact Nav.error
  | succ n ih =>
    intro h s p q hs hp
    unfold HSortFocus.advanceLess SortFocus.advanceLess
    rw [hp.lp, S.len hp.less, hp.ep]
    refine Nav.ite (fun _ => ?_) fun _ => Nav.pure ⟨hs, rfl, hp⟩
    refine Nav.bind (S.compare _ _ hs hp.less hp.equal) fun h1 g d lt hq => ?_
    obtain ⟨c, g1, g2⟩ := g
    obtain ⟨c', d1, d2⟩ := d
    obtain ⟨hs, rfl, q1, q2⟩ := hq
    have hg := S.mono hp.greater lt
    cases c
    · exact ih hs ⟨q1, q2, hg, rfl, rfl, hp.gp⟩
    · exact Nav.pure ⟨hs, rfl, ⟨q1, q2, hg, rfl, rfl, hp.gp⟩⟩
    · exact Nav.pure ⟨hs, rfl, ⟨q1, q2, hg, rfl, rfl, hp.gp⟩⟩

theorem advanceGreater (n : Nat) : ∀ {h : St α} {s : σ} {p : SortFocus.Parts ψ} {q : SortFocus.Parts φ}, Sa h s →
    SameParts Fo h p q → Nav E h (o.advanceGreater n p) (o'.advanceGreater s n q) fun h' g d =>
      Sa h' s ∧ g.1 = d.1 ∧ SameParts Fo h' g.2 d.2 := by
  induction n with
  | zero => intro h s p q hs hp; exact Nav.error
  | succ n ih =>
    intro h s p q hs hp
    unfold HSortFocus.advanceGreater SortFocus.advanceGreater
    rw [hp.gp, S.len hp.greater, hp.ep]
    refine Nav.ite (fun _ => ?_) fun _ => Nav.pure ⟨hs, rfl, hp⟩
    refine Nav.bind (S.compare _ _ hs hp.greater hp.equal) fun h1 g d lt hq => ?_
    obtain ⟨c, g1, g2⟩ := g
    obtain ⟨c', d1, d2⟩ := d
    obtain ⟨hs, rfl, q1, q2⟩ := hq
    have hl := S.mono hp.less lt
    cases c
    · exact Nav.pure ⟨hs, rfl, ⟨hl, q2, q1, hp.lp, rfl, rfl⟩⟩
    · exact Nav.pure ⟨hs, rfl, ⟨hl, q2, q1, hp.lp, rfl, rfl⟩⟩
    · exact ih hs ⟨hl, q2, q1, hp.lp, rfl, rfl⟩

theorem advanceEqual (i n : Nat) : ∀ {h : St α} {s : σ} {a b : ψ} {a' b' : φ} (ep : Nat), Sa h s → Fo h a a' → Fo h b b' →
    Nav E h (o.advanceEqual i n a b ep) (o'.advanceEqual s i n a' b' ep) fun h' g d =>
      Sa h' s ∧ g.1 = d.1 ∧ Fo h' g.2.1 d.2.1 ∧ Fo h' g.2.2 d.2.2 := by
  induction n with
  | zero => intro h s a b a' b' ep hs ha hb; exact Nav.error
  | succ n ih =>
    intro h s a b a' b' ep hs ha hb
    unfold HSortFocus.advanceEqual SortFocus.advanceEqual
    refine Nav.bind (S.compare _ _ hs ha hb) fun h1 g d lt hq => ?_
    rw [hq.2.1]
    exact Nav.ite (fun _ => ih _ hq.1 hq.2.2.1 hq.2.2.2) fun _ => Nav.pure ⟨hq.1, rfl, hq.2.2⟩

theorem partStep {h : St α} {s : σ} {p : SortFocus.Parts ψ} {q : SortFocus.Parts φ} (hs : Sa h s) (hp : SameParts Fo h p q) :
    Nav E h (o.partStep p) (o'.partStep s q) fun h' g d => Sa h' d.1 ∧ SameParts Fo h' g d.2 := by
  unfold HSortFocus.partStep SortFocus.partStep
  rw [S.len hp.less, S.len hp.greater, hp.lp, hp.gp]
  refine Nav.bind (S.advanceLess _ hs hp) fun h1 a a' lt1 qa => ?_
  refine Nav.bind (S.advanceGreater _ qa.1 qa.2.2) fun h2 b b' lt2 qb => ?_
  obtain ⟨hs, eb, hp⟩ := qb
  simp only
  rw [eb, qa.2.1, S.len hp.equal, S.len hp.less, S.len hp.greater, hp.lp, hp.gp, hp.ep]
  refine Nav.ite (fun _ => ?_) fun _ => Nav.ite (fun _ => ?_) fun _ => Nav.ite (fun _ => ?_) fun _ => ?_
  · refine Nav.bind (S.advanceEqual _ _ _ hs hp.greater hp.equal) fun h3 r r' lt3 qr => ?_
    rw [qr.2.1]
    refine Nav.bind (S.swap _ _ qr.1 qr.2.2.1 qr.2.2.2) fun h4 g d lt4 qg => ?_
    exact Nav.pure ⟨qg.1, S.mono (S.mono hp.less lt3) lt4, qg.2.2, qg.2.1, rfl, rfl, rfl⟩
  · refine Nav.bind (S.advanceEqual _ _ _ hs hp.less hp.equal) fun h3 r r' lt3 qr => ?_
    rw [qr.2.1]
    refine Nav.bind (S.swap _ _ qr.1 qr.2.2.1 qr.2.2.2) fun h4 g d lt4 qg => ?_
    exact Nav.pure ⟨qg.1, qg.2.1, qg.2.2, S.mono (S.mono hp.greater lt3) lt4, rfl, rfl, rfl⟩
  · refine Nav.bind (S.compare _ _ hs hp.less hp.equal) fun h3 c c' lt3 qc => ?_
    rw [qc.2.1]
    refine Nav.same fun _ _ => ?_
    refine Nav.bind (S.compare _ _ qc.1 (S.mono hp.greater lt3) qc.2.2.2) fun h4 d d' lt4 qd => ?_
    rw [qd.2.1]
    refine Nav.same fun _ _ => ?_
    refine Nav.bind (S.swap _ _ qd.1 (S.mono qc.2.2.1 lt4) qd.2.2.1) fun h5 g g' lt5 qg => ?_
    exact Nav.pure ⟨qg.1, qg.2.1, S.mono qd.2.2.2 lt5, qg.2.2, rfl, rfl, rfl⟩
  · exact Nav.pure ⟨hs, hp⟩

theorem partLoop (n : Nat) : ∀ {h : St α} {s : σ} {p : SortFocus.Parts ψ} {q : SortFocus.Parts φ}, Sa h s → SameParts Fo h p q →
    Nav E h (o.partLoop n p) (o'.partLoop n s q) fun h' g d => Sa h' d.1 ∧ SameParts Fo h' g d.2 := by
  induction n with
  | zero => intro h s p q hs hp; exact Nav.error
  | succ n ih =>
    intro h s p q hs hp
    unfold HSortFocus.partLoop SortFocus.partLoop
    rw [S.len hp.less, S.len hp.greater, hp.lp, hp.gp]
    refine Nav.ite (fun _ => ?_) fun _ => Nav.pure ⟨hs, hp⟩
    exact Nav.bind (S.partStep hs hp) fun h1 g d _ hq => ih hq.1 hq.2

theorem sort (next : ρ → Nat × ρ) (n : Nat) : ∀ {h : St α} {s : σ} {f : ψ} {f' : φ} (rng : ρ), Sa h s → Fo h f f' →
    Nav E h (o.sort next n rng f) (o'.sort next n s rng f') fun h' g d => Sa h' d.1 ∧ g = d.2 := by
  induction n with
  | zero => intro h s f f' rng hs hf; exact Nav.error
  | succ n ih =>
    intro h s f f' rng hs hf
    unfold HSortFocus.sort SortFocus.sort
    rw [S.len hf]
    refine Nav.ite (fun _ => Nav.pure ⟨hs, rfl⟩) fun _ => ?_
    refine Nav.bind (S.splitAt 1 hs hf) fun h1 p p' lt1 qp => ?_
    obtain ⟨hs, qp1, qp2⟩ := qp
    rw [S.check qp1, S.check qp2]
    refine Nav.same fun _ _ => Nav.same fun _ _ => ?_
    refine Nav.bind (Q := fun h' g d => Sa h' d.1 ∧ Fo h' g.1 d.2.1 ∧ Fo h' g.2 d.2.2) ?_ fun h2 q q' lt2 qq => ?_
    · exact Nav.ite (fun _ => S.swap _ _ hs qp2 qp1) fun _ => Nav.pure ⟨hs, qp2, qp1⟩
    obtain ⟨hs, qq1, qq2⟩ := qq
    rw [S.len qq1]
    refine Nav.bind (S.countLoop _ _ _ _ hs qq2 qq1) fun h3 c c' lt3 qc => ?_
    obtain ⟨hs, ec1, ec2, qc1, qc2⟩ := qc
    rw [ec1, ec2]
    refine Nav.ite (fun _ => ih _ hs qc2) fun _ => ?_
    refine Nav.same fun lc _ => ?_
    refine Nav.bind (S.swap _ _ hs qc1 qc2) fun h4 w w' lt4 qw => ?_
    obtain ⟨hs, qw1, qw2⟩ := qw
    rw [S.len qw2]
    refine Nav.bind (S.minLoop _ _ _ hs qw1 qw2) fun h5 m m' lt5 qm => ?_
    obtain ⟨hs, qm1, qm2⟩ := qm
    refine Nav.bind (S.splitAt _ hs qm2) fun h6 g g' lt6 qg => ?_
    obtain ⟨hs, qg1, qg2⟩ := qg
    rw [S.check qg2]
    refine Nav.same fun _ _ => ?_
    refine Nav.bind (S.splitAt _ hs qg1) fun h7 e e' lt7 qe => ?_
    obtain ⟨hs, qe1, qe2⟩ := qe
    have qg2 := S.mono qg2 lt7
    rw [S.check qe1, S.check qe2, S.len qe1, S.len qe2, S.len qg2]
    refine Nav.same fun _ _ => Nav.same fun _ _ => ?_
    refine Nav.bind (S.partLoop _ hs ⟨qe1, qe2, qg2, rfl, rfl, rfl⟩) fun h8 r r' lt8 qr => ?_
    obtain ⟨hs, qr⟩ := qr
    refine Nav.bind (ih _ hs qr.less) fun h9 x x' lt9 qx => ?_
    obtain ⟨hs, rfl⟩ := qx
    have qr2 := S.mono qr.greater lt9
    rw [S.len qr2]
    exact Nav.ite (fun _ => ih _ hs qr2) fun _ => Nav.pure ⟨hs, rfl⟩

end SortSim

/-! ### One vector -/

section One

variable {h : St α} {hv : HVec} {C : RVec Cell} {F : Ctx α} {v : RVec α}

theorem HoldsAt.owns (w : HoldsAt h hv C F v) : ∃ L, Own h L ∧ Owns L hv C ∧ L.starts = entriesOf hv F ∧
    ∀ h', Own h' L → HoldsAt h' hv C F v := by
  obtain ⟨p, rfl, rfl, rfl, w⟩ := w
  exact ⟨_, w, ⟨p, F, rfl, rfl, rfl⟩, starts_owned p F, fun h' w' => ⟨p, rfl, rfl, rfl, w'⟩⟩

theorem HoldsAt.sameFM (w : HoldsAt h hv C F v) {h1 h2 : St α} {g : HFMut} {d : FMut Cell} (r : SameFM h1 hv C g d)
    (lt : Later (entriesOf hv F) h1.heap h2.heap) : SameFM h2 hv C g d := by
  obtain ⟨L, -, o, hE, -⟩ := w.owns
  exact r.mono o (by rw [hE]; exact lt)

theorem HoldsAt.ptrAt (w : HoldsAt h hv C F v) {h1 h2 : St α} {g : Ptr} {d : Cell} (r : PtrAt h1 hv C g d)
    (lt : Later (entriesOf hv F) h1.heap h2.heap) : PtrAt h2 hv C g d := by
  obtain ⟨L, -, o, hE, -⟩ := w.owns
  exact r.mono o (by rw [hE]; exact lt)

theorem splitAt_holds (w : HoldsAt h hv C F v) {g : HFMut} {d : FMut Cell} (r : SameFM h hv C g d) (i : Nat) :
    Nav (entriesOf hv F) h (g.splitAt i) (d.splitAt i) fun h' a b =>
      HoldsAt h' hv C F v ∧ SameFM h' hv C a.1 b.1 ∧ SameFM h' hv C a.2 b.2 := by
  obtain ⟨L, w, o, hE, hw⟩ := w.owns
  rw [← hE]
  exact (splitAt_nav o w r i).mono fun h' _ _ _ q => ⟨hw h' q.1, q.2⟩

theorem get_holds (w : HoldsAt h hv C F v) {g : HFMut} {d : FMut Cell} (r : SameFM h hv C g d) (i : Nat) :
    Nav (entriesOf hv F) h (g.get i) (d.get i) fun h' a b =>
      HoldsAt h' hv C F v ∧ Option.Rel (PtrAt h' hv C) a.1 b.1 ∧ SameFM h' hv C a.2 b.2 := by
  obtain ⟨L, w, o, hE, hw⟩ := w.owns
  rw [← hE]
  exact (get_nav o w r i).mono fun h' _ _ _ q => ⟨hw h' q.1, q.2⟩

theorem index_holds (w : HoldsAt h hv C F v) {g : HFMut} {d : FMut Cell} (r : SameFM h hv C g d) (i : Nat) :
    Nav (entriesOf hv F) h (g.index i) (d.index i) fun h' a b =>
      HoldsAt h' hv C F v ∧ PtrAt h' hv C a.1 b.1 ∧ SameFM h' hv C a.2 b.2 := by
  obtain ⟨L, w, o, hE, hw⟩ := w.owns
  rw [← hE]
  exact (index_nav o w r i).mono fun h' _ _ _ q => ⟨hw h' q.1, q.2⟩

/-- Two references. -/
theorem index2_holds (w : HoldsAt h hv C F v) {a b : HFMut} {a' b' : FMut Cell} (ra : SameFM h hv C a a') (rb : SameFM h hv C b b')
    (i j : Nat) {k : Ptr × HFMut → Ptr × HFMut → HM α ζ} {k' : Cell × FMut Cell → Cell × FMut Cell → M η}
    {Q : St α → ζ → η → Prop}
    (hk : ∀ h1 x y x' y', Later (entriesOf hv F) h.heap h1.heap → HoldsAt h1 hv C F v → PtrAt h1 hv C x.1 x'.1 → PtrAt h1 hv C y.1 y'.1 →
      SameFM h1 hv C x.2 x'.2 → SameFM h1 hv C y.2 y'.2 → Nav (entriesOf hv F) h1 (k x y) (k' x' y') Q) :
    Nav (entriesOf hv F) h (do let x ← a.index i; let y ← b.index j; k x y) (do let x ← a'.index i; let y ← b'.index j; k' x y) Q := by
  refine Nav.bind (index_holds w ra i) fun h1 x x' l1 q1 => ?_
  refine Nav.bind (index_holds q1.1 (w.sameFM rb l1) j) fun h2 y y' l2 q2 => ?_
  exact hk h2 x y x' y' (l1.trans l2) q2.1 (w.ptrAt q1.2.1 l2) q2.2.1 (w.sameFM q1.2.2 l2) q2.2.2

theorem single_sim (w0 : HoldsAt h hv C F v) (cmp : α → α → Ordering) :
    SortSim (entriesOf hv F) (fun h v => HoldsAt h hv C F v) (fun h a b => SameFM h hv C a b) (HSortFocus.single cmp)
      (SortFocus.single cmp) where
  len r := r.len
  check _ := rfl
  mono r lt := w0.sameFM r lt
  splitAt k w r := splitAt_holds w r k
  compare {h s a a' b b'} i j w ra rb := by
    refine index2_holds w ra rb i j fun h1 x y x' y' l1 w1 px py rx ry => ?_
    refine Nav.bind (readPtr_nav w1 px) fun h2 p p' _ q => ?_
    obtain ⟨rfl, rfl⟩ := q
    refine Nav.bind (readPtr_nav w1 py) fun h2 p p' _ q => ?_
    obtain ⟨rfl, rfl⟩ := q
    exact Nav.pure ⟨w1, rfl, rx, ry⟩
  swap {h s a a' b b'} i j w ra rb := by
    refine index2_holds w ra rb i j fun h1 x y x' y' l1 w1 px py rx ry => ?_
    refine Nav.bind (swapPtrs_nav w1 px py) fun h2 _ v' l2 w2 => ?_
    exact Nav.pure ⟨w2, w0.sameFM rx l2, w0.sameFM ry l2⟩

theorem reverseLoop_nav (rl : Nat) (n : Nat) : ∀ {h : St α} {v : RVec α} {a b : HFMut} {a' b' : FMut Cell} (i : Nat),
    HoldsAt h hv C F v → SameFM h hv C a a' → SameFM h hv C b b' →
    Nav (entriesOf hv F) h (HVec.reverseLoop rl n i a b) (v.reverseLoop rl n i a' b') fun h' _ v' => HoldsAt h' hv C F v' := by
  induction n with
  | zero => intro h v a b a' b' i w ra rb; exact Nav.pure w
  | succ n ih =>
    intro h v a b a' b' i w ra rb
    unfold HVec.reverseLoop RVec.reverseLoop
    refine Nav.bind (index_holds w ra i) fun h1 x x' l1 q1 => ?_
    refine Nav.same fun k0 _ => Nav.same fun k _ => ?_
    refine Nav.bind (index_holds q1.1 (w.sameFM rb l1) k) fun h2 y y' l2 q2 => ?_
    refine Nav.bind (swapPtrs_nav q2.1 (w.ptrAt q1.2.1 l2) q2.2.1) fun h3 _ v' l3 w3 => ?_
    exact ih _ w3 (w.sameFM (w.sameFM q1.2.2 l2) l3) (w.sameFM q2.2.2 l3)

end One

/-! ### The calls -/

/-- The call on the heap leaves the vector as the one on plain trees does, and nothing else is changed. -/
def VecLeft (F : Ctx α) (h : St α) (a : HVec) (v' : RVec α) : Prop :=
  ∃ p' : VecOf (Addr × Node α), a = p'.addrs ∧ p'.nodes = v' ∧ Own h (p'.owned + F)

section Calls

variable {h : St α} {F : Ctx α} {p : VecOf (Addr × Node α)}

theorem HoldsAt.vecLeft {hv : HVec} {C : RVec Cell} {v : RVec α} (w : HoldsAt h hv C F v) : VecLeft F h hv v := by
  obtain ⟨p, e1, e2, -, w⟩ := w
  exact ⟨p, e1.symm, e2, w⟩

theorem entries_F (hv : HVec) (F : Ctx α) : ∀ e, F.starts e → entriesOf hv F e := by
  intro e he
  have : 1 ≤ Ctx.refs _ _ := he
  show 1 ≤ _
  omega

/-- Making a focus over a range: `focus_mut`, after which the entries stay as they are. -/
theorem hwindow_nav (w : Own h (p.owned + F)) (hf : ∃ d, p.nodes.cells.focusMut = .ok d) (lo hi : Nat) :
    Nav F.starts h (p.addrs.window lo hi) (p.nodes.window lo hi) fun h' a b =>
      HoldsAt h' a.1 p.nodes.cells F p.nodes ∧ SameFM h' a.1 p.nodes.cells a.2 b := by
  obtain ⟨d, e1⟩ := hf
  unfold HVec.window RVec.window
  rw [e1]
  refine Nav.bind (focusMut_nav w e1) fun h1 a d _ q => ?_
  obtain ⟨a1, g⟩ := a
  obtain ⟨p', rfl, n1, w1, r1⟩ := q
  have w1' : HoldsAt h1 p'.addrs p.nodes.cells F p.nodes := ⟨p', rfl, n1, rfl, w1⟩
  refine Nav.mono_E ?_ (entries_F p'.addrs F)
  refine Nav.bind (splitAt_holds w1' r1 hi) fun h2 a b l2 q => ?_
  refine Nav.bind (splitAt_holds q.1 q.2.1 lo) fun h3 a' b' l3 q' => ?_
  exact Nav.pure ⟨q'.1, q'.2.2⟩

/-- `reverse_range`. -/
theorem hreverseRange_nav (w : Own h (p.owned + F)) (hf : ∃ d, p.nodes.cells.focusMut = .ok d) (sb eb : Bound) :
    Nav F.starts h (p.addrs.reverseRange sb eb) (p.nodes.reverseRange sb eb) (VecLeft F) := by
  unfold HVec.reverseRange RVec.reverseRange
  refine Nav.same fun lo _ => Nav.same fun hi _ => ?_
  refine Nav.bind (hwindow_nav w hf lo hi) fun h2 a d l2 q => ?_
  obtain ⟨w2, r2⟩ := q
  rw [r2.len]
  refine Nav.mono_E ?_ (entries_F a.1 F)
  refine Nav.bind (splitAt_holds w2 r2 _) fun h3 a' b l3 q => ?_
  rw [q.2.2.len]
  have n3 := reverseLoop_nav (F := F) b.2.len (d.len / 2) 0 q.1 q.2.1 q.2.2
  have : ∀ y : M (RVec α), (y >>= fun v => .ok v) = y := fun y => by cases y <;> rfl
  rw [← this (RVec.reverseLoop _ _ _ _ _ _)]
  exact Nav.bind n3 fun h4 _ v' l4 q => Nav.pure q.vecLeft

/-- `sort_range_by`. -/
theorem hsortRangeBy_nav (w : Own h (p.owned + F)) (hf : ∃ d, p.nodes.cells.focusMut = .ok d) (cmp : α → α → Ordering)
    (sb eb : Bound) (next : ρ → Nat × ρ) (rng : ρ) :
    Nav F.starts h (p.addrs.sortRangeBy cmp sb eb next rng) (p.nodes.sortRangeBy cmp sb eb next rng) (VecLeft F) := by
  unfold HVec.sortRangeBy RVec.sortRangeBy
  refine Nav.same fun lo _ => Nav.same fun hi _ => ?_
  refine Nav.bind (hwindow_nav w hf lo hi) fun h2 a d l2 q => ?_
  obtain ⟨w2, r2⟩ := q
  rw [r2.len]
  refine Nav.mono_E ?_ (entries_F a.1 F)
  exact Nav.bind ((single_sim w2 cmp).sort next _ rng w2 r2) fun h4 _ v' l4 q => Nav.pure q.1.vecLeft

end Calls
end Librrb
