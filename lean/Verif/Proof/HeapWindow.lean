import Verif.Proof.HeapFocus
import Verif.Proof.HeapFocusMut
import Verif.Model.HeapSort

/-!
# Mutable foci of vectors on the heap: making them, reading, writing and swapping through them
-/
namespace Librrb

open VecOf

/-! ### The references -/

/-- The vector in memory stands for `v`, has these places, and `F` is what else is owned. -/
def HoldsAt (h : St α) (hv : HVec) (C : RVec Cell) (F : Ctx α) (v : RVec α) : Prop :=
  ∃ p : VecOf (Addr × Node α), p.addrs = hv ∧ p.nodes = v ∧ v.cells = C ∧ Own h (p.owned + F)

/-- The owners from outside: the entries of the vector, and of the rest. -/
def entriesOf (hv : HVec) (F : Ctx α) (e : Addr) : Prop := 1 ≤ hv.entries.count e + F.refs e

theorem starts_owned (p : VecOf (Addr × Node α)) (F : Ctx α) : (p.owned + F).starts = entriesOf p.addrs F := by
  funext e
  unfold Ctx.starts entriesOf
  rw [refs_add, ← own_entries, refs_own, entries_addrs]

theorem PtrAt.place {h : St α} {p : VecOf (Addr × Node α)} {F : Ctx α} (w : Own h (p.owned + F)) {ptr : Ptr} {c : Cell}
    (r : PtrAt h p.addrs p.nodes.cells ptr c) :
    ∃ (x : Addr × Node α) (π : List Nat), p.nodeAt c.1 = .ok x ∧ c.2 = π ++ [ptr.slot] ∧ UPath h.heap x.1 π ptr.node := by
  obtain ⟨b, ⟨c0, π, ndc, e, h1, h2, h3, u⟩, h4⟩ := r
  have o : Owns (p.owned + F) p.addrs p.nodes.cells := ⟨p, F, rfl, rfl, rfl⟩
  obtain ⟨m0, -, hm⟩ := o.den w h1 h2 h3 u
  rw [(HVec.nodeAt_nat p c0).1] at h3
  obtain ⟨x, hx, rfl⟩ := of_map_ok h3
  cases m0 with
  | internal s t B => cases hm
  | leaf B =>
    have hm : Node.leaf b = .leaf ⟨B.front, B.len, B.data.mapIdx fun q o => o.map fun _ => (c0, π ++ [q])⟩ := hm
    cases hm
    rw [List.getElem?_mapIdx] at h4
    cases hB : B.data[ptr.slot]? with
    | none => rw [hB] at h4; cases h4
    | some y =>
      rw [hB] at h4
      cases y with
      | none => cases h4
      | some y =>
        cases h4
        exact ⟨x, π, hx, rfl, u⟩

theorem withNodeAt_self {v : VecOf κ} {c : Option (Side × Nat)} {x : κ} (e : v.nodeAt c = .ok x) : v.withNodeAt c x = v := by
  have hs : ∀ (l : List κ) (i : Nat), l[i]? = some x → l.set i x = l := by
    intro l i hi
    apply List.ext_getElem?
    intro j
    by_cases hj : i = j
    · subst hj
      rw [List.getElem?_set_self (List.getElem?_eq_some_iff.1 hi).1, hi]
    · rw [List.getElem?_set_ne hj]
  rcases c with _ | ⟨s, i⟩
  · cases e; rfl
  · cases s
    · unfold withNodeAt
      simp only [hs _ _ (unwrap_inv e)]
    · unfold withNodeAt
      simp only [hs _ _ (unwrap_inv e)]

section Refs

variable {h : St α} {hv : HVec} {C : RVec Cell} {F : Ctx α} {v v' : RVec α} {ptr : Ptr} {c : Cell} {E : Addr → Prop}

theorem writeAt_total (x : α) : ∀ (π : List Nat) {nd : Node α} {B : CB α} {i : Nat} {y : α}, nd.sub π = some (.leaf B) →
    B.data[i]? = some (some y) → ∃ nd', nd.writeAt x (π ++ [i]) = .ok nd' := by
  intro π
  induction π with
  | nil =>
    intro nd B i y e hy
    cases nd with
    | internal s t c => cases e
    | leaf b =>
      cases e
      exact ⟨_, by rw [List.nil_append, Node.writeAt, assignSlot_of hy]; rfl⟩
  | cons p π ih =>
    intro nd B i y e hy
    cases nd with
    | leaf b => cases e
    | internal s t c =>
      simp only [Node.sub] at e
      cases hk : c.data[p]? with
      | none => rw [hk] at e; cases e
      | some k =>
        rw [hk] at e
        cases k with
        | none => cases e
        | some k =>
          obtain ⟨k', ek⟩ := ih e hy
          cases π with
          | nil =>
            simp only [List.nil_append] at ek
            exact ⟨_, by rw [List.cons_append, List.nil_append, Node.writeAt, readSlot_of hk, ok_bind, ek, ok_bind, assignSlot_of hk]; rfl⟩
          | cons q π =>
            rw [List.cons_append] at ek
            exact ⟨_, by rw [List.cons_append, List.cons_append, Node.writeAt, readSlot_of hk, ok_bind, ek, ok_bind, assignSlot_of hk]; rfl⟩

/-- A pointer leads to an item of the vector. -/
theorem HoldsAt.live (w : HoldsAt h hv C F v) (r : PtrAt h hv C ptr c) :
    (∃ x, v.readCell c = .ok x) ∧ ∀ x, ∃ v', v.writeCell x c = .ok v' := by
  obtain ⟨p, rfl, rfl, rfl, w⟩ := w
  obtain ⟨b, ⟨c0, π, ndc, e, h1, h2, h3, u⟩, h4⟩ := r
  rw [RVec.cells_nodeAt] at h1
  obtain ⟨nd, hnd, rfl⟩ := of_map_ok h1
  rw [Node.mapAddr_sub] at h2
  obtain ⟨m, hm, hm'⟩ := Option.map_eq_some_iff.1 h2
  cases m with
  | internal s t B => cases hm'
  | leaf B =>
    have hm' : Node.leaf ⟨B.front, B.len, B.data.mapIdx fun q o => o.map fun _ => (c0, π ++ [q])⟩ = .leaf b := hm'
    cases hm'
    rw [List.getElem?_mapIdx] at h4
    cases hB : B.data[ptr.slot]? with
    | none => rw [hB] at h4; cases h4
    | some y =>
      rw [hB] at h4
      cases y with
      | none => cases h4
      | some y =>
        cases h4
        refine ⟨⟨y, ?_⟩, fun x => ?_⟩
        · unfold RVec.readCell
          rw [hnd, ok_bind, Node.readAt_sub _ π hm, Node.readAt, readSlot_of hB]
        · obtain ⟨nd', e'⟩ := writeAt_total x π hm hB
          unfold RVec.writeCell
          rw [hnd, ok_bind, e']
          exact ⟨_, rfl⟩

theorem readPtr_nav (w : HoldsAt h hv C F v) (r : PtrAt h hv C ptr c) :
    Nav E h (readPtr ptr) (v.readCell c) fun h' x y => h' = h ∧ x = y := by
  obtain ⟨⟨x, e⟩, -⟩ := w.live r
  rw [e]
  obtain ⟨p, rfl, rfl, rfl, w⟩ := w
  obtain ⟨y, π, h1, h2, u⟩ := r.place w
  obtain ⟨R, h3, -⟩ := HVec.owned_at h1
  unfold RVec.readCell at e
  rw [(HVec.nodeAt_nat p c.1).2, h1] at e
  rw [h2] at e
  obtain ⟨hc, G, w⟩ := w
  refine Nav.reads (Q := fun a b => a = b) ⟨fun d ed => ⟨x, ?_, ?_⟩, fun f hf => by cases hf⟩
  · rw [hc]
    refine readPtr_looks u ?_ (w.mem y.1 y.2 (by rw [h3]; simp)) e
    exact Ctx.starts_of_mem (s := some y.2) (by rw [h3]; simp)
  · cases ed; rfl

theorem writePtr_nav (w : HoldsAt h hv C F v) (r : PtrAt h hv C ptr c) (x : α) :
    Nav (entriesOf hv F) h (writePtr x ptr) (v.writeCell x c) fun h' _ v' => HoldsAt h' hv C F v' := by
  obtain ⟨v', e⟩ := (w.live r).2 x
  rw [e]
  obtain ⟨p, rfl, rfl, rfl, w⟩ := w
  obtain ⟨y, π, h1, h2, u⟩ := r.place w
  obtain ⟨R, h3, h4⟩ := HVec.owned_at h1
  unfold RVec.writeCell at e
  have hn : p.nodes.nodeAt c.1 = .ok y.2 := by rw [(HVec.nodeAt_nat p c.1).2, h1]; rfl
  rw [hn, ok_bind] at e
  obtain ⟨nd', e1, e2⟩ := RVec.bind_ok e
  cases e2
  rw [← starts_owned]
  have hL : p.owned + F = has (y.1, y.2) + (R + F) := by rw [h3, add_assoc]
  refine Nav.of_runs (L := 0) fun _ => ?_
  rw [w.ctx, hL]
  refine (writePtr_runs u (by rw [← h2]; exact e1)).mono fun r L' h' q => ?_
  obtain ⟨er, rfl, lt, o⟩ := q
  refine ⟨(), er, lt, o, p.withNodeAt c.1 (y.1, nd'), ?_, ?_, ?_, ?_, ?_⟩
  · rw [← HVec.addrs_withNodeAt p c.1 (y.1, nd')]
    have ha : p.addrs.nodeAt c.1 = .ok y.1 := by rw [(HVec.nodeAt_nat p c.1).1, h1]; rfl
    exact withNodeAt_self ha
  · exact (HVec.nodes_withNodeAt p c.1 (y.1, nd')).symm
  · exact RVec.cells_withNodeAt hn fun f => Node.writeAt_mapAddr x _ f e1
  · rw [h4 (y.1, nd'), add_assoc]
  · rw [h4 (y.1, nd'), add_assoc]; exact o

theorem PtrAt.later (w : HoldsAt h hv C F v) {h1 h2 : St α} (r : PtrAt h1 hv C ptr c) (lt : Later (entriesOf hv F) h1.heap h2.heap) :
    PtrAt h2 hv C ptr c := by
  obtain ⟨P, rfl, rfl, rfl, w0⟩ := w
  refine r.mono (L := P.owned + F) ⟨P, F, rfl, rfl, rfl⟩ ?_
  rw [starts_owned]; exact lt

theorem swapPtrs_nav (w : HoldsAt h hv C F v) {p q : Ptr} {c d : Cell} (rp : PtrAt h hv C p c) (rq : PtrAt h hv C q d) :
    Nav (entriesOf hv F) h (swapPtrs p q) (v.swapCells c d) fun h' _ v' => HoldsAt h' hv C F v' := by
  unfold swapPtrs RVec.swapCells
  refine Nav.bind (readPtr_nav w rp) fun h1 x x' _ e => ?_
  obtain ⟨rfl, rfl⟩ := e
  refine Nav.bind (readPtr_nav w rq) fun h1 y y' _ e => ?_
  obtain ⟨rfl, rfl⟩ := e
  refine Nav.bind (writePtr_nav w rp y) fun h1 _ v1 lt w1 => ?_
  exact writePtr_nav w1 (rq.later w lt) x

end Refs

/-! ### Making a focus -/

/-- What borrowing a node gives. -/
def Node.viewAt (a : Addr) : Node α → M HNode
  | .leaf b => do
    let v ← b.view a
    .ok (.leaf v)
  | .internal s _ c => do
    let v ← c.view a
    .ok (.internal ⟨s, v⟩)

/-- What borrowing a list of nodes gives. -/
def viewsAt : List (Addr × Node α) → M (List HNode)
  | [] => .ok []
  | x :: rest => do
    let e ← x.2.isEmpty
    if !e then do
      let b ← Node.viewAt x.1 x.2
      let r ← viewsAt rest
      .ok (b :: r)
    else viewsAt rest

theorem viewsAt_append (a b : List (Addr × Node α)) :
    viewsAt (a ++ b) = (viewsAt a >>= fun x => viewsAt b >>= fun y => .ok (x ++ y)) := by
  induction a with
  | nil => simp only [List.nil_append, viewsAt, ok_bind]; cases viewsAt b <;> rfl
  | cons x rest ih =>
    simp only [List.cons_append, viewsAt, ih, bind_assoc]
    congr 1
    funext e
    split
    · simp only [bind_assoc, ok_bind, List.cons_append]
    · rfl

theorem viewsAt_rel {Q : HNode → BNode Cell → Prop} {ps : List (Addr × Node α)} {ms : List (Node Cell)}
    (r : List.Forall₂ (fun x m => x.2.isEmpty = m.isEmpty ∧ (x.2.isEmpty = .ok false → MRel (x.2.viewAt x.1) m.borrow Q)) ps ms) :
    MRel (viewsAt ps) (RVec.borrowNodes ms) (List.Forall₂ Q) := by
  induction r with
  | nil => exact MRel.pure .nil
  | cons hx _ ih =>
    unfold viewsAt RVec.borrowNodes
    rw [← hx.1]
    refine MRel.same fun e he => ?_
    cases e with
    | true => exact ih
    | false => exact MRel.bind (hx.2 he) fun g d q => MRel.bind ih fun gs ds qs => MRel.pure (.cons q qs)

theorem Den.viewAt {h : Heap α} {a : Addr} {nd : Node α} (d : Den h a nd) :
    ∃ b, h.node a = some b ∧ b.view a = nd.viewAt a := by
  obtain ⟨P, eP, rfl, -⟩ := d.inv
  refine ⟨_, eP, ?_⟩
  cases P <;> rfl

theorem viewAt_ok {nd : Node α} {a : Addr} {g : HNode} (e : nd.viewAt a = .ok g) (b : Addr) : ∃ g', nd.viewAt b = .ok g' := by
  cases nd with
  | leaf c =>
    simp only [Node.viewAt, CB.view] at e ⊢
    obtain ⟨v, e1, e2⟩ := RVec.bind_ok e
    obtain ⟨u, e3, e4⟩ := RVec.bind_ok e1
    exact ⟨_, by rw [e3]; rfl⟩
  | internal s t c =>
    simp only [Node.viewAt, CB.view] at e ⊢
    obtain ⟨v, e1, e2⟩ := RVec.bind_ok e
    obtain ⟨u, e3, e4⟩ := RVec.bind_ok e1
    exact ⟨_, by rw [e3]; rfl⟩

theorem isEmpty_nav {E : Addr → Prop} {h : St α} {a : Addr} {nd : Node α} (d : Den h.heap a nd) (r : h.ctx.reach h.heap a)
    {e : Bool} (he : nd.isEmpty = .ok e) : Nav E h (Entry.isEmpty a) (.ok ()) fun h' g _ => h' = h ∧ g = e := by
  refine Nav.reads (Q := fun g _ => g = e) ⟨fun _ _ => ⟨e, ?_, rfl⟩, fun f hf => by cases hf⟩
  unfold Node.isEmpty at he
  obtain ⟨n, e1, e2⟩ := RVec.bind_ok he
  cases e2
  obtain ⟨g, eg, rfl⟩ := (Reads.len (d.part r)).looks _ e1
  exact Looks.bind eg (.ret _)

/-- Borrowing one entry. -/
theorem borrowNode_nav {h : St α} {x : Addr × Node α} {F : Ctx α} (w : Own h (has x + F)) {g0 : HNode}
    (hv : x.2.viewAt x.1 = .ok g0) :
    Nav F.starts h (Entry.borrowNode x.1) (.ok ()) fun h' a _ => Own h' (has (a.1, x.2) + F) ∧ h'.heap.count a.1 = 1 ∧
      x.2.viewAt a.1 = .ok a.2 := by
  obtain ⟨hc, G, w⟩ := w
  unfold Entry.borrowNode
  refine Nav.seq (Q := fun h' b _ => Own h' (has (b, x.2) + F) ∧ h'.heap.count b = 1) ?_ fun h1 b lt q => ?_
  · refine Nav.of_runs (L := 0) fun _ => ?_
    rw [hc]
    refine (loadMut_later (a := x.1) (nd := x.2) w).mono fun r L' h' q => ?_
    obtain ⟨b, e, rfl, c1, lt, o⟩ := q
    exact ⟨b, e, lt, o, ⟨rfl, o⟩, c1⟩
  · obtain ⟨w1, c1⟩ := q
    obtain ⟨hc1, G1, w1'⟩ := w1
    obtain ⟨n, e2, e3⟩ := (w1'.mem b x.2 (by simp)).viewAt
    obtain ⟨g, eg⟩ := viewAt_ok hv b
    refine Nav.load (by rw [hc1]; exact Ctx.reach_start (Ctx.starts_of_mem (s := some x.2) (by simp))) e2 ?_
    rw [e3, eg]
    exact Nav.pure ⟨⟨hc1, G1, w1'⟩, c1, eg⟩

theorem Own.ctx_eq {h : St α} {L L' : Ctx α} (w : Own h L) (e : L = L') : Own h L' := by
  subst e; exact w

theorem Own.mem {h : St α} {L : Ctx α} (w : Own h L) {a : Addr} {nd : Node α} (hm : (a, some nd) ∈ L) :
    Den h.heap a nd ∧ h.ctx.reach h.heap a := by
  obtain ⟨rfl, G, w⟩ := w
  exact ⟨w.mem a nd (Multiset.mem_add.2 (.inl hm)), Ctx.reach_start (Ctx.starts_of_mem hm)⟩

/-- Borrowing a list of entries. -/
theorem borrowNodes_nav (ps : List (Addr × Node α)) : ∀ {h : St α} {F : Ctx α}, Own h (own ps + F) →
    ∀ {hs0}, viewsAt ps = .ok hs0 →
    Nav F.starts h (HVec.borrowNodes (ps.map Prod.fst)) (.ok ()) fun h' a _ => ∃ ps' : List (Addr × Node α),
      a.1 = ps'.map Prod.fst ∧ ps'.map Prod.snd = ps.map Prod.snd ∧ Own h' (own ps' + F) ∧ viewsAt ps' = .ok a.2 ∧
      ∀ x ∈ ps', x.2.isEmpty = .ok false → h'.heap.count x.1 = 1 := by
  induction ps with
  | nil => intro h F w hs0 e; exact Nav.pure ⟨[], rfl, rfl, w, rfl, by simp⟩
  | cons x rest ih =>
    intro h F w hs0 e
    rw [own_cons, add_assoc] at w
    unfold viewsAt at e
    obtain ⟨em, e1, e⟩ := RVec.bind_ok e
    obtain ⟨d, dr⟩ := w.mem (a := x.1) (nd := x.2) (by simp)
    show Nav _ _ (HVec.borrowNodes (x.1 :: rest.map Prod.fst)) _ _
    unfold HVec.borrowNodes
    refine Nav.seq (isEmpty_nav d dr e1) fun h1 g _ q => ?_
    obtain ⟨rfl, rfl⟩ := q
    cases g with
    | true =>
      have w' : Own h1 (own rest + (has x + F)) := w.ctx_eq (by abel)
      refine Nav.seq ((ih w' e).mono_E fun a ha => Ctx.starts_add.2 (.inr ha)) fun h2 a _ q => ?_
      obtain ⟨ps', k1, k2, w2, k3, k4⟩ := q
      refine Nav.pure ⟨x :: ps', by rw [k1]; rfl, by rw [List.map_cons, k2, List.map_cons], w2.ctx_eq (by rw [own_cons]; abel), ?_, ?_⟩
      · unfold viewsAt; rw [e1]; exact k3
      · intro y hy hye
        rcases List.mem_cons.1 hy with rfl | hy
        · rw [hye] at e1; cases e1
        · exact k4 y hy hye
    | false =>
      obtain ⟨g0, e2, e⟩ := RVec.bind_ok e
      obtain ⟨r0, e3, e4⟩ := RVec.bind_ok e
      refine Nav.seq ((borrowNode_nav w e2).mono_E fun a ha => Ctx.starts_add.2 (.inr ha)) fun h2 b _ q => ?_
      obtain ⟨w2, c2, j2⟩ := q
      have w2' : Own h2 (own rest + (has (b.1, x.2) + F)) := w2.ctx_eq (by abel)
      refine Nav.seq (((ih w2' e3).mono (Q' := fun h' a _ => h'.heap.count b.1 = 1 ∧ ∃ ps' : List (Addr × Node α),
        a.1 = ps'.map Prod.fst ∧ ps'.map Prod.snd = rest.map Prod.snd ∧ Own h' (own ps' + (has (b.1, x.2) + F)) ∧ viewsAt ps' = .ok a.2 ∧
        ∀ x ∈ ps', x.2.isEmpty = .ok false → h'.heap.count x.1 = 1) fun h' a _ lt q => ⟨?_, q⟩).mono_E fun a ha =>
          Ctx.starts_add.2 (.inr ha)) fun h3 a _ q => ?_
      · exact (lt b.1 (Ctx.starts_of_mem (s := some x.2) (by simp)) [] b.1 (.nil c2)).count_end
      · obtain ⟨c3, ps', k1, k2, w3, k3, k4⟩ := q
        refine Nav.pure ⟨(b.1, x.2) :: ps', by rw [k1]; rfl, by rw [List.map_cons, k2, List.map_cons],
          w3.ctx_eq (by rw [own_cons]; abel), ?_, ?_⟩
        · unfold viewsAt
          rw [e1]
          show (x.2.viewAt b.1 >>= _) = _
          rw [j2, ok_bind, k3]; rfl
        · intro y hy hye
          rcases List.mem_cons.1 hy with rfl | hy
          · exact c3
          · exact k4 y hy hye

/-- The entries in the order of the items. -/
def VecOf.inOrder (v : VecOf κ) : List κ := v.left ++ [v.root] ++ v.right.reverse

/-- What holds of the entries holds of them in order. -/
theorem inOrder_rel {p : VecOf (Addr × Node α)} {R : Addr × Node α → Node Cell → Prop}
    (hR : ∀ c x, p.nodeAt c = .ok x → R x (x.2.mapAddr fun q _ => (c, q))) :
    List.Forall₂ R p.inOrder (p.nodes.cells.left ++ [p.nodes.cells.root] ++ p.nodes.cells.right.reverse) := by
  have hl : ∀ (s : Side) (l : List (Addr × Node α)), (∀ i x, l[i]? = some x → p.nodeAt (some (s, i)) = .ok x) →
      List.Forall₂ R l ((l.map Prod.snd).mapIdx fun k nd => nd.mapAddr fun q _ => (some (s, k), q)) := by
    intro s l hl
    rw [List.forall₂_iff_get]
    refine ⟨by simp, fun i h1 h2 => ?_⟩
    have := hR (some (s, i)) (l[i]) (hl i _ (List.getElem?_eq_getElem h1))
    simpa using this
  refine List.rel_append (List.rel_append (hl .front p.left fun i x e => ?_) (.cons (hR none p.root rfl) .nil))
    (List.rel_reverse (hl .back p.right fun i x e => ?_))
  · show unwrap p.left[i]? = _; rw [e]; rfl
  · show unwrap p.right[i]? = _; rw [e]; rfl

theorem mapAddr_isEmpty (nd : Node α) (f : List Nat → α → β) : (nd.mapAddr f).isEmpty = nd.isEmpty := by
  cases nd <;> rfl

/-- The root is borrowed as a list of one entry. -/
theorem borrowRoot_eq (a : Addr) (k : Addr × List HNode → HM α δ) : (do
      let e ← Entry.isEmpty a
      let m ← (if !e then do
          let b ← Entry.borrowNode a
          pure (b.1, [b.2])
        else pure (a, []))
      k m : HM α δ) = HVec.borrowNodes [a] >>= fun r => k (r.1.headD a, r.2) := by
  unfold HVec.borrowNodes
  rw [bind_assoc]
  congr 1
  funext e
  cases e
  · simp only [Bool.not_false, if_true, bind_assoc, pure_bind]
    rfl
  · rfl

/-- `focus_mut`. -/
theorem focusMut_nav {h : St α} {F : Ctx α} {p : VecOf (Addr × Node α)} (w : Own h (p.owned + F)) {d : FMut Cell}
    (e : p.nodes.cells.focusMut = .ok d) :
    Nav F.starts h p.addrs.focusMut (.ok d) fun h' a d => ∃ p' : VecOf (Addr × Node α), a.1 = p'.addrs ∧
      p'.nodes = p.nodes ∧ Own h' (p'.owned + F) ∧ SameFM h' p'.addrs p.nodes.cells a.2 d := by
  unfold RVec.focusMut at e
  obtain ⟨ms, e1, e2⟩ := RVec.bind_ok e
  -- the borrows succeed
  have hs0 : ∃ hs0, viewsAt p.inOrder = .ok hs0 := by
    obtain ⟨hs0, k, -⟩ := (viewsAt_rel (Q := fun _ _ => True) (inOrder_rel (p := p) fun c x _ => ⟨(mapAddr_isEmpty _ _).symm, fun _ => by
      cases x.2 with
      | leaf b =>
        show MRel (CB.view b x.1 >>= fun v => .ok (HNode.leaf v)) (CB.mutableView _ >>= fun v => .ok (BNode.leaf v)) _
        unfold CB.view CB.mutableView
        rw [bind_assoc, bind_assoc]
        exact MRel.same fun _ _ => MRel.pure trivial
      | internal s t b =>
        show MRel (CB.view b x.1 >>= fun v => .ok (HNode.internal ⟨s, v⟩)) (CB.mutableView _ >>= fun v => .ok (BNode.internal ⟨s, v⟩)) _
        unfold CB.view CB.mutableView
        rw [bind_assoc, bind_assoc]
        exact MRel.same fun _ _ => MRel.pure trivial⟩)).ok _ e1
    exact ⟨hs0, k⟩
  obtain ⟨hs0, v0⟩ := hs0
  unfold inOrder at v0
  rw [viewsAt_append, viewsAt_append] at v0
  obtain ⟨x0, v1, v0⟩ := RVec.bind_ok v0
  obtain ⟨xl, vl, v1⟩ := RVec.bind_ok v1
  obtain ⟨xm, vm, -⟩ := RVec.bind_ok v1
  obtain ⟨xr, vr, -⟩ := RVec.bind_ok v0
  have hrev : own p.right.reverse = own p.right := by
    unfold own
    rw [List.map_reverse]
    exact Multiset.coe_eq_coe.2 (List.reverse_perm _)
  unfold HVec.focusMut
  -- the left spine
  have wl : Own h (own p.left + (own [p.root] + own p.right.reverse + F)) := w.ctx_eq (by
    rw [hrev, own_cons, own_nil]
    unfold owned
    abel)
  refine Nav.seq ((borrowNodes_nav p.left wl vl).mono_E fun a ha => Ctx.starts_add.2 (.inr ha)) fun h1 gl _ q => ?_
  obtain ⟨pl, kl, nl, w1, ul, cl⟩ := q
  -- the root
  rw [borrowRoot_eq]
  have wm : Own h1 (own [p.root] + (own pl + own p.right.reverse + F)) := w1.ctx_eq (by abel)
  refine Nav.seq (((borrowNodes_nav [p.root] wm vm).mono (Q' := fun h' a _ => Later (own pl + own p.right.reverse + F).starts h1.heap h'.heap ∧
    ∃ ps' : List (Addr × Node α),
      a.1 = ps'.map Prod.fst ∧ ps'.map Prod.snd = [p.root].map Prod.snd ∧ Own h' (own ps' + (own pl + own p.right.reverse + F)) ∧
      viewsAt ps' = .ok a.2 ∧ ∀ x ∈ ps', x.2.isEmpty = .ok false → h'.heap.count x.1 = 1) fun h' a _ lt q => ⟨lt, q⟩).mono_E
      fun a ha => Ctx.starts_add.2 (.inr ha)) fun h2 gm _ q => ?_
  obtain ⟨l2, pm, km, nm, w2, um, cm⟩ := q
  obtain ⟨b, hpm⟩ : ∃ b, pm = [(b, p.root.2)] := by
    cases pm with
    | nil => cases nm
    | cons y l =>
      cases l with
      | cons _ _ => simp at nm
      | nil =>
        simp only [List.map_cons, List.map_nil, List.cons.injEq, and_true] at nm
        exact ⟨y.1, by rw [← nm]⟩
  subst hpm
  -- the right spine
  have wr : Own h2 (own p.right.reverse + (own pl + has (b, p.root.2) + F)) := w2.ctx_eq (by rw [own_cons, own_nil]; abel)
  dsimp only
  show Nav _ _ (HVec.borrowNodes (p.right.map Prod.fst).reverse >>= _) _ _
  rw [← List.map_reverse]
  refine Nav.seq (((borrowNodes_nav p.right.reverse wr vr).mono (Q' := fun h' a _ =>
    Later (own pl + has (b, p.root.2) + F).starts h2.heap h'.heap ∧ ∃ ps' : List (Addr × Node α),
      a.1 = ps'.map Prod.fst ∧ ps'.map Prod.snd = p.right.reverse.map Prod.snd ∧ Own h' (own ps' + (own pl + has (b, p.root.2) + F)) ∧
      viewsAt ps' = .ok a.2 ∧ ∀ x ∈ ps', x.2.isEmpty = .ok false → h'.heap.count x.1 = 1) fun h' a _ lt q => ⟨lt, q⟩).mono_E
      fun a ha => Ctx.starts_add.2 (.inr ha)) fun h3 gr _ q => ?_
  obtain ⟨l3, pr, kr, nr, w3, ur, cr⟩ := q
  let p' : VecOf (Addr × Node α) := { left := pl, right := pr.reverse, root := (b, p.root.2), len := p.len }
  have hn : p'.nodes = p.nodes := by
    show RVec.mk _ _ _ _ = RVec.mk _ _ _ _
    simp only [p', nl, List.map_reverse, nr, List.reverse_reverse]
  have w' : Own h3 (p'.owned + F) := w3.ctx_eq (by
    have : own pr.reverse = own pr := by
      unfold own
      rw [List.map_reverse]
      exact Multiset.coe_eq_coe.2 (List.reverse_perm _)
    show _ = own pl + own pr.reverse + has (b, p.root.2) + F
    rw [this]; abel)
  -- the counts at the end
  have keep2 : ∀ x ∈ pl, x.2.isEmpty = .ok false → h3.heap.count x.1 = 1 := by
    intro x hx he
    have c1 := cl x hx he
    have hr : 1 ≤ Ctx.refs (own pl) x.1 := by
      rw [refs_own]; exact List.count_pos_iff.2 (List.mem_map_of_mem hx)
    have u2 := l2 x.1 (by show 1 ≤ Ctx.refs _ _; rw [refs_add, refs_add]; omega) [] x.1 (.nil c1)
    have u3 := l3 x.1 (by show 1 ≤ Ctx.refs _ _; rw [refs_add, refs_add]; omega) [] x.1 u2
    exact u3.count_end
  have keepm : p.root.2.isEmpty = .ok false → h3.heap.count b = 1 := by
    intro he
    have c1 := cm _ (List.mem_singleton.2 rfl) he
    have u3 := l3 b (by show 1 ≤ Ctx.refs _ _; rw [refs_add, refs_add, refs_has, if_pos rfl]; omega) [] b (.nil c1)
    exact u3.count_end
  have hcount : ∀ c x, p'.nodeAt c = .ok x → x.2.isEmpty = .ok false → h3.heap.count x.1 = 1 := by
    intro c x hx he
    rcases c with _ | ⟨s, i⟩
    · cases hx; exact keepm he
    · cases s
      · exact keep2 x (List.mem_of_getElem? (unwrap_inv hx)) he
      · have := List.mem_of_getElem? (unwrap_inv hx)
        exact cr x (List.mem_reverse.1 this) he
  -- what is borrowed
  have hv : viewsAt p'.inOrder = .ok (gl.2 ++ gm.2 ++ gr.2) := by
    unfold inOrder
    rw [viewsAt_append, viewsAt_append]
    show ((viewsAt pl >>= _) >>= fun x => viewsAt pr.reverse.reverse >>= _) = _
    rw [ul, ok_bind, um, ok_bind, ok_bind, List.reverse_reverse, ur, ok_bind]
  rw [← hn] at e1
  obtain ⟨hs, k, q⟩ := (viewsAt_rel (Q := SameNode h3 p'.addrs p'.nodes.cells) (inOrder_rel (p := p') fun c x hx => ⟨(mapAddr_isEmpty _ _).symm, fun he => by
    have hc : p'.nodes.cells.nodeAt c = .ok (x.2.mapAddr fun q _ => (c, q)) := by
      rw [RVec.cells_nodeAt, (HVec.nodeAt_nat p' c).2, hx]; rfl
    have ha : p'.addrs.nodeAt c = .ok x.1 := by rw [(HVec.nodeAt_nat p' c).1, hx]; rfl
    obtain ⟨R, ho, -⟩ := HVec.owned_at hx
    have dx := (w'.mem (a := x.1) (nd := x.2) (by rw [ho]; simp)).1
    have hsub : (x.2.mapAddr fun q _ => (c, q)).sub [] = some (x.2.mapAddr fun q _ => (c, q)) := by cases x.2 <;> rfl
    obtain ⟨bd, j1, j2⟩ := view_same (hv := p'.addrs) (C := p'.nodes.cells) (f := fun q => (c, q)) dx rfl
      ⟨c, [], _, x.1, hc, hsub, ha, .nil (hcount c x hx he)⟩
    obtain ⟨bd', j3, j4⟩ := dx.viewAt
    rw [j1] at j3
    cases j3
    rw [← j4]; exact j2⟩)).ok _ e1
  rw [hv] at k
  cases k
  obtain ⟨g, eg, sg⟩ := (fromNodes_same q).ok d e2
  rw [eg]
  refine Nav.pure ⟨p', ?_, hn, w', by rw [← hn]; exact sg⟩
  simp only [p', addrs, kl, km, kr, List.map_reverse]
  rfl

end Librrb
