import Verif.Model.HeapFocus
import Verif.Proof.HeapVec
import Verif.Spec

/-!
# What the shared focus reads on the heap

Nothing is written here, so the heap is fixed: `Reads h x y Q` says that whenever `y` on nodes returns, `x`
on the heap `h` returns and leaves `h` as it is.
-/
namespace Librrb

namespace Reads

variable {h : Heap α}

theorem len {a : Addr} {nd : Node α} (hd : Den h a nd) : Reads h (Entry.len a) nd.len Eq := by
  refine load (k := fun n => liftM n.len) hd fun P hP _ => ?_
  rw [hP, Body.node_len, Body.len_nat, Body.len_nat]
  exact last

end Reads

/-- An entry on a path and the node there. -/
def SameStep (h : Heap α) (g : Addr × Nat × Nat) (d : Node α × Nat × Nat) : Prop := Den h g.1 d.1 ∧ g.2 = d.2

/-- A focus on the heap and the focus on nodes. -/
structure SamePF (h : Heap α) (g : HPFocus) (d : PFocus α) : Prop where
  path : List.Forall₂ (SameStep h) g.path d.path
  leaf : Den h g.leaf (.leaf d.leaf)
  lo : g.lo = d.lo
  hi : g.hi = d.hi

theorem childRef_reads {h : Heap α} {a : Addr} {nd : Node α} (hd : Den h a nd) (pos : Nat) :
    Reads h (Entry.childRefForPosition a pos) (nd.childRefForPosition pos) (Option.Rel (SameStep h)) := by
  unfold Entry.childRefForPosition
  refine Reads.load hd fun P hP hk => ?_
  rw [hP]
  cases P with
  | leaf b => exact Reads.error
  | internal s t c =>
    show Reads h _ (s.positionInfoFor pos >>= _) _
    refine Reads.same fun o _ => ?_
    rcases o with _ | ⟨i, sub⟩
    · exact Reads.pure .none
    · show Reads h _ (s.getChildRange i >>= _) _
      refine Reads.same fun o _ => ?_
      rcases o with _ | range
      · exact Reads.pure .none
      · have e1 : (CB.map Prod.fst c).get i = (c.get i).map (Option.map Prod.fst) := CB.get_nat _ _ _
        have e2 : (CB.map Prod.snd c).get i = (c.get i).map (Option.map Prod.snd) := CB.get_nat _ _ _
        refine Reads.nat e1 e2 fun o ho => ?_
        cases o with
        | none => exact Reads.error
        | some x =>
          refine Reads.same (z := .ok x.1) (k' := fun _ => .ok (some (x.2, range))) fun y hy => ?_
          cases hy
          exact Reads.pure (.some ⟨hk x (CB.get_mem ho), rfl⟩)

theorem leafGet_reads {h : Heap α} {a : Addr} {b : CB α} (hd : Den h a (.leaf b)) (i : Nat) :
    Reads h (Entry.leafGet a i) (b.get i) Eq := by
  unfold Entry.leafGet
  refine Reads.load hd fun P hP _ => ?_
  cases P with
  | leaf b' => cases hP; exact Reads.last
  | internal s t c => cases hP

namespace HPFocus

theorem treePath_reads {h : Heap α} : ∀ (fuel : Nat) {g : List (Addr × Nat × Nat)} {d : List (Node α × Nat × Nat)}
    (idx : Nat), List.Forall₂ (SameStep h) g d → Reads h (treePath fuel g idx) (PFocus.treePath fuel d idx) (SamePF h)
  | 0, g, d, idx, hp => by cases d <;> exact Reads.error
  | fuel + 1, _, _, idx, .nil => Reads.error
  | fuel + 1, (a, lo, hi) :: g, (nd, lo', hi') :: d, idx, .cons h1 hp => by
    obtain ⟨hd, hr⟩ := h1
    cases hr
    refine Reads.bind (childRef_reads hd idx) fun r r' hr => ?_
    cases hr with
    | none => exact Reads.error
    | some hc =>
      rename_i x y
      obtain ⟨c, clo, chi⟩ := x
      obtain ⟨k, clo', chi'⟩ := y
      obtain ⟨hc, he⟩ := hc
      cases he
      refine Reads.same fun len _ => ?_
      refine Reads.load hc fun P hP _ => ?_
      cases P with
      | leaf b =>
        cases hP
        exact Reads.pure ⟨.cons ⟨hd, rfl⟩ hp, hc, rfl, rfl⟩
      | internal s t ch =>
        cases hP
        show Reads h (liftM (usub idx clo) >>= _) (usub idx clo >>= _) _
        refine Reads.same fun idx' _ => ?_
        exact treePath_reads fuel idx' (.cons ⟨hc, rfl⟩ (.cons ⟨hd, rfl⟩ hp))

theorem fromTree_reads {h : Heap α} {a : Addr} {nd : Node α} (hd : Den h a nd) :
    Reads h (fromTree a) (PFocus.fromTree nd) (SamePF h) := by
  unfold fromTree
  refine Reads.load hd fun P hP _ => ?_
  cases P with
  | leaf b =>
    cases hP
    exact Reads.pure ⟨.nil, hd, rfl, rfl⟩
  | internal s t c =>
    cases hP
    show Reads h _ ((Node.internal s t _ : Node α).len >>= _) _
    refine Reads.same fun n _ => ?_
    exact treePath_reads _ 0 (.cons ⟨hd, rfl⟩ .nil)

theorem popPath_reads {h : Heap α} (idx : Nat) : ∀ {g : List (Addr × Nat × Nat)} {d : List (Node α × Nat × Nat)},
    List.Forall₂ (SameStep h) g d →
    Reads h (liftM (popPath idx g)) (PFocus.popPath idx d) (List.Forall₂ (SameStep h))
  | _, _, .nil => Reads.error
  | (a, lo, hi) :: g, (nd, lo', hi') :: d, .cons h1 hp => by
    obtain ⟨hd, hr⟩ := h1
    cases hr
    simp only [PFocus.popPath, popPath]
    by_cases hi : inRange lo hi idx = true
    · rw [if_pos hi, if_pos hi]
      exact Reads.pure (.cons ⟨hd, rfl⟩ hp)
    · rw [if_neg hi, if_neg hi]
      exact popPath_reads idx hp

theorem moveFocus_reads {h : Heap α} {g : HPFocus} {d : PFocus α} (hs : SamePF h g d) (idx : Nat) :
    Reads h (moveFocus g idx) (d.moveFocus idx) (SamePF h) := by
  unfold moveFocus PFocus.moveFocus
  rw [hs.lo, hs.hi]
  refine Reads.ite (fun _ => ?_) fun _ => Reads.pure hs
  refine Reads.bind (popPath_reads idx hs.path) fun g' d' hp => ?_
  cases hp with
  | nil => exact Reads.error
  | cons h1 hp =>
    rename_i x y _ _
    obtain ⟨a, lo, hi⟩ := x
    obtain ⟨nd, lo', hi'⟩ := y
    obtain ⟨hd, hr⟩ := h1
    cases hr
    show Reads h _ (usub idx lo >>= _) _
    refine Reads.same fun n _ => ?_
    unfold Entry.level
    rw [bind_assoc]
    refine Reads.load hd fun P hP _ => ?_
    have hl : (P.map Prod.fst).level = nd.level := by rw [show nd = _ from hP, Body.node_level, Body.level_nat, Body.level_nat]
    rw [pure_bind, hl]
    exact treePath_reads _ n (.cons ⟨hd, rfl⟩ hp)

theorem get_reads {h : Heap α} {g : HPFocus} {d : PFocus α} (hs : SamePF h g d) (idx : Nat) :
    Reads h (get g idx) (d.get idx) fun r q => r.1 = q.1 ∧ SamePF h r.2 q.2 := by
  unfold get PFocus.get
  have hl : Option.Rel (SameStep h) g.path.getLast? d.path.getLast? := by
    have : ∀ {g : List (Addr × Nat × Nat)} {d : List (Node α × Nat × Nat)}, List.Forall₂ (SameStep h) g d →
        Option.Rel (SameStep h) g.getLast? d.getLast? := by
      intro g d hp
      induction hp with
      | nil => exact .none
      | @cons x y l m h1 hp ih =>
        rw [List.getLast?_cons, List.getLast?_cons]
        cases hg : l.getLast? with
        | none => cases hm : m.getLast? with
          | none => exact .some h1
          | some y' => rw [hg, hm] at ih; cases ih
        | some x' => cases hm : m.getLast? with
          | none => rw [hg, hm] at ih; cases ih
          | some y' => rw [hg, hm] at ih; exact ih
    exact this hs.path
  cases hg : g.path.getLast? with
  | none =>
    cases hm : d.path.getLast? with
    | some _ => rw [hg, hm] at hl; cases hl
    | none => exact Reads.bind (leafGet_reads hs.leaf idx) fun x y e => Reads.pure ⟨e, hs⟩
  | some x =>
    cases hm : d.path.getLast? with
    | none => rw [hg, hm] at hl; cases hl
    | some y =>
      rw [hg, hm] at hl
      cases hl with
      | some hl =>
        obtain ⟨a, r⟩ := x
        obtain ⟨nd, r'⟩ := y
        refine Reads.bind (Reads.len hl.1) fun n n' e => ?_
        cases e
        refine Reads.ite (fun _ => Reads.pure ⟨rfl, hs⟩) fun _ => ?_
        refine Reads.bind (moveFocus_reads hs idx) fun g' d' hs' => ?_
        rw [hs'.lo]
        refine Reads.same fun i _ => ?_
        exact Reads.bind (leafGet_reads hs'.leaf i) fun x y e => Reads.pure ⟨e, hs'⟩

end HPFocus

/-- A vector in memory and the vector it stands for. -/
def SameVec (h : Heap α) (g : HVec) (d : RVec α) : Prop :=
  ∃ p : VecOf (Addr × Node α), g = p.addrs ∧ d = p.nodes ∧ ∀ x ∈ p.entries, Den h x.1 x.2

/-- The spine nodes, in order. -/
def SameSpine (h : Heap α) (g : Option (Side × Nat) × Addr) (d : Option (Side × Nat) × Node α) : Prop :=
  g.1 = d.1 ∧ Den h g.2 d.2

theorem forall₂_zipIdx {h : Heap α} (s : Side) : ∀ (l : List (Addr × Node α)) (k : Nat), (∀ x ∈ l, Den h x.1 x.2) →
    List.Forall₂ (SameSpine h) (((l.map Prod.fst).zipIdx k).map fun p => (some (s, p.2), p.1))
      (((l.map Prod.snd).zipIdx k).map fun p => (some (s, p.2), p.1))
  | [], k, _ => .nil
  | x :: l, k, hl => .cons ⟨rfl, hl x (by simp)⟩ (forall₂_zipIdx s l (k + 1) fun y hy => hl y (by simp [hy]))

theorem spineIter_rel {h : Heap α} {g : HVec} {d : RVec α} (hs : SameVec h g d) :
    List.Forall₂ (SameSpine h) g.spineIter d.spineIter := by
  obtain ⟨p, rfl, rfl, hp⟩ := hs
  refine List.rel_append (List.rel_append (forall₂_zipIdx .front p.left 0 fun x hx => hp x ?_) (.cons ⟨rfl, hp _ ?_⟩ .nil))
    (List.rel_reverse (forall₂_zipIdx .back p.right 0 fun x hx => hp x ?_))
  · simp [VecOf.entries, hx]
  · simp [VecOf.entries]
  · simp [VecOf.entries, hx]

theorem SameVec.lens {h : Heap α} {g : HVec} {d : RVec α} (hs : SameVec h g d) :
    g.len = d.len ∧ g.left.length = d.left.length ∧ g.right.length = d.right.length ∧ Den h g.root d.root := by
  obtain ⟨p, rfl, rfl, hp⟩ := hs
  exact ⟨rfl, by simp [VecOf.addrs, VecOf.nodes], by simp [VecOf.addrs, VecOf.nodes], hp _ (by simp [VecOf.entries])⟩

/-- A focus on the heap and the focus on nodes. -/
structure SameF (h : Heap α) (g : HFocus) (d : Focus α) : Prop where
  tree : SameVec h g.tree d.tree
  pos : g.pos = d.pos
  node : SamePF h g.node d.node
  flo : g.flo = d.flo
  fhi : g.fhi = d.fhi
  lo : g.lo = d.lo
  hi : g.hi = d.hi

namespace HFocus

/-- What the loop of `narrowed_tree` has found. -/
structure SamePick (h : Heap α) (g : Pick) (d : Focus.Pick α) : Prop where
  pos : g.pos = d.pos
  node : Den h g.node d.node
  flo : g.flo = d.flo
  fhi : g.fhi = d.fhi

theorem pickLoop_reads {h : Heap α} (lo hi : Nat) : ∀ {l : List (Option (Side × Nat) × Addr)}
    {m : List (Option (Side × Nat) × Node α)} (r : Nat) {g : Pick} {d : Focus.Pick α},
    List.Forall₂ (SameSpine h) l m → SamePick h g d →
    Reads h (pickLoop lo hi l r g) (Focus.pickLoop lo hi m r d) (SamePick h)
  | _, _, r, g, d, .nil, hp => Reads.pure hp
  | (pos, a) :: l, (pos', nd) :: m, r, g, d, .cons h1 ht, hp => by
    obtain ⟨h1, h2⟩ := h1
    cases h1
    refine Reads.bind (Reads.len h2) fun n n' e => ?_
    cases e
    refine Reads.same fun stop _ => ?_
    refine pickLoop_reads lo hi stop ht ?_
    split
    · exact ⟨rfl, h2, rfl, rfl⟩
    · exact hp

theorem narrowedTree_reads {h : Heap α} {g : HVec} {d : RVec α} (hs : SameVec h g d) (lo hi : Nat) :
    Reads h (narrowedTree g lo hi) (Focus.narrowedTree d lo hi) (SameF h) := by
  obtain ⟨h1, -, -, h2⟩ := hs.lens
  unfold narrowedTree Focus.narrowedTree
  rw [h1]
  refine Reads.bind (pickLoop_reads _ _ 0 (spineIter_rel hs) ⟨rfl, h2, rfl, rfl⟩) fun p q hp => ?_
  refine Reads.bind (HPFocus.fromTree_reads hp.node) fun pf qf hf => ?_
  exact Reads.pure ⟨hs, hp.pos, hf, hp.flo, hp.fhi, rfl, rfl⟩

theorem new_reads {h : Heap α} {g : HVec} {d : RVec α} (hs : SameVec h g d) :
    Reads h (new g) (Focus.new d) (SameF h) := by
  unfold new Focus.new
  rw [hs.lens.1]
  exact narrowedTree_reads hs _ _

theorem enter_reads {h : Heap α} {g : HFocus} {d : Focus α} (hs : SameF h g d) (pos : Option (Side × Nat)) {a : Addr}
    {nd : Node α} (hd : Den h a nd) (flo fhi idx : Nat) :
    Reads h (g.enter pos a flo fhi idx) (d.enter pos nd flo fhi idx) (SameF h) := by
  refine Reads.bind (HPFocus.fromTree_reads hd) fun pf qf hf => Reads.same fun i _ => ?_
  refine Reads.bind (HPFocus.moveFocus_reads hf i) fun pf qf hf => ?_
  exact Reads.pure ⟨hs.tree, rfl, hf, rfl, rfl, hs.lo, hs.hi⟩

theorem refocusBack_reads {h : Heap α} {g : HFocus} {d : Focus α} (hs : SameF h g d) (idx : Nat) :
    ∀ {l : List (Option (Side × Nat) × Addr)} {m : List (Option (Side × Nat) × Node α)} (r : Nat),
    List.Forall₂ (SameSpine h) l m → Reads h (g.refocusBack idx l r) (d.refocusBack idx m r) (SameF h)
  | _, _, r, .nil => Reads.pure hs
  | (pos, a) :: l, (pos', nd) :: m, r, .cons h1 ht => by
    obtain ⟨h1, h2⟩ := h1
    cases h1
    refine Reads.bind (Reads.len h2) fun n n' e => ?_
    cases e
    refine Reads.same fun start _ => Reads.ite (fun _ => enter_reads hs _ h2 _ _ _) fun _ => ?_
    exact refocusBack_reads hs idx start ht

theorem refocusFwd_reads {h : Heap α} {g : HFocus} {d : Focus α} (hs : SameF h g d) (idx : Nat) :
    ∀ {l : List (Option (Side × Nat) × Addr)} {m : List (Option (Side × Nat) × Node α)} (r : Nat),
    List.Forall₂ (SameSpine h) l m → Reads h (g.refocusFwd idx l r) (d.refocusFwd idx m r) (SameF h)
  | _, _, r, .nil => Reads.pure hs
  | (pos, a) :: l, (pos', nd) :: m, r, .cons h1 ht => by
    obtain ⟨h1, h2⟩ := h1
    cases h1
    refine Reads.bind (Reads.len h2) fun n n' e => ?_
    cases e
    refine Reads.same fun stop _ => Reads.ite (fun _ => enter_reads hs _ h2 _ _ _) fun _ => ?_
    exact refocusFwd_reads hs idx stop ht

theorem skip_eq {h : Heap α} {g : HVec} {d : RVec α} (hs : SameVec h g d) (pos : Option (Side × Nat)) :
    skipBack g pos = Focus.skipBack d pos ∧ skipFwd g pos = Focus.skipFwd d pos := by
  obtain ⟨-, h1, h2, -⟩ := hs.lens
  rcases pos with _ | ⟨s, n⟩
  · exact ⟨by simp [skipBack, Focus.skipBack, h2], by simp [skipFwd, Focus.skipFwd, h1]⟩
  · cases s <;> exact ⟨by simp [skipBack, Focus.skipBack, h1, h2], by simp [skipFwd, Focus.skipFwd, h1, h2]⟩

theorem refocus_reads {h : Heap α} {g : HFocus} {d : Focus α} (hs : SameF h g d) (idx : Nat) :
    Reads h (g.refocus idx) (d.refocus idx) (SameF h) := by
  unfold refocus Focus.refocus
  rw [hs.flo, hs.fhi, hs.pos, (skip_eq hs.tree _).1, (skip_eq hs.tree _).2]
  have hsp := spineIter_rel hs.tree
  refine Reads.same fun _ _ => Reads.ite (fun _ => Reads.same fun n _ => ?_) fun _ => Reads.same fun n _ => ?_
  · exact refocusBack_reads hs idx _ (List.forall₂_drop n (List.rel_reverse hsp))
  · exact refocusFwd_reads hs idx _ (List.forall₂_drop n hsp)

theorem get_reads {h : Heap α} {g : HFocus} {d : Focus α} (hs : SameF h g d) (idx : Nat) :
    Reads h (g.get idx) (d.get idx) fun r q => r.1 = q.1 ∧ SameF h r.2 q.2 := by
  unfold get Focus.get
  rw [hs.lo, hs.hi]
  refine Reads.same fun n _ => Reads.ite (fun _ => ?_) fun _ => Reads.pure ⟨rfl, hs⟩
  rw [hs.flo, hs.fhi]
  refine Reads.bind (Q := SameF h) (Reads.ite (fun _ => refocus_reads hs n) fun _ => Reads.pure hs) fun g' d' hs' => ?_
  rw [hs'.flo]
  refine Reads.same fun i _ => Reads.bind (HPFocus.get_reads hs'.node i) fun r q hr => Reads.pure ⟨hr.1, ?_⟩
  exact ⟨hs'.tree, hs'.pos, hr.2, rfl, hs'.fhi, hs'.lo, hs'.hi⟩

end HFocus

/-- An iterator on the heap and the iterator on nodes. -/
structure SameIter (h : Heap α) (g : HVIter) (d : VIter α) : Prop where
  front : g.front = d.front
  back : g.back = d.back
  focus : SameF h g.focus d.focus

namespace HVIter

theorem new_reads {h : Heap α} {g : HVec} {d : RVec α} (hs : SameVec h g d) :
    Reads h (new g) (VIter.new d) (SameIter h) :=
  Reads.bind (HFocus.new_reads hs) fun _ _ hf => Reads.pure ⟨rfl, hs.lens.1, hf⟩

theorem next_reads {h : Heap α} {g : HVIter} {d : VIter α} (hs : SameIter h g d) :
    Reads h g.next d.next fun r q => r.1 = q.1 ∧ SameIter h r.2 q.2 := by
  unfold next VIter.next
  rw [hs.front, hs.back]
  refine Reads.ite (fun _ => ?_) fun _ => Reads.pure ⟨rfl, hs⟩
  refine Reads.bind (HFocus.get_reads hs.focus _) fun r q hr => ?_
  rw [hr.1]
  exact Reads.same fun x _ => Reads.pure ⟨rfl, ⟨rfl, rfl, hr.2⟩⟩

theorem nextBack_reads {h : Heap α} {g : HVIter} {d : VIter α} (hs : SameIter h g d) :
    Reads h g.nextBack d.nextBack fun r q => r.1 = q.1 ∧ SameIter h r.2 q.2 := by
  unfold nextBack VIter.nextBack
  rw [hs.front, hs.back]
  refine Reads.ite (fun _ => Reads.same fun bk _ => ?_) fun _ => Reads.pure ⟨rfl, hs⟩
  exact Reads.bind (HFocus.get_reads hs.focus _) fun r q hr => Reads.pure ⟨hr.1, ⟨rfl, rfl, hr.2⟩⟩

theorem run_reads {h : Heap α} : ∀ (script : List Side) {g : HVIter} {d : VIter α}, SameIter h g d →
    Reads h (run script g) (runScript VIter.step script d) fun r q => r.1 = q.1 ∧ SameIter h r.2 q.2
  | [], g, d, hs => Reads.pure ⟨rfl, hs⟩
  | s :: script, g, d, hs => by
    have h1 : Reads h (step s g) (VIter.step s d) fun r q => r.1 = q.1 ∧ SameIter h r.2 q.2 := by
      cases s
      · exact next_reads hs
      · exact nextBack_reads hs
    refine Reads.bind h1 fun r q hr => Reads.bind (run_reads script hr.2) fun r' q' hr' => ?_
    exact Reads.pure ⟨by rw [hr.1, hr'.1], hr'.2⟩

end HVIter

namespace HVec

theorem iterCmp_reads {h : Heap α} (cmp : α → α → Ordering) : ∀ (fuel : Nat) {a b : HVIter} {a' b' : VIter α},
    SameIter h a a' → SameIter h b b' → Reads h (iterCmp cmp fuel a b) (RVec.iterCmp cmp fuel a' b') Eq
  | 0, _, _, _, _, _, _ => Reads.error
  | fuel + 1, a, b, a', b', ha, hb => by
    refine Reads.bind (HVIter.next_reads ha) fun x x' hx => ?_
    obtain ⟨x1, x2⟩ := x
    obtain ⟨y1, y2⟩ := x'
    obtain ⟨e, hx⟩ := hx
    cases e
    cases x1 with
    | none =>
      refine Reads.bind (HVIter.next_reads hb) fun y y' hy => ?_
      rw [hy.1]
      exact Reads.pure rfl
    | some p =>
      refine Reads.bind (HVIter.next_reads hb) fun z z' hz => ?_
      obtain ⟨z1, z2⟩ := z
      obtain ⟨w1, w2⟩ := z'
      obtain ⟨e, hz⟩ := hz
      cases e
      cases z1 with
      | none => exact Reads.pure rfl
      | some q =>
        simp only
        cases cmp p q with
        | eq => exact iterCmp_reads cmp fuel hx hz
        | lt => exact Reads.pure rfl
        | gt => exact Reads.pure rfl

theorem cmpVec_reads {h : Heap α} (cmp : α → α → Ordering) {v w : HVec} {v' w' : RVec α} (hv : SameVec h v v')
    (hw : SameVec h w w') : Reads h (cmpVec cmp v w) (RVec.cmpVec cmp v' w') Eq := by
  refine Reads.bind (HVIter.new_reads hv) fun a a' ha => Reads.bind (HVIter.new_reads hw) fun b b' hb => ?_
  rw [hv.lens.1]
  exact iterCmp_reads cmp _ ha hb

end HVec

/-- What is owned can be read. -/
theorem World.sameVec {h : Heap α} {L : Ctx α} (w : World h L) {p : VecOf (Addr × Node α)} (hp : ∀ x ∈ p.owned, x ∈ L) :
    SameVec h p.addrs p.nodes :=
  ⟨p, rfl, rfl, fun x hx => w.mem x.1 x.2 (hp _ (by rw [← VecOf.own_entries]; exact mem_own.2 hx))⟩

end Librrb
