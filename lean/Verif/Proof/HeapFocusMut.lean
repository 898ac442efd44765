import Verif.Proof.HeapPath
import Verif.Proof.Cells

/-!
# The mutable focus on the heap does what the one over places does

The focus over places (`FMut Cell`) names an item by the entry of the vector it is below and the slots on the way
down. On the heap a pointer stands for a place when that way, from that entry, is unshared and ends there.
-/
namespace Librrb

open VecOf

/-! ### Places and structure -/

namespace Node

theorem mapAddr_sub (π : List Nat) : ∀ (f : List Nat → α → β) (nd : Node α),
    (nd.mapAddr f).sub π = (nd.sub π).map fun m => m.mapAddr fun q => f (π ++ q) := by
  induction π with
  | nil => intro f nd; cases nd <;> rfl
  | cons i π ih =>
    intro f nd
    cases nd with
    | leaf b => rfl
    | internal s t c =>
      show Node.sub (i :: π) (.internal s t ⟨c.front, c.len, mapAddrList f 0 c.data⟩) = _
      unfold Node.sub
      simp only [mapAddrList_getElem?, Nat.zero_add]
      cases hc : c.data[i]? with
      | none => rfl
      | some o =>
        cases o with
        | none => rfl
        | some k =>
          simp only [Option.map_some, ih]
          rfl

theorem mapAddrList_set (f : List Nat → α → β) (l : List (Option (Node α))) (p i : Nat) (k k' : Node α)
    (e : l[i]? = some (some k)) (hk : k'.mapAddr (fun q => f ((p + i) :: q)) = k.mapAddr fun q => f ((p + i) :: q)) :
    mapAddrList f p (l.set i (some k')) = mapAddrList f p l := by
  apply List.ext_getElem?
  intro j
  rw [mapAddrList_getElem?, mapAddrList_getElem?]
  by_cases hj : i = j
  · subst hj
    have := (List.getElem?_eq_some_iff.1 e).1
    rw [List.getElem?_set_self this, e]
    simp [hk]
  · rw [List.getElem?_set_ne hj]

/-- Writing an item moves no place. -/
theorem writeAt_mapAddr (x : α) (π : List Nat) : ∀ (f : List Nat → β) {nd nd' : Node α}, nd.writeAt x π = .ok nd' →
    nd'.mapAddr (fun p _ => f p) = nd.mapAddr fun p _ => f p := by
  induction π with
  | nil => intro f nd nd' e; cases nd <;> cases e
  | cons i π ih =>
    intro f nd nd' e
    cases π with
    | nil =>
      cases nd with
      | internal s t c => cases e
      | leaf b =>
        unfold Node.writeAt at e
        obtain ⟨d, e1, e2⟩ := RVec.bind_ok e
        cases e2
        obtain ⟨⟨y, hy⟩, rfl⟩ := assignSlot_inv e1
        show Node.leaf ⟨b.front, b.len, _⟩ = Node.leaf ⟨b.front, b.len, _⟩
        congr 2
        apply List.ext_getElem?
        intro j
        rw [List.getElem?_mapIdx, List.getElem?_mapIdx]
        by_cases hj : i = j
        · subst hj
          have := (List.getElem?_eq_some_iff.1 hy).1
          rw [List.getElem?_set_self this, hy]
          rfl
        · rw [List.getElem?_set_ne hj]
    | cons q π =>
      cases nd with
      | leaf b => cases e
      | internal s t c =>
        unfold Node.writeAt at e
        obtain ⟨k, e1, e2⟩ := RVec.bind_ok e
        obtain ⟨k', e3, e4⟩ := RVec.bind_ok e2
        have e1 := readSlot_inv e1
        rw [assignSlot_of e1, ok_bind] at e4
        cases e4
        show Node.internal s t ⟨c.front, c.len, _⟩ = Node.internal s t ⟨c.front, c.len, _⟩
        congr 2
        exact mapAddrList_set _ _ _ _ k k' e1 (ih _ e3)

end Node

namespace RVec

theorem cells_nodeAt (v : RVec α) (c : Option (Side × Nat)) :
    v.cells.nodeAt c = (v.nodeAt c).map fun nd => nd.mapAddr fun p _ => (c, p) := by
  rcases c with _ | ⟨s, i⟩
  · rfl
  · cases s
    · show unwrap (v.left.mapIdx _)[i]? = (unwrap v.left[i]?).map _
      rw [List.getElem?_mapIdx]
      cases v.left[i]? <;> rfl
    · show unwrap (v.right.mapIdx _)[i]? = (unwrap v.right[i]?).map _
      rw [List.getElem?_mapIdx]
      cases v.right[i]? <;> rfl

theorem mapIdx_set (l : List β) (g : Nat → β → γ) (i : Nat) (x y : β) (e : l[i]? = some x) (hg : g i y = g i x) :
    (l.set i y).mapIdx g = l.mapIdx g := by
  apply List.ext_getElem?
  intro j
  rw [List.getElem?_mapIdx, List.getElem?_mapIdx]
  by_cases hj : i = j
  · subst hj
    have := (List.getElem?_eq_some_iff.1 e).1
    rw [List.getElem?_set_self this, e]
    simp [hg]
  · rw [List.getElem?_set_ne hj]

theorem cells_withNodeAt {v : RVec α} {c : Option (Side × Nat)} {nd nd' : Node α} (e : v.nodeAt c = .ok nd)
    (h : ∀ f : List Nat → Cell, nd'.mapAddr (fun p _ => f p) = nd.mapAddr fun p _ => f p) :
    (v.withNodeAt c nd').cells = v.cells := by
  rcases c with _ | ⟨s, i⟩
  · cases e
    unfold cells mapAddr withNodeAt
    simp only [h]
  · cases s
    · have e := unwrap_inv e
      unfold cells mapAddr withNodeAt
      simp only [RVec.mk.injEq, and_true]
      exact mapIdx_set _ _ _ nd nd' e (h _)
    · have e := unwrap_inv e
      unfold cells mapAddr withNodeAt
      simp only [RVec.mk.injEq, and_true, true_and]
      exact mapIdx_set _ _ _ nd nd' e (h _)

end RVec

/-! ### The relation -/

/-- A heap, and what the thread owns in it. -/
structure St (α : Type) where
  heap : Heap α
  ctx : Ctx α

/-- What is owned is what is counted, besides what others own. -/
def St.Ok (s : St α) : Prop := ∃ F, World s.heap (s.ctx + F)

/-- The thread owns `L`. -/
structure Own (s : St α) (L : Ctx α) : Prop where
  ctx : s.ctx = L
  world : ∃ F, World s.heap (L + F)

theorem Own.ok {s : St α} {L : Ctx α} (w : Own s L) : s.Ok := by
  obtain ⟨rfl, w⟩ := w
  exact w

/-- How a call ends. -/
def Nav.Post (E : Addr → Prop) (s : St α) (Q : St α → γ → δ → Prop) (d : δ) (r : M γ) (L : Ctx α) (h : Heap α) : Prop :=
  ∃ g s', r = .ok g ∧ s'.ctx = L ∧ s'.Ok ∧ Kept L s'.heap h ∧ Later E s.heap s'.heap ∧ Q s' g d

/-- The vector `hv` is owned, and its places are `C`. -/
def Owns (L : Ctx α) (hv : HVec) (C : RVec Cell) : Prop :=
  ∃ (p : VecOf (Addr × Node α)) (R : Ctx α), p.addrs = hv ∧ p.nodes.cells = C ∧ L = p.owned + R

/-- A path from an entry of the vector ends in `a`, where the node over places is `m`. -/
def NodeAt (h : St α) (hv : HVec) (C : RVec Cell) (a : Addr) (m : Node Cell) : Prop :=
  ∃ (c : Option (Side × Nat)) (π : List Nat) (ndc : Node Cell) (e : Addr), C.nodeAt c = .ok ndc ∧ ndc.sub π = some m ∧
    hv.nodeAt c = .ok e ∧ UPath h.heap e π a

/-- The pointer to the entry of a child. -/
def KidAt (h : St α) (hv : HVec) (C : RVec Cell) (p : Ptr) (k : Node Cell) : Prop :=
  ∃ s t b, NodeAt h hv C p.node (.internal s t b) ∧ b.data[p.slot]? = some (some k)

/-- The pointer to an item. -/
def PtrAt (h : St α) (hv : HVec) (C : RVec Cell) (p : Ptr) (x : Cell) : Prop :=
  ∃ b, NodeAt h hv C p.node (.leaf b) ∧ b.data[p.slot]? = some (some x)

structure SameLeaf (h : St α) (hv : HVec) (C : RVec Cell) (g : HBuf) (d : BBuf Cell) : Prop where
  start : g.start = d.start
  stop : g.stop = d.stop
  front : g.front = d.front
  len : g.len = d.len
  at_ : NodeAt h hv C g.node (.leaf ⟨d.front, d.len, d.data⟩)

structure SameInt (h : St α) (hv : HVec) (C : RVec Cell) (g : HInternal) (d : BInternal Cell) : Prop where
  sizes : g.sizes = d.sizes
  start : g.children.start = d.children.start
  stop : g.children.stop = d.children.stop
  front : g.children.front = d.children.front
  len : g.children.len = d.children.len
  at_ : ∃ t, NodeAt h hv C g.children.node (.internal d.sizes t ⟨d.children.front, d.children.len, d.children.data⟩)

inductive SameNode (h : St α) (hv : HVec) (C : RVec Cell) : HNode → BNode Cell → Prop where
  | leaf {g d} : SameLeaf h hv C g d → SameNode h hv C (.leaf g) (.leaf d)
  | internal {g d} : SameInt h hv C g d → SameNode h hv C (.internal g) (.internal d)

def SameStepM (h : St α) (hv : HVec) (C : RVec Cell) (g : HInternal × Nat × Nat) (d : BInternal Cell × Nat × Nat) : Prop :=
  SameInt h hv C g.1 d.1 ∧ g.2 = d.2

structure SameFM (h : St α) (hv : HVec) (C : RVec Cell) (g : HFMut) (d : FMut Cell) : Prop where
  nodes : List.Forall₂ (SameNode h hv C) g.nodes d.nodes
  len : g.len = d.len
  root : g.root = d.root
  path : List.Forall₂ (SameStepM h hv C) g.path d.path
  leaf : Option.Rel (SameLeaf h hv C) g.leaf d.leaf
  llo : g.llo = d.llo
  lhi : g.lhi = d.lhi

section Mono

variable {h h' : St α} {L : Ctx α} {hv : HVec} {C : RVec Cell}

theorem Owns.starts (o : Owns L hv C) {c : Option (Side × Nat)} {e : Addr} (he : hv.nodeAt c = .ok e) : L.starts e := by
  obtain ⟨p, R, rfl, -, rfl⟩ := o
  rw [(HVec.nodeAt_nat p c).1] at he
  obtain ⟨x, hx, rfl⟩ := of_map_ok he
  obtain ⟨R', h1, -⟩ := HVec.owned_at hx
  show 1 ≤ Ctx.refs _ _
  rw [h1, refs_add, refs_add, refs_has, if_pos rfl]
  omega

/-- What is at the end of a path. -/
theorem Owns.den (o : Owns L hv C) (w : Own h L) {c : Option (Side × Nat)} {e a : Addr} {ndc m : Node Cell} {π : List Nat}
    (hc : C.nodeAt c = .ok ndc) (hm : ndc.sub π = some m) (he : hv.nodeAt c = .ok e) (u : UPath h.heap e π a) :
    ∃ m0 : Node α, Den h.heap a m0 ∧ m = m0.mapAddr fun q _ => (c, π ++ q) := by
  obtain ⟨p, R, rfl, rfl, rfl⟩ := o
  rw [(HVec.nodeAt_nat p c).1] at he
  obtain ⟨x, hx, rfl⟩ := of_map_ok he
  obtain ⟨R', h1, -⟩ := HVec.owned_at hx
  rw [RVec.cells_nodeAt, (HVec.nodeAt_nat p c).2, hx] at hc
  cases hc
  rw [Node.mapAddr_sub] at hm
  obtain ⟨-, F, w⟩ := w
  obtain ⟨m0, e0, d0⟩ := den_sub u (w.mem x.1 x.2 (by rw [h1]; simp))
  rw [e0] at hm
  cases hm
  exact ⟨m0, d0, rfl⟩

variable (o : Owns L hv C) (lt : Later L.starts h.heap h'.heap)

include o lt

theorem NodeAt.mono {a m} (x : NodeAt h hv C a m) : NodeAt h' hv C a m := by
  obtain ⟨c, π, ndc, e, h1, h2, h3, u⟩ := x
  exact ⟨c, π, ndc, e, h1, h2, h3, lt e (o.starts h3) π a u⟩

theorem KidAt.mono {a m} (x : KidAt h hv C a m) : KidAt h' hv C a m := by
  obtain ⟨s, t, b, h1, h2⟩ := x
  exact ⟨s, t, b, h1.mono o lt, h2⟩

theorem PtrAt.mono {a m} (x : PtrAt h hv C a m) : PtrAt h' hv C a m := by
  obtain ⟨b, h1, h2⟩ := x
  exact ⟨b, h1.mono o lt, h2⟩

theorem SameLeaf.mono {g d} (x : SameLeaf h hv C g d) : SameLeaf h' hv C g d :=
  { x with at_ := x.at_.mono o lt }

theorem SameInt.mono {g d} (x : SameInt h hv C g d) : SameInt h' hv C g d :=
  { x with at_ := x.at_.imp fun _ y => y.mono o lt }

theorem SameNode.mono {g d} (x : SameNode h hv C g d) : SameNode h' hv C g d := by
  cases x with
  | leaf y => exact .leaf (y.mono o lt)
  | internal y => exact .internal (y.mono o lt)

theorem SameNode.monos {g d} (x : List.Forall₂ (SameNode h hv C) g d) : List.Forall₂ (SameNode h' hv C) g d :=
  x.imp fun _ _ y => y.mono o lt

theorem SameFM.mono {g d} (x : SameFM h hv C g d) : SameFM h' hv C g d where
  nodes := SameNode.monos o lt x.nodes
  len := x.len
  root := x.root
  path := x.path.imp fun _ _ y => ⟨y.1.mono o lt, y.2⟩
  leaf := by
    have := x.leaf
    revert this
    generalize g.leaf = a
    generalize d.leaf = b
    intro r
    cases r with
    | none => exact .none
    | some y => exact .some (y.mono o lt)
  llo := x.llo
  lhi := x.lhi

end Mono

/-! ### Steps -/

/-- Whenever the call on places returns, so does the one on the heap, whatever other threads do meanwhile; and it fails in
the same way. (See `Sim` for undefined behaviour.) -/
structure Nav (E : Addr → Prop) (s : St α) (x : HM α γ) (y : M δ) (Q : St α → γ → δ → Prop) : Prop where
  ok : ∀ d, y = .ok d → s.Ok → Runs (Nav.Post E s Q d) x s.ctx s.heap
  err : ∀ e, y = .error e → e ≠ .ub → s.Ok → Runs (fun r _ _ => r = .error e) x s.ctx s.heap

/-- The same for calls that do not look at the heap. -/
structure MRel (x : M γ) (y : M δ) (Q : γ → δ → Prop) : Prop where
  ok : ∀ d, y = .ok d → ∃ g, x = .ok g ∧ Q g d
  err : ∀ e, y = .error e → e ≠ .ub → x = .error e

namespace MRel

theorem error {x : M γ} {e : Fault} {Q : γ → δ → Prop} (hx : x = .error e := by rfl) : MRel x (.error e) Q :=
  ⟨fun d hd => (by cases hd), fun e he _ => (by cases he; exact hx)⟩

theorem ub {x : M γ} {Q : γ → δ → Prop} : MRel x (.error .ub) Q :=
  ⟨fun d hd => (by cases hd), fun e he hu => (by cases he; exact absurd rfl hu)⟩

theorem pure {g : γ} {d : δ} {Q : γ → δ → Prop} (h : Q g d) : MRel (.ok g) (.ok d) Q := by
  refine ⟨fun d' e => ?_, fun e he => by cases he⟩
  cases e; exact ⟨g, rfl, h⟩

theorem bind {x : M γ} {y : M δ} {k : γ → M ζ} {k' : δ → M η} {Q : γ → δ → Prop} {Q' : ζ → η → Prop} (hx : MRel x y Q)
    (hk : ∀ g d, Q g d → MRel (k g) (k' d) Q') : MRel (x >>= k) (y >>= k') Q' := by
  refine ⟨fun d e => ?_, fun e he hu => ?_⟩
  · obtain ⟨d1, e1, e2⟩ := RVec.bind_ok e
    obtain ⟨g, eg, q⟩ := hx.ok d1 e1
    obtain ⟨g', eg', q'⟩ := (hk g d1 q).ok d e2
    exact ⟨g', by rw [eg, ok_bind]; exact eg', q'⟩
  · rcases bind_error he with he | ⟨d, e1, e2⟩
    · rw [hx.err e he hu]; rfl
    · obtain ⟨g, eg, q⟩ := hx.ok d e1
      rw [eg, ok_bind]
      exact (hk g d q).err e e2 hu

theorem same {x : M γ} {k : γ → M ζ} {k' : γ → M η} {Q' : ζ → η → Prop}
    (hk : ∀ g, x = .ok g → MRel (k g) (k' g) Q') : MRel (x >>= k) (x >>= k') Q' := by
  cases x with
  | error e => exact error
  | ok a => exact hk a rfl

theorem unwrap {a : Option γ} {b : Option δ} {Q : γ → δ → Prop} (h : Option.Rel Q a b) :
    MRel (Librrb.unwrap a) (Librrb.unwrap b) Q := by
  cases h with
  | none => exact error
  | some q => exact pure q

theorem ite {c : Prop} [Decidable c] {x x' : M γ} {y y' : M δ} {Q : γ → δ → Prop}
    (h1 : c → MRel x y Q) (h2 : ¬ c → MRel x' y' Q) : MRel (if c then x else x') (if c then y else y') Q := by
  by_cases h : c
  · rw [if_pos h, if_pos h]; exact h1 h
  · rw [if_neg h, if_neg h]; exact h2 h

end MRel

namespace Nav

variable {E : Addr → Prop} {h : St α}

theorem error {x : HM α γ} {e : Fault} {Q : St α → γ → δ → Prop} (hx : x = .fail e := by rfl) : Nav E h x (.error e) Q :=
  ⟨fun d hd => (by cases hd), fun e he _ _ => (by cases he; rw [hx]; exact .fail fun _ _ _ _ => rfl)⟩

theorem ub {x : HM α γ} {Q : St α → γ → δ → Prop} : Nav E h x (.error .ub) Q :=
  ⟨fun d hd => (by cases hd), fun e he hu => (by cases he; exact absurd rfl hu)⟩

theorem pure {g : γ} {d : δ} {Q : St α → γ → δ → Prop} (q : Q h g d) : Nav E h (Pure.pure g) (.ok d) Q := by
  refine ⟨fun d' e o => ?_, fun e he => by cases he⟩
  cases e
  exact .ret fun h1 F k w => ⟨g, h, rfl, rfl, o, k, Later.refl _ _, q⟩

theorem bind {x : HM α γ} {y : M δ} {k : γ → HM α ζ} {k' : δ → M η} {Q : St α → γ → δ → Prop}
    {Q' : St α → ζ → η → Prop} (hx : Nav E h x y Q)
    (hk : ∀ h' g d, Later E h.heap h'.heap → Q h' g d → Nav E h' (k g) (k' d) Q') : Nav E h (x >>= k) (y >>= k') Q' := by
  refine ⟨fun d e o => ?_, fun e he hu o => ?_⟩
  · obtain ⟨d1, e1, e2⟩ := RVec.bind_ok e
    obtain ⟨F, w⟩ := o
    refine (hx.ok d1 e1 ⟨F, w⟩).bind (fun g L h1 F1 q w1 => ?_) (fun e L h1 q => ?_) F w
    · obtain ⟨g', s', eg, rfl, o', kp, lt, q⟩ := q
      cases eg
      refine (((hk s' g d1 lt q).ok d e2 o').later kp).mono fun r L h2 q2 => ?_
      obtain ⟨g', s2, eg, es, o2, kp2, lt2, q2⟩ := q2
      exact ⟨g', s2, eg, es, o2, kp2, lt.trans lt2, q2⟩
    · obtain ⟨g', s', eg, -⟩ := q
      cases eg
  · obtain ⟨F, w⟩ := o
    rcases bind_error he with he | ⟨d, e1, e2⟩
    · exact (hx.err e he hu ⟨F, w⟩).bind (fun g L h1 F1 q w1 => by cases q) (fun f L h1 q => by cases q; rfl) F w
    · refine (hx.ok d e1 ⟨F, w⟩).bind (fun g L h1 F1 q w1 => ?_) (fun e L h1 q => ?_) F w
      · obtain ⟨g', s', eg, rfl, o', kp, lt, q⟩ := q
        cases eg
        exact ((hk s' g d lt q).err e e2 hu o').later kp
      · obtain ⟨g', s', eg, -⟩ := q
        cases eg

/-- A call that has no counterpart. -/
theorem seq {δ : Type} {x : HM α γ} {y : M δ} {k : γ → HM α ζ} {Q : St α → γ → Unit → Prop} {Q' : St α → ζ → δ → Prop}
    (hx : Nav E h x (.ok ()) Q) (hk : ∀ h' g, Later E h.heap h'.heap → Q h' g () → Nav E h' (k g) y Q') :
    Nav E h (x >>= k) y Q' := by
  have : Nav E h (x >>= k) ((.ok () : M Unit) >>= fun _ => y) Q' := bind hx fun h' g _ lt q => hk h' g lt q
  exact this

theorem lift {x : M γ} {y : M δ} {k : γ → HM α ζ} {k' : δ → M η} {Q : γ → δ → Prop}
    {Q' : St α → ζ → η → Prop} (hx : MRel x y Q)
    (hk : ∀ g d, Q g d → Nav E h (k g) (k' d) Q') : Nav E h (liftM x >>= k) (y >>= k') Q' := by
  cases y with
  | ok d =>
    obtain ⟨g, eg, q⟩ := hx.ok d rfl
    rw [eg]
    exact hk g d q
  | error e =>
    by_cases hu : e = .ub
    · subst hu; exact ub
    · rw [hx.err e rfl hu]; exact error

theorem lastLift {x : M γ} {y : M δ} {Q : γ → δ → Prop} {Q' : St α → γ → δ → Prop} (hx : MRel x y Q)
    (hq : ∀ g d, Q g d → Q' h g d) : Nav E h (liftM x) y Q' := by
  cases y with
  | ok d =>
    obtain ⟨g, eg, q⟩ := hx.ok d rfl
    rw [eg]
    exact pure (hq g d q)
  | error e =>
    by_cases hu : e = .ub
    · subst hu; exact ub
    · rw [hx.err e rfl hu]; exact error

theorem same {x : M γ} {k : γ → HM α ζ} {k' : γ → M η} {Q' : St α → ζ → η → Prop}
    (hk : ∀ g, x = .ok g → Nav E h (k g) (k' g) Q') : Nav E h (liftM x >>= k) (x >>= k') Q' := by
  cases x with
  | error e => exact error
  | ok a => exact hk a rfl

theorem ite {c : Prop} [Decidable c] {x x' : HM α γ} {y y' : M δ} {Q : St α → γ → δ → Prop}
    (h1 : c → Nav E h x y Q) (h2 : ¬ c → Nav E h x' y' Q) : Nav E h (if c then x else x') (if c then y else y') Q := by
  by_cases hc : c
  · rw [if_pos hc, if_pos hc]; exact h1 hc
  · rw [if_neg hc, if_neg hc]; exact h2 hc

theorem mono {x : HM α γ} {y : M δ} {Q Q' : St α → γ → δ → Prop} (hx : Nav E h x y Q)
    (hq : ∀ h' g d, Later E h.heap h'.heap → Q h' g d → Q' h' g d) : Nav E h x y Q' := by
  refine ⟨fun d e o => (hx.ok d e o).mono fun r L h1 q => ?_, hx.err⟩
  obtain ⟨g, s', eg, es, o', kp, lt, q⟩ := q
  exact ⟨g, s', eg, es, o', kp, lt, hq s' g d lt q⟩

theorem mono_E {E' : Addr → Prop} {x : HM α γ} {y : M δ} {Q : St α → γ → δ → Prop} (hx : Nav E h x y Q)
    (hE : ∀ e, E' e → E e) : Nav E' h x y Q := by
  refine ⟨fun d e o => (hx.ok d e o).mono fun r L h1 q => ?_, hx.err⟩
  obtain ⟨g, s', eg, es, o', kp, lt, q⟩ := q
  exact ⟨g, s', eg, es, o', kp, lt.mono hE, q⟩

theorem load {a : Addr} {n : Body α Addr} {k : Body α Addr → HM α γ} {y : M δ} {Q : St α → γ → δ → Prop}
    (r : h.ctx.reach h.heap a) (e : h.heap.node a = some n) (hk : Nav E h (k n) y Q) : Nav E h (Librrb.load a >>= k) y Q := by
  have key : ∀ {Q' : M γ → Ctx α → Heap α → Prop}, Runs Q' (k n) h.ctx h.heap → Runs Q' (Librrb.load a >>= k) h.ctx h.heap := by
    intro Q' hr
    refine .load fun h1 F k1 w1 => ⟨k1.reach r, fun m em => ?_⟩
    have := k1.node _ _ r e
    rw [em] at this
    cases this
    exact hr.later k1
  exact ⟨fun d e o => key (hk.ok d e o), fun e he hu o => key (hk.err e he hu o)⟩

/-- A call that only reads. -/
theorem reads {x : HM α γ} {y : M δ} {Q : γ → δ → Prop} (r : Reads (h.heap.part h.ctx) x y Q) :
    Nav E h x y fun h' g d => h' = h ∧ Q g d := by
  refine ⟨fun d e o => ?_, fun e he _ o => ?_⟩
  · obtain ⟨g, l, q⟩ := r.looks d e
    exact l.runs (.refl _ _) fun h1 F k w => ⟨g, h, rfl, rfl, o, k, Later.refl _ _, rfl, q⟩
  · exact (r.fails e he).runs (.refl _ _) fun _ _ _ _ => rfl

/-- A call that runs in this way. -/
theorem of_runs {x : HM α γ} {d : δ} {Q : St α → γ → δ → Prop} {L : Ctx α}
    (hx : h.Ok → Runs (fun r L' h' => ∃ g, r = .ok g ∧ Later E h.heap h' ∧ (∃ F, World h' (L' + F)) ∧ Q ⟨h', L'⟩ g d) x h.ctx h.heap) :
    Nav E h x (.ok d) Q := by
  refine ⟨fun d e o => ?_, fun e he => by cases he⟩
  cases e
  refine (hx o).mono fun r L' h' q => ?_
  obtain ⟨g, eg, lt, o', q⟩ := q
  exact ⟨g, ⟨h', L'⟩, eg, rfl, o', .refl _ _, lt, q⟩

end Nav

theorem derefSlot_inv {d : List (Option κ)} {i : Nat} {x : κ} (e : BBuf.derefSlot d i = .ok x) :
    d[i]? = some (some x) := by
  unfold BBuf.derefSlot at e
  split at e
  next h => cases e; exact h
  · cases e

theorem derefSlot_error {d : List (Option κ)} {i : Nat} {f : Fault} (e : BBuf.derefSlot d i = .error f) : f = .ub := by
  unfold BBuf.derefSlot at e
  split at e
  · cases e
  · cases e; rfl

/-! ### Borrowing a node -/

section Borrow

variable {h : St α} {L : Ctx α} {hv : HVec} {C : RVec Cell}

/-- Borrowing the node at the end of a path. -/
theorem view_same {a : Addr} {m0 : Node α} {m : Node Cell} {f : List Nat → Cell} (d : Den h.heap a m0)
    (hm : m = m0.mapAddr fun q _ => f q) (n : NodeAt h hv C a m) :
    ∃ b, h.heap.node a = some b ∧ MRel (b.view a) m.borrow (SameNode h hv C) := by
  obtain ⟨P, eP, rfl, -⟩ := d.inv
  refine ⟨_, eP, ?_⟩
  cases P with
  | leaf B =>
    have hm : m = .leaf ⟨B.front, B.len, B.data.mapIdx fun p o => o.map fun _ => f [p]⟩ := hm
    subst hm
    simp only [Body.map_leaf, Body.view, Node.borrow, CB.view, CB.mutableView]
    refine MRel.bind (Q := SameLeaf h hv C) ?_ fun g d q => MRel.pure (.leaf q)
    refine MRel.same fun _ _ => MRel.pure ⟨rfl, rfl, rfl, rfl, n⟩
  | internal s t B =>
    have hm : m = .internal s t ⟨B.front, B.len, mapAddrList (fun q _ => f q) 0 (B.data.map (Option.map Prod.snd))⟩ := hm
    subst hm
    simp only [Body.map_internal, Body.view, Node.borrow, CB.view, CB.mutableView]
    refine MRel.bind (Q := fun g d => SameInt h hv C ⟨s, g⟩ ⟨s, d⟩) ?_ fun g d q => MRel.pure (.internal q)
    refine MRel.same fun _ _ => MRel.pure ⟨rfl, rfl, rfl, rfl, rfl, t, n⟩

/-- `load_mut` on an entry in a slot of a node at the end of an unshared way. -/
theorem loadMutSlot_nav (w : Own h L) {e a k : Addr} {π : List Nat} {i : Nat} {s t} {c : CB Addr}
    (he : L.starts e) (u : UPath h.heap e π a) (en : h.heap.node a = some (.internal s t c)) (ek : c.data[i]? = some (some k)) :
    Nav L.starts h (loadMutSlot ⟨a, i⟩) (.ok ()) fun h' b _ => Own h' L ∧ UPath h'.heap e (π ++ [i]) b := by
  obtain ⟨rfl, F, w⟩ := w
  refine Nav.of_runs (L := h.ctx) fun _ => (loadMutSlot_runs w he u en ek).mono fun r L' h' q => ?_
  obtain ⟨b, e, rfl, lt, u', o⟩ := q
  exact ⟨b, e, lt, o, ⟨rfl, o⟩, u'⟩

theorem borrowSlot_nav (w : Own h L) (o : Owns L hv C) {p : Ptr} {k : Node Cell} (hk : KidAt h hv C p k) :
    Nav L.starts h (borrowSlot p) k.borrow fun h' g d => Own h' L ∧ SameNode h' hv C g d := by
  obtain ⟨s, t, b, ⟨c, π, ndc, e, h1, h2, h3, u⟩, h4⟩ := hk
  obtain ⟨m0, d0, hm0⟩ := o.den w h1 h2 h3 u
  obtain ⟨P, eP, rfl, -⟩ := d0.inv
  cases P with
  | leaf B => cases hm0
  | internal s' t' B =>
    have hm0 : Node.internal s t b = .internal s' t' ⟨B.front, B.len,
      mapAddrList (fun q _ => (c, π ++ q)) 0 (B.data.map (Option.map Prod.snd))⟩ := hm0
    simp only [Node.internal.injEq] at hm0
    obtain ⟨rfl, rfl, rfl⟩ := hm0
    rw [Node.mapAddrList_getElem?, List.getElem?_map] at h4
    cases hB : B.data[p.slot]? with
    | none => rw [hB] at h4; simp at h4
    | some x =>
      cases x with
      | none => rw [hB] at h4; simp at h4
      | some x =>
        refine Nav.seq (loadMutSlot_nav w (o.starts h3) u (i := p.slot) (k := x.1) eP (by
          simp [CB.map_data, hB])) fun h' b' lt ⟨w', u'⟩ => ?_
        rw [hB] at h4
        simp only [Option.map_some, Nat.zero_add, Option.some.injEq] at h4
        have h2' : ndc.sub (π ++ [p.slot]) = some k := by
          have hs : ∀ (π : List Nat) (nd m k : Node Cell) (i : Nat) s t b, nd.sub π = some (.internal s t b) →
              b.data[i]? = some (some k) → nd.sub (π ++ [i]) = some k := by
            intro π
            induction π with
            | nil =>
              intro nd m k i s t b e1 e2
              cases nd with
              | leaf _ => cases e1
              | internal _ _ _ =>
                cases e1
                simp only [List.nil_append, Node.sub, e2]
            | cons j π ih =>
              intro nd m k i s t b e1 e2
              cases nd with
              | leaf _ => cases e1
              | internal s' t' c' =>
                simp only [List.cons_append, Node.sub] at e1 ⊢
                split at e1
                next k' hk' => exact ih k' m k i s t b e1 e2
                · cases e1
          refine hs π ndc k k p.slot _ _ _ h2 ?_
          rw [Node.mapAddrList_getElem?, List.getElem?_map, hB, ← h4]
          simp
        have n' : NodeAt h' hv C b' k := ⟨c, _, ndc, e, h1, h2', h3, u'⟩
        obtain ⟨m1, d1, hm1⟩ := o.den w' h1 h2' h3 u'
        obtain ⟨bd, e2, r⟩ := view_same d1 hm1 n'
        refine Nav.load ?_ e2 (Nav.lastLift r fun g d q => ⟨w', q⟩)
        rw [w'.ctx]
        exact u'.reach (o.starts h3)

end Borrow

/-! ### Borrowed nodes -/

section Nodes

variable {h : St α} {L : Ctx α} {hv : HVec} {C : RVec Cell}

/-- The pointer to a child, with its range. -/
def SameKid (h : St α) (hv : HVec) (C : RVec Cell) (g : Ptr × Nat × Nat) (d : Node Cell × Nat × Nat) : Prop :=
  KidAt h hv C g.1 d.1 ∧ g.2 = d.2

namespace SameLeaf

variable {g : HBuf} {d : BBuf Cell} (r : SameLeaf h hv C g d)
include r

theorem length : g.length = d.length := by
  unfold HBuf.length BBuf.length; rw [r.start, r.stop]

theorem getPtr (i : Nat) : MRel (g.getPtr i) (d.get i) (Option.Rel (PtrAt h hv C)) := by
  unfold HBuf.getPtr BBuf.get
  rw [r.start, r.stop]
  refine MRel.same fun j _ => MRel.ite (fun _ => ?_) fun _ => MRel.pure .none
  cases e1 : BBuf.derefSlot d.data ((d.front + j) % 64) with
  | error e => rw [derefSlot_error e1]; exact MRel.ub
  | ok y => exact MRel.pure (.some ⟨_, r.at_, by rw [r.front]; exact derefSlot_inv e1⟩)

theorem splitAt (i : Nat) : MRel (g.splitAt i) (d.splitAt i) fun a b => SameLeaf h hv C a.1 b.1 ∧ SameLeaf h hv C a.2 b.2 := by
  unfold HBuf.splitAt BBuf.splitAt
  rw [r.start, r.stop]
  refine MRel.same fun j _ => MRel.same fun _ _ => MRel.pure ⟨?_, ?_⟩
  · exact ⟨rfl, rfl, r.front, r.len, r.at_⟩
  · exact ⟨rfl, rfl, r.front, r.len, r.at_⟩

end SameLeaf

namespace SameInt

variable {g : HInternal} {d : BInternal Cell} (r : SameInt h hv C g d)
include r

theorem leftSize : g.leftSize = d.leftSize := by
  unfold HInternal.leftSize BInternal.leftSize; rw [r.start, r.sizes]

theorem positionInfoFor (i : Nat) : g.positionInfoFor i = d.positionInfoFor i := by
  unfold HInternal.positionInfoFor BInternal.positionInfoFor; rw [r.leftSize, r.start, r.sizes, r.stop]; rfl

theorem len' : g.len = d.len := by
  unfold HInternal.len BInternal.len; rw [r.leftSize, r.start, r.sizes, r.stop]

theorem isEmpty : g.isEmpty = d.isEmpty := by
  unfold HInternal.isEmpty BInternal.isEmpty; rw [r.len']

theorem level : g.level = d.level := by
  unfold HInternal.level BInternal.level; rw [r.sizes]

theorem slots : g.slots = d.slots := by
  unfold HInternal.slots BInternal.slots HBuf.length BBuf.length; rw [r.start, r.stop]

theorem getPtr (i : Nat) : MRel (g.children.getPtr i) (d.children.get i) (Option.Rel (KidAt h hv C)) := by
  unfold HBuf.getPtr BBuf.get
  rw [r.start, r.stop]
  refine MRel.same fun j _ => MRel.ite (fun _ => ?_) fun _ => MRel.pure .none
  obtain ⟨t, n⟩ := r.at_
  cases e1 : BBuf.derefSlot d.children.data ((d.children.front + j) % 64) with
  | error e => rw [derefSlot_error e1]; exact MRel.ub
  | ok y => exact MRel.pure (.some ⟨_, _, _, n, by rw [r.front]; exact derefSlot_inv e1⟩)

theorem childAtSlot (i : Nat) : MRel (g.childAtSlot i) (d.childAtSlot i) (Option.Rel (SameKid h hv C)) := by
  unfold HInternal.childAtSlot BInternal.childAtSlot
  rw [r.start, r.sizes, r.leftSize]
  refine MRel.same fun j _ => MRel.same fun q _ => ?_
  rcases q with _ | ⟨lo, hi⟩
  · exact MRel.pure .none
  · refine MRel.same fun _ _ => MRel.same fun _ _ => MRel.same fun _ _ => MRel.bind (r.getPtr i) fun a b q => ?_
    cases q with
    | none => exact MRel.pure .none
    | some q => exact MRel.pure (.some ⟨q, rfl⟩)

theorem childForPosition (i : Nat) : MRel (g.childForPosition i) (d.childForPosition i) (Option.Rel (SameKid h hv C)) := by
  unfold HInternal.childForPosition BInternal.childForPosition
  rw [r.positionInfoFor]
  refine MRel.same fun q _ => ?_
  rcases q with _ | ⟨j, _⟩
  · exact MRel.pure .none
  · exact r.childAtSlot j

theorem childAtSide (s : Side) : MRel (g.childAtSide s) (d.childAtSide s) (Option.Rel (SameKid h hv C)) := by
  cases s
  · exact r.childAtSlot 0
  · show MRel (g.childAtSlot (g.slots - 1)) (d.childAtSlot (d.slots - 1)) _
    rw [r.slots]
    exact r.childAtSlot _

theorem withStart (n : Nat) : SameInt h hv C { g with children := { g.children with start := n } }
    { d with children := { d.children with start := n } } :=
  ⟨r.sizes, rfl, r.stop, r.front, r.len, r.at_⟩

theorem withStop (n : Nat) : SameInt h hv C { g with children := { g.children with stop := n } }
    { d with children := { d.children with stop := n } } :=
  ⟨r.sizes, r.start, rfl, r.front, r.len, r.at_⟩

theorem popChild (w : Own h L) (o : Owns L hv C) (s : Side) : Nav L.starts h (g.popChild s) (d.popChild s)
    fun h' a b => Own h' L ∧ Option.Rel (fun a b => SameNode h' hv C a.1 b.1 ∧ SameInt h' hv C a.2 b.2) a b := by
  unfold HInternal.popChild BInternal.popChild
  refine Nav.lift (r.childAtSide s) fun a b q => ?_
  cases q with
  | none => exact Nav.pure ⟨w, .none⟩
  | @some a b q =>
    refine Nav.bind (borrowSlot_nav w o q.1) fun h' x y lt hq => ?_
    cases s with
    | front =>
      simp only [r.start]
      exact Nav.pure ⟨hq.1, .some ⟨hq.2, (r.mono o lt).withStart _⟩⟩
    | back =>
      simp only [r.stop]
      exact Nav.same fun e _ => Nav.pure ⟨hq.1, .some ⟨hq.2, (r.mono o lt).withStop _⟩⟩

theorem splitAtChild (i : Nat) : MRel (g.splitAtChild i) (d.splitAtChild i)
    fun a b => SameInt h hv C a.1 b.1 ∧ SameInt h hv C a.2 b.2 := by
  unfold HInternal.splitAtChild BInternal.splitAtChild HBuf.splitAt BBuf.splitAt
  rw [r.start, r.stop]
  simp only [bind_assoc]
  refine MRel.same fun j _ => MRel.same fun _ _ => MRel.pure ⟨?_, ?_⟩
  · exact ⟨r.sizes, rfl, rfl, r.front, r.len, r.at_⟩
  · exact ⟨r.sizes, rfl, rfl, r.front, r.len, r.at_⟩

theorem splitAtPosition (i : Nat) : MRel (g.splitAtPosition i) (d.splitAtPosition i)
    fun a b => a.1 = b.1 ∧ SameInt h hv C a.2.1 b.2.1 ∧ SameInt h hv C a.2.2 b.2.2 := by
  unfold HInternal.splitAtPosition BInternal.splitAtPosition
  rw [r.positionInfoFor]
  exact MRel.same fun _ _ => MRel.same fun _ _ => MRel.bind (r.splitAtChild _) fun a b q => MRel.pure ⟨rfl, q⟩

end SameInt

theorem SameNode.len {g : HNode} {d : BNode Cell} (r : SameNode h hv C g d) : g.len = d.len := by
  cases r with
  | leaf r => exact congrArg Except.ok r.length
  | internal r => exact r.len'

theorem SameNode.level {g : HNode} {d : BNode Cell} (r : SameNode h hv C g d) : g.level = d.level := by
  cases r with
  | leaf r => rfl
  | internal r => exact r.level

theorem sumLens_same {g : List HNode} {d : List (BNode Cell)} (r : List.Forall₂ (SameNode h hv C) g d) :
    ∀ n, HFMut.sumLens g n = FMut.sumLens d n := by
  induction r with
  | nil => intro n; rfl
  | cons r _ ih => intro n; unfold HFMut.sumLens FMut.sumLens; simp only [r.len, ih]

theorem findLoop_same {g : List HNode} {d : List (BNode Cell)} (r : List.Forall₂ (SameNode h hv C) g d) (i : Nat) :
    ∀ k n, HFMut.findLoop i g k n = FMut.findLoop i d k n := by
  induction r with
  | nil => intro k n; rfl
  | cons r _ ih => intro k n; unfold HFMut.findLoop FMut.findLoop; simp only [r.len, ih]

theorem fromNodes_same {g : List HNode} {d : List (BNode Cell)} (r : List.Forall₂ (SameNode h hv C) g d) :
    MRel (HFMut.fromNodes g) (FMut.fromNodes d) (SameFM h hv C) := by
  unfold HFMut.fromNodes FMut.fromNodes
  rw [sumLens_same r]
  exact MRel.same fun n _ => MRel.pure ⟨r, rfl, rfl, .nil, .none, rfl, rfl⟩

theorem SameFM.empty : SameFM h hv C HFMut.empty FMut.empty := ⟨.nil, rfl, rfl, .nil, .none, rfl, rfl⟩

end Nodes

/-! ### The focus -/

section Foci

variable {L : Ctx α} {hv : HVec} {C : RVec Cell}

theorem unwrap_at_same {R : γ → δ → Prop} {g : List γ} {d : List δ} (r : List.Forall₂ R g d) (i : Nat) :
    MRel (unwrap g[i]?) (unwrap d[i]?) R := by
  refine MRel.unwrap ?_
  induction r generalizing i with
  | nil => simp
  | cons q _ ih =>
    cases i with
    | zero => exact .some q
    | succ i => simpa using ih i

namespace SameFM

variable {h : St α} {g : HFMut} {d : FMut Cell} (r : SameFM h hv C g d)
include r

theorem assertInvariants : g.assertInvariants = d.assertInvariants := by
  unfold HFMut.assertInvariants FMut.assertInvariants; rw [sumLens_same r.nodes, r.len]

theorem findNodeInfoForIndex (i : Nat) : g.findNodeInfoForIndex i = d.findNodeInfoForIndex i := by
  unfold HFMut.findNodeInfoForIndex FMut.findNodeInfoForIndex; rw [findLoop_same r.nodes, r.len]

theorem dropPathNodes : SameFM h hv C g.dropPathNodes d.dropPathNodes := by
  have hl := r.leaf
  unfold HFMut.dropPathNodes FMut.dropPathNodes
  cases hg : g.leaf with
  | none =>
    rw [hg] at hl
    cases hd : d.leaf with
    | none => exact ⟨r.nodes, r.len, rfl, .nil, by simp only [hg, hd]; exact .none, r.llo, r.lhi⟩
    | some _ => rw [hd] at hl; cases hl
  | some _ =>
    rw [hg] at hl
    cases hd : d.leaf with
    | none => rw [hd] at hl; cases hl
    | some _ => exact ⟨r.nodes, r.len, rfl, .nil, .none, rfl, rfl⟩

theorem leaf_isSome : g.leaf.isSome = d.leaf.isSome := by
  have hl := r.leaf
  revert hl
  generalize g.leaf = a
  generalize d.leaf = b
  intro hl
  cases hl <;> rfl

end SameFM

theorem splitLoop_nav (o : Owns L hv C) : ∀ (fuel sub : Nat) {h : St α} {l r : List HNode} {l' r' : List (BNode Cell)},
    Own h L → List.Forall₂ (SameNode h hv C) l l' → List.Forall₂ (SameNode h hv C) r r' →
    Nav L.starts h (HFMut.splitLoop fuel sub l r) (FMut.splitLoop fuel sub l' r') fun h' a b =>
      Own h' L ∧ List.Forall₂ (SameNode h' hv C) a.1 b.1 ∧ List.Forall₂ (SameNode h' hv C) a.2 b.2
  | 0, _, _, _, _, _, _, _, _, _ => Nav.error
  | fuel + 1, sub, h, l, r, l', r', w, hl, hr => by
    unfold HFMut.splitLoop FMut.splitLoop
    refine Nav.ite (fun _ => Nav.pure ⟨w, hl, hr⟩) fun _ => ?_
    cases hr with
    | nil => exact Nav.error
    | cons q hr =>
      cases q with
      | internal q =>
        refine Nav.lift (q.splitAtPosition sub) fun a b hab => ?_
        obtain ⟨a1, a2, a3⟩ := a
        obtain ⟨b1, b2, b3⟩ := b
        obtain ⟨e1, q2, q3⟩ := hab
        simp only at e1 q2 q3 ⊢
        subst e1
        refine Nav.bind (q3.popChild w o .front) fun h1 x y lt hq => ?_
        refine Nav.lift (MRel.unwrap hq.2) fun c c' hc => ?_
        rw [q2.isEmpty, hc.2.isEmpty]
        refine Nav.same fun le _ => Nav.same fun re _ => ?_
        refine splitLoop_nav o fuel a1 hq.1 ?_ (.cons hc.1 ?_)
        · split
          · exact .cons (.internal (q2.mono o lt)) (SameNode.monos o lt hl)
          · exact SameNode.monos o lt hl
        · split
          · exact .cons (.internal hc.2) (SameNode.monos o lt hr)
          · exact SameNode.monos o lt hr
      | leaf q =>
        refine Nav.lift (q.splitAt sub) fun a b hab => ?_
        rw [hab.1.length, hab.2.length]
        refine Nav.pure ⟨w, ?_, ?_⟩
        · simp only
          split
          · exact .cons (.leaf hab.1) hl
          · exact hl
        · simp only
          split
          · exact .cons (.leaf hab.2) hr
          · exact hr

theorem splitFuel_same {h : St α} {r : List HNode} {r' : List (BNode Cell)} (q : List.Forall₂ (SameNode h hv C) r r') :
    HFMut.splitFuel r = FMut.splitFuel r' := by
  cases q with
  | nil => rfl
  | cons q _ => exact congrArg (· + 2) q.level

theorem forall₂_take {R : γ → δ → Prop} {g : List γ} {d : List δ} (r : List.Forall₂ R g d) (n : Nat) :
    List.Forall₂ R (g.take n) (d.take n) := List.forall₂_take n r

theorem forall₂_drop {R : γ → δ → Prop} {g : List γ} {d : List δ} (r : List.Forall₂ R g d) (n : Nat) :
    List.Forall₂ R (g.drop n) (d.drop n) := List.forall₂_drop n r

theorem forall₂_reverse {R : γ → δ → Prop} {g : List γ} {d : List δ} (r : List.Forall₂ R g d) :
    List.Forall₂ R g.reverse d.reverse := List.rel_reverse r

/-- `split_at`. -/
theorem splitAt_nav {h : St α} (o : Owns L hv C) (w : Own h L) {g : HFMut} {d : FMut Cell} (r : SameFM h hv C g d) (i : Nat) :
    Nav L.starts h (g.splitAt i) (d.splitAt i) fun h' a b =>
      Own h' L ∧ SameFM h' hv C a.1 b.1 ∧ SameFM h' hv C a.2 b.2 := by
  unfold HFMut.splitAt FMut.splitAt
  rw [r.len, r.assertInvariants, (SameFM.empty (h := h) (hv := hv) (C := C)).assertInvariants, r.findNodeInfoForIndex]
  refine Nav.ite (fun _ => ?_) fun _ => Nav.ite (fun _ => ?_) fun _ => ?_
  · exact Nav.same fun _ _ => Nav.same fun _ _ => Nav.pure ⟨w, SameFM.empty, r⟩
  · exact Nav.same fun _ _ => Nav.same fun _ _ => Nav.pure ⟨w, r, SameFM.empty⟩
  · refine Nav.same fun p0 _ => Nav.same fun p _ => ?_
    rw [splitFuel_same (forall₂_drop r.nodes p.1)]
    refine Nav.bind (splitLoop_nav o _ _ w (forall₂_reverse (forall₂_take r.nodes p.1)) (forall₂_drop r.nodes p.1))
      fun h1 a b lt hq => ?_
    refine Nav.lift (fromNodes_same (forall₂_reverse hq.2.1)) fun f f' hf => ?_
    refine Nav.lift (fromNodes_same hq.2.2) fun s s' hs => ?_
    rw [hf.len, hs.len, hf.assertInvariants, hs.assertInvariants]
    exact Nav.same fun _ _ => Nav.same fun _ _ => Nav.same fun _ _ => Nav.same fun _ _ => Nav.pure ⟨hq.1, hf, hs⟩

theorem SameFM.leaf' {h : St α} {g : HFMut} {d : FMut Cell} (r : SameFM h hv C g d) {b : HBuf} {b' : BBuf Cell}
    (q : SameLeaf h hv C b b') (lo hi : Nat) :
    SameFM h hv C { g with leaf := some b, llo := lo, lhi := hi } { d with leaf := some b', llo := lo, lhi := hi } :=
  ⟨r.nodes, r.len, r.root, r.path, .some q, rfl, rfl⟩

theorem descend_nav (o : Owns L hv C) : ∀ (fuel i : Nat) {h : St α} {g : HFMut} {d : FMut Cell}, Own h L →
    SameFM h hv C g d → Nav L.starts h (HFMut.descend fuel g i) (FMut.descend fuel d i) fun h' a b =>
      Own h' L ∧ SameFM h' hv C a b
  | 0, _, _, _, _, _, _ => Nav.error
  | fuel + 1, i, h, g, d, w, r => by
    unfold HFMut.descend FMut.descend
    have hp := r.path
    cases hg : g.path with
    | nil =>
      rw [hg] at hp
      cases hd : d.path with
      | nil => exact Nav.error
      | cons _ _ => rw [hd] at hp; cases hp
    | cons x xs =>
      rw [hg] at hp
      cases hd : d.path with
      | nil => rw [hd] at hp; cases hp
      | cons y ys =>
        rw [hd] at hp
        obtain ⟨x1, x2, x3⟩ := x
        obtain ⟨y1, y2, y3⟩ := y
        cases hp with
        | cons q hp =>
          obtain ⟨q, e⟩ := q
          simp only [Prod.mk.injEq] at q e ⊢
          obtain ⟨rfl, rfl⟩ := e
          refine Nav.lift (q.childForPosition i) fun a b hab => ?_
          refine Nav.lift (MRel.unwrap hab) fun a b hab => ?_
          obtain ⟨a1, a2⟩ := a
          obtain ⟨b1, b2⟩ := b
          obtain ⟨hk, e⟩ := hab
          simp only at hk e
          subst e
          refine Nav.same fun i' _ => Nav.same fun lo _ => Nav.same fun hi _ => ?_
          refine Nav.bind (borrowSlot_nav w o hk) fun h1 c c' lt hq => ?_
          obtain ⟨w1, hq⟩ := hq
          have r1 := r.mono o lt
          cases hq with
          | leaf hq =>
            exact Nav.pure ⟨w1, r1.nodes, r1.len, r1.root, by rw [← hg, ← hd]; exact r1.path, .some hq, rfl, rfl⟩
          | internal hq =>
            refine descend_nav o fuel i' w1 ⟨r1.nodes, r1.len, r1.root, .cons ⟨hq, rfl⟩ ?_, r1.leaf, r1.llo, r1.lhi⟩
            rw [← hg, ← hd]
            exact r1.path

theorem enter_nav {h : St α} (o : Owns L hv C) (w : Own h L) {g : HFMut} {d : FMut Cell} (r : SameFM h hv C g d) (i k : Nat) :
    Nav L.starts h (g.enter i k) (d.enter i k) fun h' a b => Own h' L ∧ SameFM h' hv C a b := by
  unfold HFMut.enter FMut.enter
  have hp := r.path
  cases hg : g.path with
  | nil =>
    rw [hg] at hp
    cases hd : d.path with
    | nil => exact Nav.same fun j _ => descend_nav o _ _ w r
    | cons _ _ => rw [hd] at hp; cases hp
  | cons x xs =>
    rw [hg] at hp
    cases hd : d.path with
    | nil => rw [hd] at hp; cases hp
    | cons y ys =>
      rw [hd] at hp
      obtain ⟨x1, x2, x3⟩ := x
      obtain ⟨y1, y2, y3⟩ := y
      cases hp with
      | cons q hp =>
        obtain ⟨q, e⟩ := q
        simp only [Prod.mk.injEq] at q e ⊢
        obtain ⟨rfl, rfl⟩ := e
        rw [q.level]
        exact Nav.same fun j _ => descend_nav o _ _ w r

theorem dropWhile_same {R : γ × β → δ × β → Prop} (hR : ∀ a b, R a b → a.2 = b.2) (p : β → Bool) {g : List (γ × β)}
    {d : List (δ × β)} (r : List.Forall₂ R g d) :
    List.Forall₂ R (g.dropWhile fun x => p x.2) (d.dropWhile fun x => p x.2) := by
  induction r with
  | nil => exact .nil
  | @cons a b _ _ q rs ih =>
    simp only [List.dropWhile_cons, hR a b q]
    split
    · exact ih
    · exact .cons q rs

theorem moveFrom_nav {h : St α} (o : Owns L hv C) (w : Own h L) {g : HFMut} {d : FMut Cell} (r : SameFM h hv C g d) (i : Nat)
    (root : Nat × Nat × Nat) :
    Nav L.starts h (g.moveFrom i root) (d.moveFrom i root) fun h' a b => Own h' L ∧ SameFM h' hv C a b := by
  unfold HFMut.moveFrom FMut.moveFrom
  have r' : SameFM h hv C { g with path := g.path.dropWhile fun p => !inRange p.2.1 p.2.2 i }
      { d with path := d.path.dropWhile fun p => !inRange p.2.1 p.2.2 i } :=
    ⟨r.nodes, r.len, r.root, dropWhile_same (fun _ _ q => q.2) (fun b => !inRange b.1 b.2 i) r.path, r.leaf, r.llo, r.lhi⟩
  simp only
  have he : (g.path.dropWhile fun p => !inRange p.2.1 p.2.2 i).isEmpty = (d.path.dropWhile fun p => !inRange p.2.1 p.2.2 i).isEmpty := by
    have := r'.path
    simp only at this
    revert this
    generalize (g.path.dropWhile fun p => !inRange p.2.1 p.2.2 i) = a
    generalize (d.path.dropWhile fun p => !inRange p.2.1 p.2.2 i) = b
    intro q
    cases q <;> rfl
  rw [he]
  refine Nav.ite (fun _ => ?_) fun _ => enter_nav o w r' i _
  refine Nav.lift (unwrap_at_same r.nodes root.1) fun a b hab => ?_
  cases hab with
  | leaf q => exact Nav.pure ⟨w, r'.nodes, r'.len, r'.root, r'.path, r'.leaf, rfl, rfl⟩
  | internal q =>
    refine Nav.same fun j _ => ?_
    refine Nav.lift (q.childForPosition j) fun a b hab => ?_
    refine Nav.lift (MRel.unwrap hab) fun a b hab => ?_
    obtain ⟨a1, a2⟩ := a
    obtain ⟨b1, b2⟩ := b
    obtain ⟨hk, e⟩ := hab
    simp only at hk e
    subst e
    refine Nav.same fun lo _ => Nav.same fun hi _ => ?_
    refine Nav.bind (borrowSlot_nav w o hk) fun h1 c c' lt hq => ?_
    obtain ⟨w1, hq⟩ := hq
    have r1 := r'.mono o lt
    cases hq with
    | leaf hq => exact Nav.pure ⟨w1, r1.leaf' hq _ _⟩
    | internal hq =>
      rename_i gi di
      have r2 : SameFM h1 hv C { g with path := [(gi, lo, hi)] } { d with path := [(di, lo, hi)] } :=
        ⟨r1.nodes, r1.len, r1.root, .cons ⟨hq, rfl⟩ .nil, r1.leaf, r1.llo, r1.lhi⟩
      exact enter_nav o w1 r2 _ _

/-- The first half of `move_focus`. -/
def FMut.settle (f : FMut κ) (idx : Nat) : FMut κ :=
  let f := (if f.leaf.isSome then { f with leaf := none, llo := 0, lhi := 0 } else f)
  match f.root with
  | some (_, lo, hi) => if !inRange lo hi idx then f.dropPathNodes else f
  | none => f

/-- The second half of `move_focus`. -/
def FMut.locate (f : FMut κ) (idx : Nat) : M (FMut κ) :=
  match f.root with
  | some root => f.moveFrom idx root
  | none =>
    if idx < f.len then do
      let p ← unwrap (← f.findNodeInfoForIndex idx)
      let start ← usub idx p.2
      let nd ← unwrap f.nodes[p.1]?
      let n ← nd.len
      let stop ← uadd start n
      { f with root := some (p.1, start, stop) }.moveFrom idx (p.1, start, stop)
    else .ok f

theorem FMut.moveFocus_eq (f : FMut κ) (idx : Nat) :
    f.moveFocus idx = if inRange f.llo f.lhi idx then .ok f else (f.settle idx).locate idx := by
  unfold FMut.moveFocus FMut.settle FMut.locate
  rfl

/-- The first half of `move_focus`. -/
def HFMut.settle (f : HFMut) (idx : Nat) : HFMut :=
  let f := (if f.leaf.isSome then { f with leaf := none, llo := 0, lhi := 0 } else f)
  match f.root with
  | some (_, lo, hi) => if !inRange lo hi idx then f.dropPathNodes else f
  | none => f

/-- The second half of `move_focus`. -/
def HFMut.locate (f : HFMut) (idx : Nat) : HM α (HFMut) :=
  match f.root with
  | some root => f.moveFrom idx root
  | none =>
    if idx < f.len then do
      let p ← unwrap (← f.findNodeInfoForIndex idx)
      let start ← usub idx p.2
      let nd ← unwrap f.nodes[p.1]?
      let n ← nd.len
      let stop ← uadd start n
      { f with root := some (p.1, start, stop) }.moveFrom idx (p.1, start, stop)
    else pure f

theorem HFMut.moveFocus_eq (f : HFMut) (idx : Nat) :
    f.moveFocus (α := α) idx = if inRange f.llo f.lhi idx then pure f else (f.settle idx).locate idx := by
  unfold HFMut.moveFocus HFMut.settle HFMut.locate
  rfl

theorem settle_same {h : St α} {g : HFMut} {d : FMut Cell} (r : SameFM h hv C g d) (i : Nat) :
    SameFM h hv C (g.settle i) (d.settle i) := by
  unfold HFMut.settle FMut.settle
  rw [r.leaf_isSome]
  have r1 : SameFM h hv C (if d.leaf.isSome then { g with leaf := none, llo := 0, lhi := 0 } else g)
      (if d.leaf.isSome then { d with leaf := none, llo := 0, lhi := 0 } else d) := by
    split
    · exact ⟨r.nodes, r.len, r.root, r.path, .none, rfl, rfl⟩
    · exact r
  revert r1
  generalize (if d.leaf.isSome then { g with leaf := none, llo := 0, lhi := 0 } else g) = g1
  generalize (if d.leaf.isSome then { d with leaf := none, llo := 0, lhi := 0 } else d) = d1
  intro r1
  simp only
  rw [r1.root]
  split
  · split
    · exact r1.dropPathNodes
    · exact r1
  · exact r1

theorem locate_nav {h : St α} (o : Owns L hv C) (w : Own h L) {g : HFMut} {d : FMut Cell} (r : SameFM h hv C g d) (i : Nat) :
    Nav L.starts h (g.locate i) (d.locate i) fun h' a b => Own h' L ∧ SameFM h' hv C a b := by
  unfold HFMut.locate FMut.locate
  rw [r.root]
  cases hd : d.root with
  | some root => exact moveFrom_nav o w r i root
  | none =>
    simp only
    rw [r.len, r.findNodeInfoForIndex]
    refine Nav.ite (fun _ => ?_) fun _ => Nav.pure ⟨w, r⟩
    refine Nav.same fun p0 _ => Nav.same fun p _ => Nav.same fun st _ => ?_
    refine Nav.lift (unwrap_at_same r.nodes p.1) fun a b hab => ?_
    rw [hab.len]
    refine Nav.same fun n _ => Nav.same fun stop _ => ?_
    have r2 : SameFM h hv C { g with root := some (p.1, st, stop) } { d with root := some (p.1, st, stop) } :=
      ⟨r.nodes, r.len, rfl, r.path, r.leaf, r.llo, r.lhi⟩
    simpa only [r.len] using moveFrom_nav o w r2 i (p.1, st, stop)

theorem moveFocus_nav {h : St α} (o : Owns L hv C) (w : Own h L) {g : HFMut} {d : FMut Cell} (r : SameFM h hv C g d) (i : Nat) :
    Nav L.starts h (g.moveFocus i) (d.moveFocus i) fun h' a b => Own h' L ∧ SameFM h' hv C a b := by
  rw [HFMut.moveFocus_eq, FMut.moveFocus_eq, r.llo, r.lhi]
  exact Nav.ite (fun _ => Nav.pure ⟨w, r⟩) fun _ => locate_nav o w (settle_same r i) i

/-- `get`. -/
theorem get_nav {h : St α} (o : Owns L hv C) (w : Own h L) {g : HFMut} {d : FMut Cell} (r : SameFM h hv C g d) (i : Nat) :
    Nav L.starts h (g.get i) (d.get i) fun h' a b =>
      Own h' L ∧ Option.Rel (PtrAt h' hv C) a.1 b.1 ∧ SameFM h' hv C a.2 b.2 := by
  unfold HFMut.get FMut.get
  refine Nav.bind (moveFocus_nav o w r i) fun h1 g1 d1 lt hq => ?_
  obtain ⟨w1, r1⟩ := hq
  rw [r1.llo, r1.lhi]
  refine Nav.ite (fun _ => ?_) fun _ => Nav.pure ⟨w1, .none, r1⟩
  refine Nav.same fun pos _ => ?_
  have hl := r1.leaf
  cases hg : g1.leaf with
  | some x =>
    rw [hg] at hl
    cases hd : d1.leaf with
    | none => rw [hd] at hl; cases hl
    | some y =>
      rw [hd] at hl
      cases hl with
      | some q => exact Nav.lift (q.getPtr pos) fun a b hab => Nav.pure ⟨w1, hab, r1⟩
  | none =>
    rw [hg] at hl
    cases hd : d1.leaf with
    | some _ => rw [hd] at hl; cases hl
    | none =>
      simp only
      rw [r1.root]
      refine Nav.same fun root _ => Nav.lift (unwrap_at_same r1.nodes root.1) fun a b hab => ?_
      refine Nav.lift (Q := SameLeaf h1 hv C) ?_ fun a b q => Nav.lift (q.getPtr pos) fun a b hab => Nav.pure ⟨w1, hab, r1⟩
      cases hab with
      | leaf q => exact MRel.pure q
      | internal q => exact MRel.error

/-- `index`. -/
theorem index_nav {h : St α} (o : Owns L hv C) (w : Own h L) {g : HFMut} {d : FMut Cell} (r : SameFM h hv C g d) (i : Nat) :
    Nav L.starts h (g.index i) (d.index i) fun h' a b => Own h' L ∧ PtrAt h' hv C a.1 b.1 ∧ SameFM h' hv C a.2 b.2 := by
  unfold HFMut.index FMut.index
  refine Nav.bind (get_nav o w r i) fun h1 a b lt hq => ?_
  exact Nav.lift (MRel.unwrap hq.2.1) fun x y q => Nav.pure ⟨hq.1, q, hq.2.2⟩

end Foci
end Librrb
