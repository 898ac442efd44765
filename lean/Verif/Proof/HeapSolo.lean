import Verif.Proof.HeapAlong
import Verif.Proof.Heap

/-!
# Nodes with one owner
-/
namespace Librrb

/-! ### No node has two owners -/

/-- No node has two owners. -/
def Solo (h : Heap α) : Prop := ∀ a c, h.cell a = some c → c.count = 1

theorem Solo.loadMut {h h' : Heap α} (s : Solo h) {a b : Addr} (e : loadMut a h = .ok (b, h')) : b = a ∧ h' = h := by
  obtain ⟨o, h1, e1, e2⟩ := hm_bind_inv e
  obtain ⟨rfl, c, hc, rfl⟩ := isOne_inv e1
  rw [s _ _ hc] at e2
  cases e2
  exact ⟨rfl, rfl⟩

theorem Solo.alone {h h' : Heap α} (s : Solo h) {a : Addr} {x y : HM α γ} {r : γ}
    (e : (do let one ← isOne a; if one then x else y : HM α γ) h = .ok (r, h')) : x h = .ok (r, h') := by
  obtain ⟨o, h1, e1, e2⟩ := hm_bind_inv e
  obtain ⟨rfl, c, hc, rfl⟩ := isOne_inv e1
  rw [s _ _ hc] at e2
  exact e2

theorem Solo.put {h : Heap α} (s : Solo h) {a : Addr} {c : RcBox α} (n : Body α Addr) (e : h.cell a = some c) :
    Solo (h.put a (some { c with node := n })) := by
  intro b d hb
  rw [Heap.cell_put (Heap.cell_lt e)] at hb
  split at hb
  · cases hb; exact s a c e
  · exact s _ _ hb

theorem Solo.dropLoop : ∀ (fuel : Nat) (as : List Addr) {h h' : Heap α}, Solo h → dropLoop fuel as h = .ok h' → Solo h'
  | _, [], h, h', s, e => by
    rw [Librrb.dropLoop] at e
    cases e
    exact s
  | 0, _ :: _, h, h', s, e => by cases e
  | fuel + 1, a :: as, h, h', s, e => by
    rw [Librrb.dropLoop, Heap.release] at e
    cases hc : h.cell a with
    | none => rw [hc] at e; cases e
    | some c =>
      rw [hc] at e
      simp only [if_pos (show c.count ≤ 1 by rw [s _ _ hc])] at e
      refine Solo.dropLoop fuel _ ?_ e
      intro b d hb
      rw [Heap.cell_put (Heap.cell_lt hc)] at hb
      split at hb
      · cases hb
      · exact s _ _ hb

/-- Without `clone`, unshared nodes stay unshared. -/
theorem solo_makes : Makes fun h h' : Heap α => Solo h → Solo h' where
  refl _ s := s
  trans a b s := b (a s)
  put n e s := s.put n e
  alone a _ _ hx := ⟨fun h r h' e s => hx.run _ _ _ (s.alone e) s⟩
  alloc n := ⟨fun h r h' e s => by
    cases e
    intro b d hb
    unfold Heap.cell at hb
    by_cases hlt : b < h.cells.length
    · rw [List.getElem?_append_left hlt] at hb
      exact s b d hb
    · rw [List.getElem?_append_right (by omega)] at hb
      cases hk : b - h.cells.length with
      | zero => rw [hk] at hb; cases hb; rfl
      | succ k => rw [hk] at hb; cases hb⟩
  dropEntries as := ⟨fun h r h' e s => by
    exact Solo.dropLoop _ _ s (dropEntries_inv e)⟩

/-- The same nodes are in memory, none of them shared. -/
def Steady (h h' : Heap α) : Prop :=
  Solo h → Solo h' ∧ h'.cells.length = h.cells.length ∧ ∀ a, (h'.cell a).isSome = (h.cell a).isSome

/-- Writing to unshared nodes makes none and frees none. -/
theorem steady_writes : Writes (Steady (α := α)) where
  refl _ s := ⟨s, rfl, fun _ => rfl⟩
  trans a b s := by
    obtain ⟨s1, k1, k2⟩ := a s
    obtain ⟨s2, k3, k4⟩ := b s1
    exact ⟨s2, k3.trans k1, fun x => (k4 x).trans (k2 x)⟩
  put {h a c} n e s := by
    refine ⟨s.put n e, by simp [Heap.put], fun b => ?_⟩
    rw [Heap.cell_put (Heap.cell_lt e)]
    split
    next hb => subst hb; rw [e]; rfl
    · rfl
  alone a _ _ hx := ⟨fun h r h' e s => hx.run _ _ _ (s.alone e) s⟩

/-! ### Entries stay what they are -/

theorem Solo.along {h h' : Heap α} (s : Solo h) {x : HM α γ} {r : γ} (a : Along (fun h h' : Heap α => Solo h → Solo h') x)
    (e : x h = .ok (r, h')) : Solo h' := a.run _ _ _ e s

theorem Solo.borrow {h h' : Heap α} (s : Solo h) {a : Addr} {r : Addr × Body α Addr} (e : borrow a h = .ok (r, h')) : r.1 = a := by
  obtain ⟨b, h1, e1, e2⟩ := hm_bind_inv e
  obtain ⟨rfl, rfl⟩ := s.loadMut e1
  obtain ⟨c, h2, e3, e4⟩ := hm_bind_inv e2
  cases e4
  rfl

theorem Solo.setAux {h h' : Heap α} (s : Solo h) {n : Nat} {a : Addr} {i : Nat} {x : α} {r : Bool × Addr}
    (e : Entry.setAux n a i x h = .ok (r, h')) : r.2 = a := by
  cases n with
  | zero => cases e
  | succ n =>
    simp only [Entry.setAux] at e
    obtain ⟨b, h1, e1, e2⟩ := hm_bind_inv e
    have hb := s.borrow e1
    clear e1 e
    cases hn : b.2 with
    | leaf l =>
      simp only [hn] at e2
      obtain ⟨y, h2, e3, e4⟩ := hm_bind_inv e2
      obtain ⟨⟨⟩, h3, e5, e6⟩ := hm_bind_inv e4
      cases e6
      exact hb
    | internal t k c =>
      simp only [hn] at e2
      obtain ⟨p, h2, e3, e4⟩ := hm_bind_inv e2
      cases p with
      | none =>
        obtain ⟨⟨⟩, h3, e5, e6⟩ := hm_bind_inv e4
        cases e6
        exact hb
      | some p =>
        obtain ⟨y, h3, e5, e6⟩ := hm_bind_inv e4
        obtain ⟨y, h3, e5, e6⟩ := hm_bind_inv e6
        obtain ⟨y, h3, e5, e6⟩ := hm_bind_inv e6
        obtain ⟨y, h3, e5, e6⟩ := hm_bind_inv e6
        obtain ⟨y, h3, e5, e6⟩ := hm_bind_inv e6
        obtain ⟨y, h3, e5, e6⟩ := hm_bind_inv e6
        cases e6
        exact hb

theorem Solo.entrySet {h h' : Heap α} (s : Solo h) {a : Addr} {i : Nat} {x : α} {r : Bool × Addr}
    (e : Entry.set a i x h = .ok (r, h')) : r.2 = a := by
  obtain ⟨l, h1, e1, e2⟩ := hm_bind_inv e
  exact (s.along (Entry.level_along solo_makes.toWrites a) e1).setAux e2

theorem Solo.borrowNode {h h' : Heap α} (s : Solo h) {a : Addr} {r : Addr × HNode} (e : Entry.borrowNode a h = .ok (r, h')) :
    r.1 = a := by
  obtain ⟨b, h1, e1, e2⟩ := hm_bind_inv e
  obtain ⟨rfl, rfl⟩ := s.loadMut e1
  obtain ⟨c, h2, e3, e4⟩ := hm_bind_inv e2
  obtain ⟨v, h3, e5, e6⟩ := hm_bind_inv e4
  cases e6
  rfl

theorem Solo.borrowNodes : ∀ (l : List Addr) {h h' : Heap α} {r : List Addr × List HNode}, Solo h →
    HVec.borrowNodes l h = .ok (r, h') → r.1 = l
  | [], h, h', r, s, e => by cases e; rfl
  | a :: l, h, h', r, s, e => by
    simp only [HVec.borrowNodes] at e
    obtain ⟨b, h1, e1, e2⟩ := hm_bind_inv e
    have s1 := s.along (Entry.isEmpty_along solo_makes.toWrites a) e1
    cases b with
    | false =>
      obtain ⟨b, h2, e3, e4⟩ := hm_bind_inv e2
      have s2 := s1.along (Entry.borrowNode_along solo_makes.toWrites a) e3
      obtain ⟨q, h3, e5, e6⟩ := hm_bind_inv e4
      cases e6
      show b.1 :: q.1 = _
      rw [s1.borrowNode e3, Solo.borrowNodes l s2 e5]
    | true =>
      obtain ⟨q, h3, e5, e6⟩ := hm_bind_inv e2
      cases e6
      show a :: q.1 = _
      rw [Solo.borrowNodes l s1 e5]

theorem List.set_getElem?_self {l : List γ} {i : Nat} {x : γ} (e : l[i]? = some x) : l.set i x = l := by
  apply List.ext_getElem?
  intro j
  rw [List.getElem?_set]
  by_cases hj : i = j
  · subst hj
    obtain ⟨hi, -⟩ := List.getElem?_eq_some_iff.mp e
    rw [if_pos rfl, if_pos hi, e]
  · rw [if_neg hj]

theorem VecOf.withNodeAt_self {v : VecOf γ} {pos : Option (Side × Nat)} {nd : γ} (e : v.nodeAt pos = .ok nd) :
    v.withNodeAt pos nd = v := by
  have key : ∀ {o : Option γ}, unwrap o = .ok nd → o = some nd := by
    intro o ho
    cases o with
    | none => cases ho
    | some y => cases ho; rfl
  match pos, e with
  | some (.front, i), e => simp only [VecOf.withNodeAt, List.set_getElem?_self (key e)]
  | some (.back, i), e => simp only [VecOf.withNodeAt, List.set_getElem?_self (key e)]
  | none, e => cases e; rfl

theorem VecOf.withLeafNode_self (v : VecOf γ) (d : Side) : v.withLeafNode d (v.leafNode d) = v := by
  obtain ⟨l, r, t, n⟩ := v
  cases d
  · cases l <;> rfl
  · cases r <;> rfl

theorem Solo.focusMut {h h' : Heap α} (s : Solo h) {v : HVec} {r : HVec × HFMut} (e : v.focusMut h = .ok (r, h')) : r.1 = v := by
  have w := (solo_makes (α := α)).toWrites
  simp only [HVec.focusMut] at e
  obtain ⟨l, h1, e1, e2⟩ := hm_bind_inv e
  have s1 := s.along (HVec.borrowNodes_along w _) e1
  obtain ⟨b, h2, e3, e4⟩ := hm_bind_inv e2
  have s2 := s1.along (Entry.isEmpty_along w _) e3
  obtain ⟨m, h3, e5, e6⟩ := hm_bind_inv e4
  have hm : m.1 = v.root ∧ Solo h3 := by
    cases b with
    | false =>
      obtain ⟨c, h4, e7, e8⟩ := hm_bind_inv e5
      cases e8
      exact ⟨s2.borrowNode e7, s2.along (Entry.borrowNode_along w _) e7⟩
    | true => cases e5; exact ⟨rfl, s2⟩
  obtain ⟨q, h4, e7, e8⟩ := hm_bind_inv e6
  obtain ⟨f, h5, e9, e10⟩ := hm_bind_inv e8
  cases e10
  simp only [hm.1, Solo.borrowNodes _ s e1, Solo.borrowNodes _ hm.2 e7, List.reverse_reverse]

theorem Solo.window {h h' : Heap α} (s : Solo h) {v : HVec} {lo hi : Nat} {r : HVec × HFMut}
    (e : v.window lo hi h = .ok (r, h')) : r.1 = v := by
  obtain ⟨q, h1, e1, e2⟩ := hm_bind_inv e
  obtain ⟨a, h2, e3, e4⟩ := hm_bind_inv e2
  obtain ⟨b, h3, e5, e6⟩ := hm_bind_inv e4
  cases e6
  show q.1 = v
  have hq := s.focusMut e1
  exact hq

theorem Solo.set {h h' : Heap α} (s : Solo h) {v : HVec} {i : Nat} {x : α} {r : Bool × HVec} (e : v.set i x h = .ok (r, h')) :
    r.2 = v := by
  have w := (solo_makes (α := α)).toWrites
  obtain ⟨p, h1, e1, e2⟩ := hm_bind_inv e
  have s1 := s.along (HVec.findNodeInfoForIndex_along w v i) e1
  cases p with
  | none => cases e2; rfl
  | some p =>
    obtain ⟨pos, sub⟩ := p
    obtain ⟨nd, h2, e3, e4⟩ := hm_bind_inv e2
    have s2 := s1.along (Along.lift w _) e3
    obtain ⟨q, h3, e5, e6⟩ := hm_bind_inv e4
    obtain ⟨⟨⟩, h4, e7, e8⟩ := hm_bind_inv e6
    cases e8
    show v.withNodeAt pos q.2 = v
    rw [s2.entrySet e5]
    have e3 : v.nodeAt pos = .ok nd := by
      cases hv : v.nodeAt pos with
      | error f => rw [hv] at e3; cases e3
      | ok y => rw [hv] at e3; cases e3; rfl
    exact VecOf.withNodeAt_self e3

theorem Solo.setFrontBack {h h' : Heap α} (s : Solo h) {v : HVec} {d : Side} {x : α} {r : Bool × HVec}
    (e : v.setFrontBack d x h = .ok (r, h')) : r.2 = v := by
  obtain ⟨b, h1, e1, e2⟩ := hm_bind_inv e
  obtain ⟨y, h2, e3, e4⟩ := hm_bind_inv e2
  obtain ⟨⟨⟩, h3, e5, e6⟩ := hm_bind_inv e4
  cases e6
  show v.withLeafNode d b.1 = v
  rw [s.borrow e1]
  exact VecOf.withLeafNode_self v d

theorem Solo.act {h h' : Heap α} (s : Solo h) {v : HVec} {a : Act α} (ha : a.InPlace) {r : Answer α × HVec × List HVec}
    (e : a.hrun v h = .ok (r, h')) : r.2 = (v, []) := by
  cases a <;> simp only [Act.InPlace] at ha <;> simp only [Act.hrun] at e
  case len | isEmpty => cases e; rfl
  case get | front | back =>
    obtain ⟨x, h1, e1, e2⟩ := hm_bind_inv e
    cases e2
    rfl
  case iterate | focusRead =>
    obtain ⟨x, h1, e1, e2⟩ := hm_bind_inv e
    obtain ⟨y, h2, e3, e4⟩ := hm_bind_inv e2
    cases e4
    rfl
  case set =>
    obtain ⟨x, h1, e1, e2⟩ := hm_bind_inv e
    cases e2
    rw [s.set e1]
  case setEnd =>
    obtain ⟨x, h1, e1, e2⟩ := hm_bind_inv e
    cases e2
    rw [s.setFrontBack e1]
  case reverseRange =>
    obtain ⟨x, h1, e1, e2⟩ := hm_bind_inv e
    cases e2
    obtain ⟨a, h2, e3, e4⟩ := hm_bind_inv e1
    have s2 := s.along (Along.lift solo_makes.toWrites _) e3
    obtain ⟨b, h3, e5, e6⟩ := hm_bind_inv e4
    have s3 := s2.along (Along.lift solo_makes.toWrites _) e5
    obtain ⟨c, h4, e7, e8⟩ := hm_bind_inv e6
    obtain ⟨d, h5, e9, e10⟩ := hm_bind_inv e8
    obtain ⟨⟨⟩, h6, e11, e12⟩ := hm_bind_inv e10
    cases e12
    rw [s3.window e7]
  case sortRange =>
    obtain ⟨x, h1, e1, e2⟩ := hm_bind_inv e
    cases e2
    obtain ⟨a, h2, e3, e4⟩ := hm_bind_inv e1
    have s2 := s.along (Along.lift solo_makes.toWrites _) e3
    obtain ⟨b, h3, e5, e6⟩ := hm_bind_inv e4
    have s3 := s2.along (Along.lift solo_makes.toWrites _) e5
    obtain ⟨c, h4, e7, e8⟩ := hm_bind_inv e6
    obtain ⟨d, h5, e9, e10⟩ := hm_bind_inv e8
    cases e10
    rw [s3.window e7]
  case mapEnds =>
    obtain ⟨x, h1, e1, e2⟩ := hm_bind_inv e
    obtain ⟨y, h2, e3, e4⟩ := hm_bind_inv e2
    cases e4
    obtain ⟨c, h4, e7, e8⟩ := hm_bind_inv e1
    cases e8
    rw [s.focusMut e7]
  case editFocus =>
    obtain ⟨x, h1, e1, e2⟩ := hm_bind_inv e
    obtain ⟨y, h2, e3, e4⟩ := hm_bind_inv e2
    cases e4
    rw [s.focusMut e1]
  case shareFocus =>
    obtain ⟨x, h1, e1, e2⟩ := hm_bind_inv e
    obtain ⟨y, h2, e3, e4⟩ := hm_bind_inv e2
    cases e4
    rw [s.focusMut e1]

end Librrb
