import Verif.Model.FocusMut
import Verif.Proof.Focus

/-! # The mutable focus reaches the places of the items -/
namespace Librrb

theorem findPos_mid (X : List Nat) (x : Nat) (Y : List Nat) {j : Nat} (hj : j < x) :
    SizeTable.findPos (X ++ x :: Y) (X.sum + j) = some (X.length, j) := by
  induction X with
  | nil => simp [SizeTable.findPos, hj]
  | cons a X ih =>
    rw [List.cons_append, SizeTable.findPos, if_neg (by simp; omega), List.sum_cons,
      show a + X.sum + j - a = X.sum + j by omega, ih]
    simp

/-- The kid in which a position lies. -/
theorem exists_kid (ks : List (Node α)) {pos : Nat} (h : pos < (ks.flatMap Node.toList).length) :
    ∃ (A : List (Node α)) (k : Node α) (B : List (Node α)), ks = A ++ k :: B ∧
      (A.flatMap Node.toList).length ≤ pos ∧ pos < (A.flatMap Node.toList).length + k.toList.length := by
  induction ks generalizing pos with
  | nil => simp at h
  | cons k ks ih =>
    by_cases hp : pos < k.toList.length
    · exact ⟨[], k, ks, rfl, by simp, by simpa using hp⟩
    · rw [List.flatMap_cons, List.length_append] at h
      obtain ⟨A, k', B, rfl, h1, h2⟩ := ih (pos := pos - k.toList.length) (by omega)
      exact ⟨k :: A, k', B, rfl, by rw [List.flatMap_cons, List.length_append]; omega,
        by rw [List.flatMap_cons, List.length_append]; omega⟩

namespace BBuf

/-- A view of a ring that holds `pre ++ m ++ post`, on the part `m`. -/
structure Has (b : BBuf κ) (pre m post : List κ) : Prop where
  rep : CB.Rep ⟨b.front, b.len, b.data⟩ (pre ++ m ++ post)
  start : b.start = pre.length
  stop : b.stop = pre.length + m.length

theorem Has.le {b : BBuf κ} {pre m post : List κ} (h : b.Has pre m post) : pre.length + m.length ≤ 64 := by
  have := h.rep.le
  simp at this
  omega

theorem Has.length {b : BBuf κ} {pre m post : List κ} (h : b.Has pre m post) : b.length = m.length := by
  rw [BBuf.length, h.start, h.stop]; omega

theorem derefSlot_ok {data : List (Option κ)} {i : Nat} {x : κ} (e : readSlot data i = .ok x) :
    derefSlot data i = .ok x := by
  unfold readSlot at e
  unfold derefSlot
  split at e
  · cases e
  · cases e
  next h => cases e; rw [h]

theorem get_ok {b : BBuf κ} {pre m post : List κ} (h : b.Has pre m post) {i : Nat} (hi : i < m.length) :
    b.get i = .ok (some m[i]) := by
  have hle := h.le
  have hr := derefSlot_ok (CB.Rep.read h.rep (i := i + pre.length) (by simp; omega))
  unfold get
  rw [h.start, uadd_ok (by omega), ok_bind, h.stop, if_pos (by rw [inRange_iff]; omega), hr, ok_bind]
  simp [hi]

theorem splitAt_ok {b : BBuf κ} {pre m m' post : List κ} (h : b.Has pre (m ++ m') post) :
    ∃ b1 b2, b.splitAt m.length = .ok (b1, b2) ∧ b1.Has pre m (m' ++ post) ∧ b2.Has (pre ++ m) m' post := by
  have hle := h.le
  rw [List.length_append] at hle
  refine ⟨{ b with stop := b.start + m.length }, { b with start := b.start + m.length }, ?_, ?_, ?_⟩
  · unfold splitAt
    rw [h.start, uadd_ok (by omega), ok_bind, h.stop, massert_ok (by simp), ok_bind]
  · exact ⟨by simpa using h.rep, h.start, by simp [h.start]⟩
  · exact ⟨by simpa using h.rep, by simp [h.start], by simp [h.stop, Nat.add_assoc]⟩

end BBuf

theorem CB.mutableView_ok {b : CB κ} {l : List κ} (h : b.Rep l) (hl : l ≠ []) :
    ∃ v, b.mutableView = .ok v ∧ v.Has [] l [] := by
  have : b.len ≠ 0 := by rw [h.len_eq]; simpa using hl
  refine ⟨_, by rw [mutableView, massert_ok (by simpa using this), ok_bind], ?_, rfl, ?_⟩
  · simpa using h
  · simp [h.len_eq]

namespace BInternal
open Node

/-- A view of an internal node of level `n+1` with the children `A ++ ks ++ B`, on `ks`. -/
structure Has (n : Nat) (b : BInternal κ) (A ks B : List (Node κ)) : Prop where
  sizes : b.sizes.Rep (n + 1) ((A ++ ks ++ B).map size)
  children : b.children.Has A ks B
  wf : ∀ k ∈ A ++ ks ++ B, Wf n k ∧ k.toList ≠ []
  lt : ((A ++ ks ++ B).flatMap Node.toList).length < USIZE_LIMIT

theorem Has.level {n : Nat} {b : BInternal κ} {A ks B} (h : Has n b A ks B) : b.level = n + 1 := h.sizes.1

theorem leftSize_ok {n : Nat} {b : BInternal κ} {A ks B} (h : Has n b A ks B) :
    b.leftSize = .ok (A.flatMap Node.toList).length := by
  unfold leftSize
  rw [h.children.start]
  by_cases hA : A = []
  · simp [hA]
  · have h0 : A.length ≠ 0 := by simpa using hA
    rw [if_neg (by simpa using hA), usub_ok (by omega), ok_bind,
      SizeTable.getCumulativeChildSize_ok h.sizes (by simp; omega), ok_bind, unwrap_some,
      show A.length - 1 + 1 = A.length by omega, flatMap_length, ← List.map_take, List.append_assoc,
      List.take_left]

theorem len_ok {n : Nat} {b : BInternal κ} {A ks B} (h : Has n b A ks B) :
    b.len = .ok (ks.flatMap Node.toList).length := by
  unfold len
  rw [h.children.start, h.children.stop, leftSize_ok h]
  by_cases hk : ks = []
  · simp [hk]
  · have h0 : ks.length ≠ 0 := by simpa using hk
    have e : (((A ++ ks ++ B).map size).take (A.length + ks.length)).sum =
        (A.flatMap Node.toList).length + (ks.flatMap Node.toList).length := by
      rw [← List.length_append, ← List.map_take, List.take_left, ← flatMap_length, List.flatMap_append,
        List.length_append]
    rw [if_neg (by simpa using hk), usub_ok (by omega), ok_bind,
      SizeTable.getCumulativeChildSize_ok h.sizes (by simp; omega), ok_bind, unwrap_some, ok_bind,
      ok_bind, show A.length + ks.length - 1 + 1 = A.length + ks.length by omega, e, usub_ok (by omega),
      Nat.add_sub_cancel_left]

theorem isEmpty_ok {n : Nat} {b : BInternal κ} {A ks B} (h : Has n b A ks B) :
    b.isEmpty = .ok (decide (ks = [])) := by
  rw [isEmpty, len_ok h, ok_bind]
  congr 1
  cases ks with
  | nil => simp
  | cons k ks =>
    have := (h.wf k (by simp)).2
    simp [this]

theorem positionInfoFor_ok {n : Nat} {b : BInternal κ} {A K1 k K2 B} (h : Has n b A (K1 ++ k :: K2) B) {pos : Nat}
    (h1 : (K1.flatMap Node.toList).length ≤ pos) (h2 : pos < (K1.flatMap Node.toList).length + k.toList.length) :
    b.positionInfoFor pos = .ok (some (K1.length, pos - (K1.flatMap Node.toList).length)) := by
  have hlt := h.lt
  simp only [List.flatMap_append, List.flatMap_cons, List.length_append] at hlt
  unfold positionInfoFor
  rw [leftSize_ok h, ok_bind, uadd_ok (by omega), ok_bind, SizeTable.positionInfoFor_ok h.sizes]
  have e : SizeTable.findPos ((A ++ (K1 ++ k :: K2) ++ B).map size) ((A.flatMap Node.toList).length + pos) =
      some ((A ++ K1).length, pos - (K1.flatMap Node.toList).length) := by
    have := findPos_mid ((A ++ K1).map size) (size k) ((K2 ++ B).map size)
      (j := pos - (K1.flatMap Node.toList).length) (by unfold size; omega)
    rw [← flatMap_length] at this
    rw [show (A.flatMap Node.toList).length + pos = ((A ++ K1).flatMap Node.toList).length +
      (pos - (K1.flatMap Node.toList).length) by rw [List.flatMap_append, List.length_append]; omega]
    simpa using this
  rw [e]
  simp only [ok_bind]
  rw [h.children.start, h.children.stop, if_neg (by simp), usub_ok (by simp)]
  simp

theorem childAtSlot_ok {n : Nat} {b : BInternal κ} {A K1 k K2 B} (h : Has n b A (K1 ++ k :: K2) B) :
    b.childAtSlot K1.length = .ok (some (k, (K1.flatMap Node.toList).length,
      (K1.flatMap Node.toList).length + k.toList.length)) := by
  have hle := h.children.le
  simp only [List.length_append, List.length_cons] at hle
  unfold childAtSlot
  have e1 : (((A ++ (K1 ++ k :: K2) ++ B).map size).take (K1.length + A.length)).sum =
      (A.flatMap Node.toList).length + (K1.flatMap Node.toList).length := by
    rw [show K1.length + A.length = (A ++ K1).length by simp; omega, ← List.map_take,
      show A ++ (K1 ++ k :: K2) ++ B = (A ++ K1) ++ (k :: K2 ++ B) by simp, List.take_left, ← flatMap_length]
    simp
  have e2 : (((A ++ (K1 ++ k :: K2) ++ B).map size).take (K1.length + A.length + 1)).sum =
      (A.flatMap Node.toList).length + (K1.flatMap Node.toList).length + k.toList.length := by
    rw [show K1.length + A.length + 1 = (A ++ K1 ++ [k]).length by simp; omega, ← List.map_take,
      show A ++ (K1 ++ k :: K2) ++ B = (A ++ K1 ++ [k]) ++ (K2 ++ B) by simp, List.take_left, ← flatMap_length]
    simp [Nat.add_assoc]
  rw [h.children.start, uadd_ok (by omega), ok_bind, SizeTable.getChildRange_ok h.sizes (by simp; omega), e1, e2,
    leftSize_ok h]
  simp only [ok_bind]
  rw [usub_ok (by omega), ok_bind, usub_ok (by omega), ok_bind, BBuf.get_ok h.children (i := K1.length) (by simp),
    ok_bind]
  simp [Nat.add_assoc]

theorem childForPosition_ok {n : Nat} {b : BInternal κ} {A ks B} (h : Has n b A ks B) {pos : Nat}
    (hp : pos < (ks.flatMap Node.toList).length) :
    ∃ k lo hi, b.childForPosition pos = .ok (some (k, lo, hi)) ∧ Wf n k ∧ k.toList ≠ [] ∧
      k.toList.length < USIZE_LIMIT ∧ Seg (ks.flatMap Node.toList) lo hi k.toList ∧ lo ≤ pos ∧ pos < hi := by
  obtain ⟨K1, k, K2, rfl, h1, h2⟩ := exists_kid ks hp
  have hlt := h.lt
  simp only [List.flatMap_append, List.flatMap_cons, List.length_append] at hlt
  refine ⟨k, (K1.flatMap Node.toList).length, (K1.flatMap Node.toList).length + k.toList.length, ?_,
    (h.wf k (by simp)).1, (h.wf k (by simp)).2, by omega,
    ⟨K1.flatMap Node.toList, K2.flatMap Node.toList, by simp, rfl, rfl⟩, h1, h2⟩
  unfold childForPosition
  rw [positionInfoFor_ok h h1 h2]
  simp only [ok_bind]
  exact childAtSlot_ok h

theorem splitAtPosition_ok {n : Nat} {b : BInternal κ} {A ks B} (h : Has n b A ks B) {pos : Nat}
    (hp : pos < (ks.flatMap Node.toList).length) :
    ∃ K1 k K2 b1 b2, ks = K1 ++ k :: K2 ∧
      b.splitAtPosition pos = .ok (pos - (K1.flatMap Node.toList).length, b1, b2) ∧
      (K1.flatMap Node.toList).length ≤ pos ∧ pos < (K1.flatMap Node.toList).length + k.toList.length ∧
      Has n b1 A K1 (k :: K2 ++ B) ∧ Has n b2 (A ++ K1) (k :: K2) B := by
  obtain ⟨K1, k, K2, rfl, h1, h2⟩ := exists_kid ks hp
  obtain ⟨c1, c2, e, hc1, hc2⟩ := BBuf.splitAt_ok h.children
  refine ⟨K1, k, K2, { b with children := c1 }, { b with children := c2 }, rfl, ?_, h1, h2, ?_, ?_⟩
  · unfold splitAtPosition
    rw [positionInfoFor_ok h h1 h2]
    simp only [ok_bind, unwrap_some, splitAtChild, e]
  · exact ⟨by simpa using h.sizes, hc1, by simpa using h.wf, by simpa using h.lt⟩
  · exact ⟨by simpa using h.sizes, hc2, by simpa using h.wf, by simpa using h.lt⟩

end BInternal

/-- A view of a node of level `n`, on the items `m`. -/
inductive BNode.Has : Nat → BNode κ → List κ → Prop
  | leaf {b : BBuf κ} {pre m post} : b.Has pre m post → BNode.Has 0 (.leaf b) m
  | internal {n} {b : BInternal κ} {A ks B} : b.Has n A ks B → BNode.Has (n + 1) (.internal b) (ks.flatMap Node.toList)

theorem BNode.Has.level {n : Nat} {b : BNode κ} {m} (h : BNode.Has n b m) : b.level = n := by
  cases h with
  | leaf h => rfl
  | internal h => exact h.level

theorem BNode.Has.len {n : Nat} {b : BNode κ} {m} (h : BNode.Has n b m) : b.len = .ok m.length := by
  cases h with
  | leaf h => simp [BNode.len, h.length]
  | internal h => exact BInternal.len_ok h

theorem Node.borrow_ok {n : Nat} {nd : Node κ} (h : nd.Wf n) (hne : nd.toList ≠ [])
    (hlt : nd.toList.length < USIZE_LIMIT) : ∃ b, nd.borrow = .ok b ∧ BNode.Has n b nd.toList := by
  cases n with
  | zero =>
    obtain ⟨l, b, rfl, hr⟩ := wf_zero.1 h
    have : (Node.leaf b).toList = l := Items.toList ⟨b, rfl, hr⟩
    rw [this] at hne ⊢
    obtain ⟨v, e, hv⟩ := CB.mutableView_ok hr hne
    exact ⟨.leaf v, by simp only [borrow, e, ok_bind], .leaf hv⟩
  | succ n =>
    obtain ⟨ks, hk⟩ := wf_succ.1 h
    have ht := hk.toList
    obtain ⟨s, c, rfl, h1, h2, h3⟩ := hk
    rw [ht] at hne hlt ⊢
    obtain ⟨v, e, hv⟩ := CB.mutableView_ok h2 (by rintro rfl; simp at hne)
    exact ⟨.internal ⟨s, v⟩, by simp only [borrow, e, ok_bind],
      .internal (A := []) (B := []) ⟨by simpa using h1, hv, by simpa using h3, by simpa using hlt⟩⟩

theorem BInternal.popFront_ok {n : Nat} {b : BInternal κ} {A k ks B} (h : BInternal.Has n b A (k :: ks) B) :
    ∃ c b', b.popChild .front = .ok (some (c, b')) ∧ BNode.Has n c k.toList ∧ BInternal.Has n b' (A ++ [k]) ks B := by
  have hlt := h.lt
  simp only [List.flatMap_append, List.flatMap_cons, List.length_append] at hlt
  obtain ⟨c, e, hc⟩ := Node.borrow_ok (h.wf k (by simp)).1 (h.wf k (by simp)).2 (by omega)
  have e1 := BInternal.childAtSlot_ok (K1 := []) (K2 := ks) h
  refine ⟨c, { b with children := { b.children with start := b.children.start + 1 } }, ?_, hc, ?_⟩
  · unfold BInternal.popChild BInternal.childAtSide
    simp only [List.length_nil] at e1
    simp only [e1, ok_bind, e]
  · refine ⟨by simpa using h.sizes, ⟨by simpa using h.children.rep, ?_, ?_⟩, by simpa using h.wf, by simpa using h.lt⟩
    · simp [h.children.start]
    · simp [h.children.stop]; omega

/-! ### The focus -/
namespace FMut

/-- A list of views together with the items of each. -/
def NodesOk (ps : List (BNode κ × List κ)) : Prop := ∀ p ∈ ps, p.2 ≠ [] ∧ ∃ n, BNode.Has n p.1 p.2

/-- The items of a list of views. -/
def flat (ps : List (BNode κ × List κ)) : List κ := ps.flatMap Prod.snd

@[simp] theorem flat_nil : flat ([] : List (BNode κ × List κ)) = [] := rfl
@[simp] theorem flat_cons (p : BNode κ × List κ) (ps) : flat (p :: ps) = p.2 ++ flat ps := rfl
@[simp] theorem flat_append (ps qs : List (BNode κ × List κ)) : flat (ps ++ qs) = flat ps ++ flat qs := by simp [flat]

theorem sumLens_ok {ps : List (BNode κ × List κ)} (h : NodesOk ps) (k : Nat)
    (hk : k + (flat ps).length < USIZE_LIMIT) : sumLens (ps.map Prod.fst) k = .ok (k + (flat ps).length) := by
  induction ps generalizing k with
  | nil => rfl
  | cons p ps ih =>
    obtain ⟨n, hn⟩ := (h p (by simp)).2
    simp only [flat_cons, List.length_append] at hk ⊢
    rw [List.map_cons, sumLens, hn.len, ok_bind, uadd_ok (by omega), ok_bind,
      ih (fun q hq => h q (by simp [hq])) _ (by omega), Nat.add_assoc]

/-- A piece of `l` that lies within the positions `R.1..R.2`. -/
def Sub (l : List κ) (R : Nat × Nat) (lo hi : Nat) (m : List κ) : Prop := Seg l lo hi m ∧ R.1 ≤ lo ∧ hi ≤ R.2

/-- The nodes of the path show pieces of `l`, all within `R.1..R.2`. -/
def PathIn (l : List κ) (R : Nat × Nat) (path : List (BInternal κ × Nat × Nat)) : Prop :=
  ∀ q ∈ path, ∃ n A ks B, BInternal.Has n q.1 A ks B ∧ Sub l R q.2.1 q.2.2 (ks.flatMap Node.toList)

/-- Where the focus is. In the first case it is nowhere; `llo..lhi` can then still be a range it was
at before. -/
def At (f : FMut κ) (l : List κ) : Prop :=
  (f.root = none ∧ f.path = [] ∧ f.leaf = none ∧ f.lhi ≤ l.length) ∨
  ∃ (ps : List (BNode κ × List κ)) (p : BNode κ × List κ) (qs : List (BNode κ × List κ)),
    f.root = some (ps.length, (flat ps).length, (flat ps).length + p.2.length) ∧
    f.nodes = (ps ++ p :: qs).map Prod.fst ∧ l = flat (ps ++ p :: qs) ∧ NodesOk (ps ++ p :: qs) ∧
    PathIn l ((flat ps).length, (flat ps).length + p.2.length) f.path ∧
    (match f.leaf with
    | some b => ∃ pre m post, b.Has pre m post ∧ Sub l ((flat ps).length, (flat ps).length + p.2.length) f.llo f.lhi m
    | none => BNode.Has 0 p.1 p.2 ∧ f.llo = (flat ps).length ∧ f.lhi = (flat ps).length + p.2.length) ∧
    (f.path ≠ [] ∨ f.leaf ≠ none → ∃ i, p.1 = .internal i)

/-- The focus is on the items `l`. -/
structure Ok (f : FMut κ) (l : List κ) : Prop where
  nodes : ∃ ps, f.nodes = ps.map Prod.fst ∧ l = flat ps ∧ NodesOk ps
  len : f.len = l.length
  lt : l.length < USIZE_LIMIT
  pos : At f l

theorem fromNodes_ok {ps : List (BNode κ × List κ)} (h : NodesOk ps) (hk : (flat ps).length < USIZE_LIMIT) :
    ∃ f, fromNodes (ps.map Prod.fst) = .ok f ∧ Ok f (flat ps) ∧ f.llo = 0 ∧ f.lhi = 0 := by
  refine ⟨⟨ps.map Prod.fst, (flat ps).length, none, [], none, 0, 0⟩, ?_, ⟨⟨ps, rfl, rfl, h⟩, rfl, hk, .inl ⟨rfl, rfl, rfl, Nat.zero_le _⟩⟩,
    rfl, rfl⟩
  rw [fromNodes, sumLens_ok h 0 (by omega), ok_bind, Nat.zero_add]

theorem exists_view {ps : List (BNode κ × List κ)} {idx : Nat} (h : idx < (flat ps).length) :
    ∃ P p Q, ps = P ++ p :: Q ∧ (flat P).length ≤ idx ∧ idx < (flat P).length + p.2.length := by
  induction ps generalizing idx with
  | nil => simp at h
  | cons p ps ih =>
    by_cases hp : idx < p.2.length
    · exact ⟨[], p, ps, rfl, by simp, by simpa using hp⟩
    · rw [flat_cons, List.length_append] at h
      obtain ⟨P, q, Q, rfl, h1, h2⟩ := ih (idx := idx - p.2.length) (by omega)
      exact ⟨p :: P, q, Q, rfl, by simp; omega, by simp; omega⟩

theorem findLoop_ok {idx : Nat} {p : BNode κ × List κ} {Q : List (BNode κ × List κ)} :
    ∀ (P : List (BNode κ × List κ)) (k e : Nat), NodesOk (P ++ p :: Q) →
      e + (flat (P ++ p :: Q)).length < USIZE_LIMIT →
      e + (flat P).length ≤ idx → idx < e + (flat P).length + p.2.length →
      findLoop idx ((P ++ p :: Q).map Prod.fst) k e = .ok (k + P.length, idx - (e + (flat P).length)) := by
  intro P
  induction P with
  | nil =>
    intro k e hN hlt h1 h2
    obtain ⟨n, hn⟩ := (hN p (by simp)).2
    simp only [flat_nil, List.length_nil, Nat.add_zero, List.nil_append, flat_cons, List.length_append] at *
    rw [List.map_cons, findLoop, hn.len, ok_bind, uadd_ok (by omega), ok_bind, if_pos h2, usub_ok h1, ok_bind]
  | cons q P ih =>
    intro k e hN hlt h1 h2
    obtain ⟨n, hn⟩ := (hN q (by simp)).2
    simp only [flat_cons, List.cons_append, List.length_append, List.map_cons, List.length_cons] at *
    rw [findLoop, hn.len, ok_bind, uadd_ok (by omega), ok_bind, if_neg (by omega),
      ih (k + 1) (e + q.2.length) (fun x hx => hN x (by simp [hx])) (by omega) (by omega) (by omega)]
    congr 2
    · omega
    · congr 1; omega

theorem findNode_ok {f : FMut κ} {l : List κ} (h : Ok f l) {idx : Nat} (hi : idx < l.length) :
    ∃ P p Q, f.nodes = (P ++ p :: Q).map Prod.fst ∧ l = flat (P ++ p :: Q) ∧ NodesOk (P ++ p :: Q) ∧
      (flat P).length ≤ idx ∧ idx < (flat P).length + p.2.length ∧
      f.findNodeInfoForIndex idx = .ok (some (P.length, idx - (flat P).length)) := by
  obtain ⟨ps, h1, rfl, h3⟩ := h.nodes
  obtain ⟨P, p, Q, rfl, h4, h5⟩ := exists_view hi
  refine ⟨P, p, Q, h1, rfl, h3, h4, h5, ?_⟩
  have hlt := h.lt
  rw [findNodeInfoForIndex, if_neg (by rw [h.len]; omega), h1,
    findLoop_ok P 0 0 h3 (by omega) (by omega) (by omega), ok_bind]
  simp

/-- What `descend`, `enter` and `moveFrom` leave alone, and where they arrive. -/
def Arrived (f f' : FMut κ) (l : List κ) (R : Nat × Nat) (idx : Nat) : Prop :=
  f'.nodes = f.nodes ∧ f'.len = f.len ∧ f'.root = f.root ∧ PathIn l R f'.path ∧
    ∃ b pre m post, f'.leaf = some b ∧ b.Has pre m post ∧ Sub l R f'.llo f'.lhi m ∧ f'.llo ≤ idx ∧ idx < f'.lhi

theorem descend_ok {l : List κ} (hl : l.length < USIZE_LIMIT) {R : Nat × Nat} {idx : Nat} : ∀ (n fuel : Nat) (f : FMut κ) (b : BInternal κ)
    (lo hi : Nat) (rest) (A ks B : List (Node κ)), n < fuel → f.path = (b, lo, hi) :: rest → BInternal.Has n b A ks B →
    PathIn l R f.path →
    Sub l R lo hi (ks.flatMap Node.toList) → lo ≤ idx → idx < hi →
    ∃ f', descend fuel f (idx - lo) = .ok f' ∧ Arrived f f' l R idx := by
  intro n
  induction n with
  | zero =>
    intro fuel f b lo hi rest A ks B hf hp hb hpath hs h1 h2
    obtain ⟨fuel, rfl⟩ : ∃ k, fuel = k + 1 := ⟨fuel - 1, by omega⟩
    obtain ⟨hs, hs3, hs4⟩ := hs
    have hsl := hs.length
    obtain ⟨k, clo, chi, e, hk, hne, hlt, hseg, h3, h4⟩ := BInternal.childForPosition_ok hb (pos := idx - lo) (by omega)
    obtain ⟨c, ec, hc⟩ := Node.borrow_ok hk hne hlt
    have hs2 := hs.trans hseg
    have hsl2 := hs2.length
    have hsl3 := hseg.length
    rw [descend, hp]
    simp only [e, ok_bind, unwrap_some]
    rw [usub_ok h3, ok_bind, uadd_ok (by omega), ok_bind, uadd_ok (by omega), ok_bind, ec, ok_bind]
    cases hc with
    | leaf hc =>
      exact ⟨_, rfl, rfl, rfl, rfl, by rw [hp] at hpath; exact hpath, _, _, _, _, rfl, hc, ⟨hs2, by simp only; omega, by simp only; omega⟩, by simp; omega, by simp; omega⟩
  | succ n ih =>
    intro fuel f b lo hi rest A ks B hf hp hb hpath hs h1 h2
    obtain ⟨fuel, rfl⟩ : ∃ k, fuel = k + 1 := ⟨fuel - 1, by omega⟩
    obtain ⟨hs, hs3, hs4⟩ := hs
    have hsl := hs.length
    obtain ⟨k, clo, chi, e, hk, hne, hlt, hseg, h3, h4⟩ := BInternal.childForPosition_ok hb (pos := idx - lo) (by omega)
    obtain ⟨c, ec, hc⟩ := Node.borrow_ok hk hne hlt
    have hs2 := hs.trans hseg
    have hsl2 := hs2.length
    have hsl3 := hseg.length
    rw [descend, hp]
    simp only [e, ok_bind, unwrap_some]
    rw [usub_ok h3, ok_bind, uadd_ok (by omega), ok_bind, uadd_ok (by omega), ok_bind, ec, ok_bind]
    generalize hm : k.toList = m at *
    cases hc with
    | internal hc =>
      rename_i c' A' ks' B'
      obtain ⟨f', e', h'⟩ := ih fuel { f with path := (c', lo + clo, lo + chi) :: (b, lo, hi) :: rest } c' (lo + clo) (lo + chi)
        _ A' ks' B' (by omega) rfl hc
        (by
          intro q hq
          rcases List.mem_cons.1 hq with rfl | hq
          · exact ⟨_, _, _, _, hc, hs2, by simp only; omega, by simp only; omega⟩
          · exact hpath q (by rw [hp]; exact hq))
        ⟨hs2, by omega, by omega⟩ (by omega) (by omega)
      refine ⟨f', ?_, h'⟩
      rw [show idx - (lo + clo) = idx - lo - clo by omega] at e'
      exact e'

theorem enter_ok {l : List κ} (hl : l.length < USIZE_LIMIT) {R : Nat × Nat} {idx rs : Nat} {f : FMut κ} {b : BInternal κ} {lo hi : Nat} {rest}
    (hp : f.path = (b, lo, hi) :: rest)
    (hpath : PathIn l R f.path)
    (h1 : lo ≤ idx) (h2 : idx < hi) : ∃ f', enter f idx rs = .ok f' ∧ Arrived f f' l R idx := by
  obtain ⟨n, A, ks, B, hb, hs⟩ := hpath (b, lo, hi) (by rw [hp]; simp)
  unfold enter
  rw [hp]
  simp only
  rw [usub_ok h1, ok_bind, hb.level]
  exact descend_ok hl n _ f b lo hi rest A ks B (by omega) hp hb hpath hs h1 h2

theorem moveFrom_ok {f : FMut κ} {l : List κ} (hl : l.length < USIZE_LIMIT) {ps qs : List (BNode κ × List κ)} {p : BNode κ × List κ}
    {idx : Nat} (hroot : f.root = some (ps.length, (flat ps).length, (flat ps).length + p.2.length))
    (hnodes : f.nodes = (ps ++ p :: qs).map Prod.fst) (hlist : l = flat (ps ++ p :: qs)) (hN : NodesOk (ps ++ p :: qs))
    (hpath : PathIn l ((flat ps).length, (flat ps).length + p.2.length) f.path) (hint : f.path ≠ [] → ∃ i, p.1 = .internal i)
    (hleaf : f.leaf = none) (h1 : (flat ps).length ≤ idx) (h2 : idx < (flat ps).length + p.2.length) :
    ∃ f', moveFrom f idx (ps.length, (flat ps).length, (flat ps).length + p.2.length) = .ok f' ∧
      f'.nodes = f.nodes ∧ f'.len = f.len ∧ At f' l ∧ f'.llo ≤ idx ∧ idx < f'.lhi ∧ f'.root ≠ none := by
  have arr : ∀ g f' : FMut κ, g.nodes = f.nodes → g.len = f.len → g.root = f.root → (∃ i, p.1 = .internal i) → Arrived g f' l ((flat ps).length, (flat ps).length + p.2.length) idx →
      f'.nodes = f.nodes ∧ f'.len = f.len ∧ At f' l ∧ f'.llo ≤ idx ∧ idx < f'.lhi ∧ f'.root ≠ none := by
    rintro g f' g1 g2 g3 hint ⟨a1, a2, a3, a4, b, pre, m, post, a5, a6, a7, a8, a9⟩
    refine ⟨a1.trans g1, a2.trans g2, .inr ⟨ps, p, qs, ?_, ?_, hlist, hN, a4, ?_, fun _ => hint⟩, a8, a9, ?_⟩
    · rw [a3, g3, hroot]
    · rw [a1, g1, hnodes]
    · rw [a5]; exact ⟨pre, m, post, a6, a7⟩
    · rw [a3, g3, hroot]; simp
  have hpath' : ∀ q ∈ f.path.dropWhile (fun p => !inRange p.2.1 p.2.2 idx),
      ∃ n A ks B, BInternal.Has n q.1 A ks B ∧ Sub l ((flat ps).length, (flat ps).length + p.2.length) q.2.1 q.2.2 (ks.flatMap Node.toList) :=
    fun q hq => hpath q ((List.dropWhile_sublist _).subset hq)
  unfold moveFrom
  simp only
  cases hd : f.path.dropWhile (fun p => !inRange p.2.1 p.2.2 idx) with
  | nil =>
    simp only [List.isEmpty_nil, if_true]
    have hg : f.nodes[ps.length]? = some p.1 := by rw [hnodes]; simp
    rw [hg, unwrap_some, ok_bind]
    obtain ⟨n, hn⟩ := (hN p (by simp)).2
    have hsegp : Seg l (flat ps).length ((flat ps).length + p.2.length) p.2 :=
      ⟨flat ps, flat qs, by rw [hlist]; simp, rfl, rfl⟩
    obtain ⟨pn, pl⟩ := p
    simp only at *
    cases hn with
    | leaf hb =>
      exact ⟨_, rfl, rfl, rfl, .inr ⟨ps, (_, pl), qs, hroot, hnodes, hlist, hN, by simp [PathIn],
        by simp only [hleaf, and_self, and_true]; exact .leaf hb, by simp [hleaf]⟩, h1, h2, by simp [hroot]⟩
    | internal hb =>
      rename_i n b A ks B
      simp only
      obtain ⟨k, clo, chi, e, hk, hne, hlt, hseg, h3, h4⟩ := BInternal.childForPosition_ok hb
        (pos := idx - (flat ps).length) (by omega)
      obtain ⟨c, ec, hc⟩ := Node.borrow_ok hk hne hlt
      have hs2 := hsegp.trans hseg
      have hsl2 := hs2.length
      have hsl3 := hseg.length
      rw [usub_ok h1, ok_bind, e, ok_bind, unwrap_some, ok_bind]
      simp only
      rw [uadd_ok (by omega), ok_bind, uadd_ok (by omega), ok_bind, ec, ok_bind]
      rw [Nat.add_comm clo, Nat.add_comm chi]
      generalize hm : k.toList = m at *
      cases hc with
      | leaf hc =>
        refine ⟨_, rfl, ?_⟩
        refine arr { f with path := [] } _ rfl rfl rfl ⟨_, rfl⟩ ⟨rfl, rfl, rfl, by simp [PathIn], _, _, _, _, rfl, hc, ⟨hs2, by simp only; omega, by simp only; omega⟩, ?_, ?_⟩
        · simp; omega
        · simp; omega
      | internal hc =>
        rename_i n' c' A' ks' B'
        simp only
        obtain ⟨f', e', h'⟩ := enter_ok (rs := (flat ps).length) hl (idx := idx)
          (R := ((flat ps).length, (flat ps).length + (ks.flatMap Node.toList).length)) (f := { f with path := [(c', (flat ps).length + clo, (flat ps).length + chi)] }) rfl
          (by
            intro q hq
            obtain rfl := List.mem_singleton.1 hq
            exact ⟨_, _, _, _, hc, hs2, by simp only; omega, by simp only; omega⟩) (by omega) (by omega)
        exact ⟨f', e', arr _ f' rfl rfl rfl ⟨_, rfl⟩ h'⟩
  | cons q rest =>
    simp only [List.isEmpty_cons, Bool.false_eq_true, if_false]
    have hq : inRange q.2.1 q.2.2 idx = true := by
      have := List.head_dropWhile_not (fun (p : BInternal κ × Nat × Nat) => !inRange p.2.1 p.2.2 idx) (l := f.path)
        (by rw [hd]; simp)
      simpa [hd] using this
    rw [inRange_iff] at hq
    obtain ⟨f', e', h'⟩ := enter_ok (rs := (flat ps).length) hl (idx := idx)
      (f := { f with path := q :: rest }) rfl (by rw [hd] at hpath'; exact hpath') hq.1 hq.2
    have hne : f.path ≠ [] := by rintro h; rw [h] at hd; cases hd
    exact ⟨f', e', arr _ f' rfl rfl rfl (hint hne) h'⟩

/-- The focus does not remember a range it has left. -/
def Fresh (f : FMut κ) : Prop := f.root ≠ none ∨ f.lhi ≤ f.llo

theorem At.range_le {f : FMut κ} {l : List κ} (h : At f l) : f.lhi ≤ l.length := by
  rcases h with ⟨-, -, -, h⟩ | ⟨ps, p, qs, -, -, rfl, -, -, h, -⟩
  · exact h
  · cases hf : f.leaf with
    | some b =>
      rw [hf] at h
      obtain ⟨pre, m, post, -, hs, -⟩ := h
      exact hs.length.2
    | none =>
      rw [hf] at h
      simp; omega

theorem moveFocus_ok {f : FMut κ} {l : List κ} (h : Ok f l) {idx : Nat} (hi : idx < l.length)
    (hst : f.root = none → inRange f.llo f.lhi idx = false) :
    ∃ f', moveFocus f idx = .ok f' ∧ Ok f' l ∧ f'.llo ≤ idx ∧ idx < f'.lhi ∧ f'.root ≠ none ∧ f'.nodes = f.nodes := by
  unfold moveFocus
  by_cases hin : inRange f.llo f.lhi idx = true
  · rw [if_pos hin]
    refine ⟨f, rfl, h, (inRange_iff.1 hin).1, (inRange_iff.1 hin).2, ?_, rfl⟩
    intro hr
    rw [hst hr] at hin
    cases hin
  · rw [if_neg hin]
    -- the root has to be looked for
    have none_case : ∀ g : FMut κ, g.nodes = f.nodes → g.len = f.len → g.path = [] → g.leaf = none →
        ∃ f', (do
          let p ← unwrap (← g.findNodeInfoForIndex idx)
          let start ← usub idx p.2
          let nd ← unwrap g.nodes[p.1]?
          let n ← nd.len
          let stop ← uadd start n
          { g with root := some (p.1, start, stop) }.moveFrom idx (p.1, start, stop)) = .ok f' ∧
          Ok f' l ∧ f'.llo ≤ idx ∧ idx < f'.lhi ∧ f'.root ≠ none ∧ f'.nodes = f.nodes := by
      intro g g1 g2 g3 g4
      obtain ⟨P, p, Q, e1, e2, e3, e4, e5, e6⟩ := findNode_ok h hi
      have e6' : g.findNodeInfoForIndex idx = .ok (some (P.length, idx - (flat P).length)) := by
        rw [← e6, findNodeInfoForIndex, findNodeInfoForIndex, g1, g2]
      obtain ⟨n, hn⟩ := (e3 p (by simp)).2
      have hlt := h.lt
      have hll : l.length = (flat P).length + p.2.length + (flat Q).length := by rw [e2]; simp [Nat.add_assoc]
      rw [e6', ok_bind, unwrap_some, ok_bind]
      simp only
      rw [usub_ok (by omega), ok_bind, show idx - (idx - (flat P).length) = (flat P).length by omega,
        show g.nodes[P.length]? = some p.1 by rw [g1, e1]; simp, unwrap_some, ok_bind, hn.len, ok_bind,
        uadd_ok (by omega), ok_bind]
      obtain ⟨f', e, a1, a2, a3, a4, a5, a6⟩ := moveFrom_ok (f := { g with root := some (P.length, (flat P).length, (flat P).length + p.2.length) })
        hlt rfl (g1.trans e1) e2 e3 (by simp [g3, PathIn]) (by simp [g3]) g4 e4 e5
      exact ⟨f', e, ⟨⟨_, by rw [a1]; exact g1.trans e1, e2, e3⟩, by rw [a2]; exact g2.trans h.len, hlt, a3⟩, a4, a5, a6, a1.trans g1⟩
    simp only
    rcases h.pos with ⟨r1, r2, r3, r4⟩ | ⟨ps, p, qs, r1, r2, r3, r4, r5, r6, r7⟩
    · rw [r3]
      simp only [Option.isSome_none, Bool.false_eq_true, if_false, r1]
      rw [if_pos (by rw [h.len]; exact hi)]
      exact none_case f rfl rfl r2 r3
    · by_cases hc : inRange (flat ps).length ((flat ps).length + p.2.length) idx = true
      · obtain ⟨c1, c2⟩ := inRange_iff.1 hc
        have key : ∀ g : FMut κ, g.nodes = f.nodes → g.len = f.len → g.root = f.root → g.path = f.path → g.leaf = none →
            ∃ f', g.moveFrom idx (ps.length, (flat ps).length, (flat ps).length + p.2.length) = .ok f' ∧
              Ok f' l ∧ f'.llo ≤ idx ∧ idx < f'.lhi ∧ f'.root ≠ none ∧ f'.nodes = f.nodes := by
          intro g g1 g2 g3 g4 g5
          obtain ⟨f', e, a1, a2, a3, a4, a5, a6⟩ := moveFrom_ok (f := g) h.lt (g3.trans r1) (g1.trans r2) r3 r4
            (by rw [g4]; exact r5) (fun hp => r7 (.inl (by rwa [g4] at hp))) g5 c1 c2
          exact ⟨f', e, ⟨⟨_, (a1.trans g1).trans r2, r3, r4⟩, (a2.trans g2).trans h.len, h.lt, a3⟩, a4, a5, a6, a1.trans g1⟩
        cases hf : f.leaf with
        | none =>
          simp only [Option.isSome_none, Bool.false_eq_true, if_false, r1, hc, Bool.not_true]
          exact key f rfl rfl rfl rfl hf
        | some b =>
          simp only [Option.isSome_some, if_true, r1, hc, Bool.not_true, Bool.false_eq_true, if_false]
          refine key _ rfl rfl ?_ rfl rfl
          rw [r1]
      · have hc' : inRange (flat ps).length ((flat ps).length + p.2.length) idx = false := by simpa using hc
        cases hf : f.leaf with
        | none =>
          simp only [Option.isSome_none, Bool.false_eq_true, if_false, r1, hc', Bool.not_false, if_true, dropPathNodes, hf]
          rw [if_pos (by rw [h.len]; exact hi)]
          exact none_case _ rfl rfl rfl rfl
        | some b =>
          simp only [Option.isSome_some, if_true, r1, hc', Bool.not_false, dropPathNodes]
          rw [if_pos (by rw [h.len]; exact hi)]
          exact none_case _ rfl rfl rfl rfl

theorem get_at {f : FMut κ} {l : List κ} (h : Ok f l) {idx : Nat} (hi : idx < l.length)
    (hst : f.root = none → inRange f.llo f.lhi idx = false) :
    ∃ f', f.get idx = .ok (some l[idx], f') ∧ Ok f' l ∧ f'.root ≠ none ∧ f'.llo ≤ idx ∧ idx < f'.lhi ∧
      f'.nodes = f.nodes := by
  obtain ⟨f', e, ho, h1, h2, h3, h4⟩ := moveFocus_ok h hi hst
  refine ⟨f', ?_, ho, h3, h1, h2, h4⟩
  unfold get
  rw [e, ok_bind, if_pos (inRange_iff.2 ⟨h1, h2⟩), usub_ok h1, ok_bind]
  rcases ho.pos with ⟨r1, -, -⟩ | ⟨ps, p, qs, r1, r2, r3, r4, r5, r6, r7⟩
  · exact absurd r1 h3
  · cases hf : f'.leaf with
    | some b =>
      rw [hf] at r6
      obtain ⟨pre, m, post, hb, hs, -⟩ := r6
      have hsl := hs.length
      have hg := hs.get h1 h2
      rw [List.getElem?_eq_getElem (by omega), List.getElem?_eq_getElem hi] at hg
      simp only
      rw [BBuf.get_ok hb (by omega), ok_bind, Option.some.inj hg]
    | none =>
      rw [hf] at r6
      obtain ⟨hb, e1, e2⟩ := r6
      have hs : Seg l (flat ps).length ((flat ps).length + p.2.length) p.2 :=
        ⟨flat ps, flat qs, by rw [r3]; simp, rfl, rfl⟩
      have hg := hs.get (i := idx) (by omega) (by omega)
      rw [List.getElem?_eq_getElem (by omega), List.getElem?_eq_getElem hi] at hg
      simp only
      rw [r1, unwrap_some, ok_bind, r2]
      simp only [List.map_append, List.map_cons]
      rw [List.getElem?_append_right (by simp)]
      simp only [List.length_map, Nat.sub_self, List.getElem?_cons_zero, unwrap_some, ok_bind]
      obtain ⟨pn, pl⟩ := p
      simp only at *
      cases hb with
      | leaf hb =>
        simp only [leafMut, ok_bind]
        have hlt : idx - f'.llo < pl.length := by rw [e1]; simp only at e2; omega
        rw [BBuf.get_ok hb hlt, ok_bind]
        simp only [e1]
        rw [Option.some.inj hg]

theorem get_ok {f : FMut κ} {l : List κ} (h : Ok f l) {idx : Nat} (hi : idx < l.length)
    (hst : f.root = none → inRange f.llo f.lhi idx = false) :
    ∃ f', f.get idx = .ok (some l[idx], f') ∧ Ok f' l ∧ f'.root ≠ none := by
  obtain ⟨f', e, ho, h1, -⟩ := get_at h hi hst
  exact ⟨f', e, ho, h1⟩

/-- Leaving the sequence: the range of the leaf is kept just when the leaf is a node of the focus. -/
theorem get_away {f : FMut κ} {l : List κ} (h : Ok f l) {idx : Nat} (hi : l.length ≤ idx) :
    ∃ f', f.get idx = .ok (none, f') ∧ Ok f' l ∧ f'.root = none ∧ f'.nodes = f.nodes ∧ f'.leaf = none ∧
      ∀ i, inRange f'.llo f'.lhi i = true ↔ f.leaf = none ∧ inRange f.llo f.lhi i = true := by
  have hr := h.pos.range_le
  have hin : inRange f.llo f.lhi idx = false := by rw [inRange_false]; omega
  have key : ∀ g : FMut κ, moveFocus f idx = .ok g → g.nodes = f.nodes → g.len = f.len → g.root = none → g.path = [] →
      g.leaf = none → g.lhi ≤ f.lhi →
      (∀ i, inRange g.llo g.lhi i = true ↔ f.leaf = none ∧ inRange f.llo f.lhi i = true) →
      ∃ f', f.get idx = .ok (none, f') ∧ Ok f' l ∧ f'.root = none ∧ f'.nodes = f.nodes ∧ f'.leaf = none ∧
        ∀ i, inRange f'.llo f'.lhi i = true ↔ f.leaf = none ∧ inRange f.llo f.lhi i = true := by
    intro g e g1 g2 g3 g4 g5 g6 g7
    refine ⟨g, ?_, ⟨by rw [g1]; exact h.nodes, g2.trans h.len, h.lt, .inl ⟨g3, g4, g5, by omega⟩⟩, g3, g1, g5, g7⟩
    unfold get
    rw [e, ok_bind, if_neg]
    rw [inRange_iff]
    omega
  rcases h.pos with ⟨r1, r2, r3, r4⟩ | ⟨ps, p, qs, r1, r2, r3, r4, r5, r6, r7⟩
  · refine key f ?_ rfl rfl r1 r2 r3 (Nat.le_refl _) (by simp [r3])
    unfold moveFocus
    simp only [hin, Bool.false_eq_true, if_false, r3, Option.isSome_none, r1]
    rw [if_neg (by rw [h.len]; omega)]
  · have hc' : inRange (flat ps).length ((flat ps).length + p.2.length) idx = false := by
      rw [inRange_false]
      have : l.length = (flat ps).length + p.2.length + (flat qs).length := by rw [r3]; simp [Nat.add_assoc]
      omega
    rcases (show f.leaf = none ∨ ∃ b, f.leaf = some b by cases f.leaf <;> simp) with hf | ⟨b, hf⟩
    · refine key { f with root := none, path := [] } ?_ rfl rfl rfl rfl hf (Nat.le_refl _) (by simp [hf])
      unfold moveFocus
      simp only [hin, Bool.false_eq_true, if_false, hf, Option.isSome_none, r1, hc', Bool.not_false, if_true, dropPathNodes]
      rw [if_neg (by rw [h.len]; omega)]
    · refine key { f with root := none, path := [], leaf := none, llo := 0, lhi := 0 } ?_ rfl rfl rfl rfl rfl (Nat.zero_le _) (by simp [inRange, hf])
      unfold moveFocus
      simp only [hin, Bool.false_eq_true, if_false, hf, Option.isSome_some, r1, hc', Bool.not_false, if_true, dropPathNodes]
      rw [if_neg (by rw [h.len]; omega)]

theorem get_out_left {f : FMut κ} {l : List κ} (h : Ok f l) {idx : Nat} (hi : l.length ≤ idx) :
    ∃ f', f.get idx = .ok (none, f') ∧ Ok f' l ∧ f'.root = none := by
  obtain ⟨f', e, ho, h1, -⟩ := get_away h hi
  exact ⟨f', e, ho, h1⟩

theorem get_out {f : FMut κ} {l : List κ} (h : Ok f l) {idx : Nat} (hi : l.length ≤ idx) :
    ∃ f', f.get idx = .ok (none, f') ∧ Ok f' l := by
  obtain ⟨f', e, ho, -⟩ := get_out_left h hi
  exact ⟨f', e, ho⟩

theorem get_stale {f : FMut κ} {l : List κ} (h : Ok f l) {idx : Nat} (hr : f.root = none)
    (hin : inRange f.llo f.lhi idx = true) : f.get idx = .error .panic := by
  rcases h.pos with ⟨r1, r2, r3, r4⟩ | ⟨ps, p, qs, r1, -⟩
  · unfold get moveFocus
    simp only [hin, if_true, ok_bind]
    rw [usub_ok (inRange_iff.1 hin).1, ok_bind, r3]
    simp only
    rw [hr]
    rfl
  · rw [r1] at hr; cases hr

/-! ### Splitting -/

theorem assertInvariants_ok {f : FMut κ} {l : List κ} (h : Ok f l) : f.assertInvariants = .ok () := by
  obtain ⟨ps, h1, rfl, h3⟩ := h.nodes
  have hlt := h.lt
  rw [assertInvariants, h1, sumLens_ok h3 0 (by omega), ok_bind, h.len]
  simp [massert]

theorem empty_ok : Ok (empty : FMut κ) [] :=
  ⟨⟨[], rfl, rfl, by simp [NodesOk]⟩, rfl, by simp, .inl ⟨rfl, rfl, rfl, Nat.zero_le _⟩⟩

theorem splitLoop_ok : ∀ (n fuel sub : Nat) (L : List (BNode κ × List κ)) (p : BNode κ × List κ) (R : List (BNode κ × List κ)),
    n + 1 < fuel → BNode.Has n p.1 p.2 → NodesOk L → NodesOk (p :: R) → sub < p.2.length →
    ∃ L' R', splitLoop fuel sub (L.map Prod.fst) ((p :: R).map Prod.fst) = .ok (L'.map Prod.fst, R'.map Prod.fst) ∧
      NodesOk L' ∧ NodesOk R' ∧ flat L'.reverse = flat L.reverse ++ p.2.take sub ∧ flat R' = p.2.drop sub ++ flat R := by
  intro n
  induction n with
  | zero =>
    intro fuel sub L p R hf hn hL hR hs
    obtain ⟨fuel, rfl⟩ : ∃ k, fuel = k + 1 := ⟨fuel - 1, by omega⟩
    by_cases h0 : sub = 0
    · subst h0
      exact ⟨L, p :: R, by simp [splitLoop], hL, hR, by simp, by simp⟩
    obtain ⟨pn, pl⟩ := p
    simp only at hn hs ⊢
    cases hn with
    | leaf hb =>
      rename_i b pre post
      have hb' := hb
      rw [← List.take_append_drop sub pl] at hb'
      obtain ⟨b1, b2, e, h1, h2⟩ := BBuf.splitAt_ok hb'
      rw [List.length_take, Nat.min_eq_left (by omega)] at e
      have l1 := h1.length
      have l2 := h2.length
      simp only [List.length_take, List.length_drop] at l1 l2
      refine ⟨(.leaf b1, pl.take sub) :: L, (.leaf b2, pl.drop sub) :: R, ?_, ?_, ?_, by simp, by simp⟩
      · rw [List.map_cons, splitLoop, if_neg (by simpa using h0)]
        rw [e, ok_bind, if_pos (by simp only [l1, bne_iff_ne, ne_eq]; omega), if_pos (by simp only [l2, bne_iff_ne, ne_eq]; omega)]
        simp
      · intro q hq
        rcases List.mem_cons.1 hq with rfl | hq
        · exact ⟨by simp; constructor; omega; rintro rfl; simp at hs, 0, .leaf h1⟩
        · exact hL q hq
      · intro q hq
        rcases List.mem_cons.1 hq with rfl | hq
        · exact ⟨by simp; omega, 0, .leaf h2⟩
        · exact hR q (by simp [hq])
  | succ n ih =>
    intro fuel sub L p R hf hn hL hR hs
    obtain ⟨fuel, rfl⟩ : ∃ k, fuel = k + 1 := ⟨fuel - 1, by omega⟩
    by_cases h0 : sub = 0
    · subst h0
      exact ⟨L, p :: R, by simp [splitLoop], hL, hR, by simp, by simp⟩
    obtain ⟨pn, pl⟩ := p
    simp only at hn hs ⊢
    cases hn with
    | internal hb =>
      rename_i b A ks B
      obtain ⟨K1, k, K2, b1, b2, rfl, e, c1, c2, hb1, hb2⟩ := BInternal.splitAtPosition_ok hb hs
      obtain ⟨c, b3, e2, hc, hb3⟩ := BInternal.popFront_ok hb2
      obtain ⟨q1, q2⟩ : (∀ q ∈ (K1 ++ k :: K2), Node.Wf n q ∧ q.toList ≠ []) ∧ True := ⟨fun q hq => hb.wf q (by
        rw [List.mem_append, List.mem_append]; exact .inl (.inr hq)), trivial⟩
      have ne : ∀ K : List (Node κ), K ≠ [] → (∀ q ∈ K, q ∈ K1 ++ k :: K2) → K.flatMap Node.toList ≠ [] := by
        intro K hK hsub
        cases K with
        | nil => exact absurd rfl hK
        | cons q K =>
          have := (q1 q (hsub q (by simp))).2
          simp [this]
      let L1 : List (BNode κ × List κ) := if K1 = [] then L else (.internal b1, K1.flatMap Node.toList) :: L
      let R1 : List (BNode κ × List κ) := if K2 = [] then R else (.internal b3, K2.flatMap Node.toList) :: R
      have hL1 : NodesOk L1 := by
        intro q hq
        simp only [L1] at hq
        split at hq
        · exact hL q hq
        · rename_i hne
          rcases List.mem_cons.1 hq with rfl | hq
          · exact ⟨ne K1 hne (by intro q hq; simp [hq]), _, .internal hb1⟩
          · exact hL q hq
      have hR1 : NodesOk R1 := by
        intro q hq
        simp only [R1] at hq
        split at hq
        · exact hR q (by simp [hq])
        · rename_i hne
          rcases List.mem_cons.1 hq with rfl | hq
          · exact ⟨ne K2 hne (by intro q hq; simp [hq]), _, .internal hb3⟩
          · exact hR q (by simp [hq])
      have fL1 : flat L1.reverse = flat L.reverse ++ K1.flatMap Node.toList := by
        simp only [L1]; split
        · rename_i h; simp [h]
        · simp
      have fR1 : flat R1 = K2.flatMap Node.toList ++ flat R := by
        simp only [R1]; split
        · rename_i h; simp [h]
        · simp
      obtain ⟨L', R', e3, hL', hR', e4, e5⟩ := ih fuel (sub - (K1.flatMap Node.toList).length) L1 (c, k.toList) R1
        (by omega) hc hL1
        (by
          intro q hq
          rcases List.mem_cons.1 hq with rfl | hq
          · exact ⟨(q1 k (by simp)).2, _, hc⟩
          · exact hR1 q hq)
        (by simp only; omega)
      refine ⟨L', R', ?_, hL', hR', ?_, ?_⟩
      · rw [List.map_cons, splitLoop, if_neg (by simpa using h0)]
        rw [e, ok_bind, e2, ok_bind, unwrap_some, ok_bind, BInternal.isEmpty_ok hb1, ok_bind, BInternal.isEmpty_ok hb3, ok_bind, ← e3]
        congr 1
        · simp only [L1]; split <;> simp_all
        · simp only [R1]; split <;> simp_all
      · rw [e4, fL1]
        simp only [List.flatMap_append, List.flatMap_cons, List.append_assoc]
        rw [List.take_append, List.take_of_length_le (l := K1.flatMap Node.toList) c1, List.take_append,
          show sub - (K1.flatMap Node.toList).length - k.toList.length = 0 by omega]
        simp
      · rw [e5, fR1]
        simp only [List.flatMap_append, List.flatMap_cons]
        rw [List.drop_append, List.drop_of_length_le (l := K1.flatMap Node.toList) c1, List.drop_append,
          show sub - (K1.flatMap Node.toList).length - k.toList.length = 0 by omega]
        simp

theorem splitAt_ok {f : FMut κ} {l : List κ} (h : Ok f l) {index : Nat} (hi : index ≤ l.length) :
    ∃ f1 f2, f.splitAt index = .ok (f1, f2) ∧ Ok f1 (l.take index) ∧ Ok f2 (l.drop index) ∧
      (Fresh f → Fresh f1 ∧ Fresh f2) := by
  have fe : Fresh (empty : FMut κ) := .inr (Nat.le_refl _)
  unfold splitAt
  by_cases h0 : index = 0
  · subst h0
    rw [if_pos (by simp), assertInvariants_ok empty_ok, ok_bind, assertInvariants_ok h, ok_bind]
    exact ⟨_, _, rfl, by simpa using empty_ok, by simpa using h, fun hf => ⟨fe, hf⟩⟩
  rw [if_neg (by simpa using h0)]
  by_cases h1 : index = f.len
  · rw [if_pos (by simpa using h1), assertInvariants_ok h, ok_bind, assertInvariants_ok empty_ok, ok_bind]
    rw [h1, h.len]
    exact ⟨_, _, rfl, by simpa using h, by simpa using empty_ok, fun hf => ⟨hf, fe⟩⟩
  rw [if_neg (by simpa using h1)]
  rw [h.len] at h1
  obtain ⟨P, p, Q, e1, rfl, e3, e4, e5, e6⟩ := findNode_ok h (idx := index) (by omega)
  obtain ⟨n, hn⟩ := (e3 p (by simp)).2
  have hlt := h.lt
  have e7 : f.nodes.drop P.length = (p :: Q).map Prod.fst := by
    rw [e1, List.map_append, List.drop_append_of_le_length (by simp)]; simp
  have e8 : (f.nodes.take P.length).reverse = P.reverse.map Prod.fst := by
    rw [e1, List.map_append, List.take_append_of_le_length (by simp), List.take_of_length_le (by simp)]; simp
  obtain ⟨L', R', e9, hL', hR', f1, f2⟩ := splitLoop_ok n (n + 2) (index - (flat P).length) P.reverse p Q (by omega) hn
    (fun q hq => e3 q (by rw [List.mem_reverse] at hq; simp [hq])) (fun q hq => e3 q (by
      rw [List.mem_append]; exact .inr hq)) (by omega)
  rw [List.reverse_reverse] at f1
  have f1' : flat L'.reverse = (flat (P ++ p :: Q)).take index := by
    rw [f1, flat_append, flat_cons, List.take_append, List.take_of_length_le (l := flat P) e4, List.take_append,
      show index - (flat P).length - p.2.length = 0 by omega]
    simp
  have f2' : flat R' = (flat (P ++ p :: Q)).drop index := by
    rw [f2, flat_append, flat_cons, List.drop_append, List.drop_of_length_le (l := flat P) e4, List.drop_append,
      show index - (flat P).length - p.2.length = 0 by omega]
    simp
  obtain ⟨g1, eg1, hg1, hg1', hg1''⟩ := fromNodes_ok (ps := L'.reverse)
    (fun q hq => hL' q (by rwa [List.mem_reverse] at hq)) (by rw [f1']; simp only [List.length_take]; omega)
  obtain ⟨g2, eg2, hg2, hg2', hg2''⟩ := fromNodes_ok hR' (by rw [f2']; simp only [List.length_drop]; omega)
  rw [f1'] at hg1
  rw [f2'] at hg2
  refine ⟨g1, g2, ?_, hg1, hg2, fun _ => ⟨.inr (by omega), .inr (by omega)⟩⟩
  rw [e6, ok_bind, unwrap_some, ok_bind]
  simp only
  rw [e7, e8, show splitFuel ((p :: Q).map Prod.fst) = n + 2 by simp [splitFuel, hn.level], e9, ok_bind]
  simp only
  rw [← List.map_reverse, eg1, ok_bind, eg2, ok_bind, hg1.len, hg2.len]
  have hsum : ((flat (P ++ p :: Q)).take index).length + ((flat (P ++ p :: Q)).drop index).length = (flat (P ++ p :: Q)).length := by
    rw [List.length_take, List.length_drop]; omega
  rw [uadd_ok (by omega), ok_bind, hsum, h.len, massert_ok (by simp), ok_bind, assertInvariants_ok hg1, ok_bind,
    assertInvariants_ok hg2, ok_bind]

theorem splitAt_panic {f : FMut κ} {l : List κ} (h : Ok f l) {index : Nat} (hi : l.length < index) :
    f.splitAt index = .error .panic := by
  unfold splitAt
  rw [if_neg (by simp; omega), if_neg (by simp [h.len]; omega), findNodeInfoForIndex, if_pos (by rw [h.len]; omega)]
  rfl

end FMut

namespace RVec

theorem borrowNodes_ok : ∀ (nds : List (Node κ)), (∀ nd ∈ nds, ∃ n, nd.Wf n) →
    (nds.flatMap Node.toList).length < USIZE_LIMIT →
    ∃ ps, borrowNodes nds = .ok (ps.map Prod.fst) ∧ FMut.NodesOk ps ∧ FMut.flat ps = nds.flatMap Node.toList := by
  intro nds
  induction nds with
  | nil => intro _ _; exact ⟨[], rfl, by simp [FMut.NodesOk], rfl⟩
  | cons nd nds ih =>
    intro hw hlt
    rw [List.flatMap_cons, List.length_append] at hlt
    obtain ⟨n, hn⟩ := hw nd (by simp)
    obtain ⟨ps, e, h1, h2⟩ := ih (fun q hq => hw q (by simp [hq])) (by omega)
    rw [borrowNodes, hn.isEmpty, ok_bind]
    by_cases hne : nd.toList = []
    · refine ⟨ps, ?_, h1, by simp [h2, hne]⟩
      simp [hne, e]
    · obtain ⟨b, eb, hb⟩ := Node.borrow_ok hn hne (by omega)
      refine ⟨(b, nd.toList) :: ps, ?_, ?_, by simp [h2]⟩
      · simp [hne, eb, e]
      · intro q hq
        rcases List.mem_cons.1 hq with rfl | hq
        · exact ⟨hne, n, hb⟩
        · exact h1 q hq

theorem focusMut_ok {v : RVec κ} {h : Nat} (i : InvH v h) :
    ∃ f, v.focusMut = .ok f ∧ FMut.Ok f v.toList ∧ FMut.Fresh f := by
  have hlt := i.lt
  rw [i.len] at hlt
  have ht : (v.left ++ [v.root] ++ v.right.reverse).flatMap Node.toList = v.toList := by simp [toList]
  obtain ⟨ps, e, h1, h2⟩ := borrowNodes_ok (v.left ++ [v.root] ++ v.right.reverse)
    (by
      intro nd hnd
      simp only [List.mem_append, List.mem_singleton, List.mem_reverse] at hnd
      rcases hnd with (hnd | rfl) | hnd
      · obtain ⟨k, hk, rfl⟩ := List.getElem_of_mem hnd
        exact ⟨_, ((i.spine .front).getElem hk).1⟩
      · exact ⟨h, i.root⟩
      · obtain ⟨k, hk, rfl⟩ := List.getElem_of_mem hnd
        exact ⟨_, ((i.spine .back).getElem hk).1⟩)
    (by rw [ht]; exact hlt)
  rw [ht] at h2
  obtain ⟨f, e', ho, h3, h4⟩ := FMut.fromNodes_ok h1 (by rw [h2]; exact hlt)
  rw [h2] at ho
  exact ⟨f, by rw [focusMut, e, ok_bind, e'], ho, .inr (by omega)⟩

end RVec
end Librrb
