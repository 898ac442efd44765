import Verif.Proof.Dense

/-! # Splitting keeps the nodes full -/
namespace Librrb

namespace Node

theorem flatMap_le {B : Nat} : ∀ (ks : List (Node α)), (∀ k ∈ ks, k.toList.length ≤ B) →
    (ks.flatMap Node.toList).length ≤ ks.length * B := by
  intro ks
  induction ks with
  | nil => intro _; simp
  | cons k ks ih =>
    intro h
    have h1 := h k (by simp)
    have h2 := ih (fun x hx => h x (by simp [hx]))
    simp only [List.flatMap_cons, List.length_append, List.length_cons, Nat.add_mul, Nat.one_mul]
    omega

theorem Wf.cap : ∀ {n : Nat} {nd : Node α}, Wf n nd → nd.toList.length ≤ nd.slots * 64 ^ n := by
  intro n
  induction n with
  | zero =>
    intro nd h
    obtain ⟨l, h⟩ := wf_zero.1 h
    rw [h.toList, h.slots]; simp
  | succ n ih =>
    intro nd h
    obtain ⟨ks, h⟩ := wf_succ.1 h
    rw [h.toList, h.slots]
    apply flatMap_le
    intro k hk
    have h1 := (h.child hk).1
    have h2 := ih h1
    have h3 : k.slots * 64 ^ n ≤ 64 * 64 ^ n := Nat.mul_le_mul_right _ h1.slots_le
    rw [Nat.pow_succ]
    omega

theorem Wf.cap' {n : Nat} {nd : Node α} (h : Wf n nd) : nd.toList.length ≤ 64 ^ (n + 1) := by
  have h1 := h.cap
  have h3 : nd.slots * 64 ^ n ≤ 64 * 64 ^ n := Nat.mul_le_mul_right _ h.slots_le
  rw [Nat.pow_succ]
  omega

/-- Every child of the node holds all it could. -/
def Dense (n : Nat) (nd : Node α) : Prop := nd.slots * 64 ^ n ≤ nd.toList.length

theorem dense_iff {n : Nat} {nd : Node α} {ks} (h : Kids n nd ks) :
    Dense (n + 1) nd ↔ ∀ k ∈ ks, 64 ^ (n + 1) ≤ k.toList.length := by
  unfold Dense
  rw [h.toList, h.slots]
  have hc : ∀ k ∈ ks, k.toList.length ≤ 64 ^ (n + 1) := fun k hk => (h.child hk).1.cap'
  clear h
  induction ks with
  | nil => simp
  | cons k ks ih =>
    have h1 := hc k (by simp)
    have hc' : ∀ x ∈ ks, x.toList.length ≤ 64 ^ (n + 1) := fun x hx => hc x (by simp [hx])
    have h2 := flatMap_le ks hc'
    have ih := ih hc'
    simp only [List.flatMap_cons, List.length_append, List.length_cons, Nat.add_mul, Nat.one_mul,
      List.mem_cons, forall_eq_or_imp]
    constructor
    · intro h
      exact ⟨by omega, ih.1 (by omega)⟩
    · rintro ⟨h3, h4⟩
      have := ih.2 h4
      omega

/-- The same, but the children along the edge of the given side need not be full. -/
def EdgeDense (s : Side) : Nat → Node α → Prop
  | 0, _ => True
  | n + 1, nd => nd.slots = 0 ∨ ∃ c ks, Kids n nd (s.cons c ks) ∧ (∀ k ∈ ks, 64 ^ (n + 1) ≤ k.toList.length) ∧
      EdgeDense s n c

theorem full_dense {n : Nat} {nd : Node α} (h : Wf n nd) (hf : 64 ^ (n + 1) ≤ nd.toList.length) :
    Dense n nd := by
  unfold Dense
  have h3 : nd.slots * 64 ^ n ≤ 64 * 64 ^ n := Nat.mul_le_mul_right _ h.slots_le
  rw [Nat.pow_succ] at hf
  omega

theorem Dense.edge (s : Side) : ∀ {n : Nat} {nd : Node α}, Wf n nd → Dense n nd → EdgeDense s n nd := by
  intro n
  induction n with
  | zero => intro nd _ _; trivial
  | succ n ih =>
    intro nd h hd
    obtain ⟨ks, h⟩ := wf_succ.1 h
    have hk := (dense_iff h).1 hd
    by_cases h0 : ks = []
    · left; rw [h.slots, h0]; rfl
    · obtain ⟨c, ks, rfl⟩ := s.exists_cons (l := ks) h0
      have hc := h.child (k := c) (by cases s <;> simp [Side.cons])
      exact .inr ⟨c, ks, h, fun k hk' => hk k (by cases s <;> simp [Side.cons, hk']),
        ih hc.1 (full_dense hc.1 (hk c (by cases s <;> simp [Side.cons])))⟩

/-- Cutting a node whose children are full leaves partial nodes only along the cut. -/
theorem splitAtPositionAux_edge : ∀ (n fuel : Nat) {nd a b : Node α}, n < fuel → Wf n nd → Dense n nd → ∀ pos,
    pos < nd.toList.length → splitAtPositionAux fuel nd pos = .ok (a, b) →
    EdgeDense .back n a ∧ EdgeDense .front n b := by
  intro n
  induction n with
  | zero => intro fuel nd a b _ _ _ pos _ _; exact ⟨trivial, trivial⟩
  | succ n ih =>
    intro fuel nd fa fb hf h hd pos hpos e
    obtain ⟨fuel, rfl⟩ : ∃ k, fuel = k + 1 := ⟨fuel - 1, by omega⟩
    obtain ⟨ks, hk⟩ := wf_succ.1 h
    have htl := hk.toList
    have hle := hk.le
    have hfull := (dense_iff hk).1 hd
    cases hp : SizeTable.findPos (ks.map size) pos with
    | none =>
      rw [SizeTable.findPos_none, ← flatMap_length, ← htl] at hp; omega
    | some p =>
      obtain ⟨i, j⟩ := p
      obtain ⟨A, k, B, rfl, rfl, rfl, hj⟩ := findPos_kids hp
      obtain ⟨a, b, e1, r1, r2⟩ := hk.split (i := A.length) (by simp)
      simp only [List.take_left', List.drop_left'] at r1 r2
      obtain ⟨b1, e2, r3⟩ := Kids.pop (sd := .front) (c := k) (ks := B) r2
      have hkc := hk.child (k := k) (by simp)
      have fA : ∀ x ∈ A, 64 ^ (n + 1) ≤ x.toList.length := fun x hx => hfull x (by simp [hx])
      have fB : ∀ x ∈ B, 64 ^ (n + 1) ≤ x.toList.length := fun x hx => hfull x (by simp [hx])
      have fk := hfull k (by simp)
      simp at hle
      have hlen := h.len
      obtain ⟨s, c, rfl, g1, g2, g3⟩ := hk
      unfold splitAtPositionAux at e
      rw [hlen] at e
      simp only [ok_bind] at e
      rw [massert_ok (by simp only [decide_eq_true_eq]; omega), SizeTable.positionInfoFor_ok g1, hp] at e
      simp only [ok_bind, unwrap_some, e1, e2, hkc.1.len] at e
      obtain ⟨fin, ef, e⟩ := RVec.bind_ok e
      obtain ⟨_, _, e⟩ := RVec.bind_ok e
      obtain ⟨_, _, e⟩ := RVec.bind_ok e
      obtain ⟨_, _, e⟩ := RVec.bind_ok e
      cases e
      by_cases hj0 : j = 0
      · subst hj0
        obtain ⟨b2, e3, r4⟩ := r3.push .front hkc.1 hkc.2 (by omega)
        simp [e3] at ef
        obtain ⟨rfl, rfl⟩ := ef
        refine ⟨Dense.edge _ r1.wf ((dense_iff r1).2 fA), Dense.edge _ r4.wf ((dense_iff r4).2 ?_)⟩
        intro x hx
        simp [Side.cons] at hx
        rcases hx with rfl | hx
        · exact fk
        · exact fB x hx
      · obtain ⟨sa, sb, e3, w1, w2, t1, t2, _, _⟩ := splitAtPositionAux_ok n fuel (by omega) hkc.1 j hj
        obtain ⟨i1, i2⟩ := ih fuel (by omega) hkc.1 (full_dense hkc.1 fk) j hj e3
        have n1 : sa.toList ≠ [] := by
          rw [t1]; intro e
          have := congrArg List.length e
          rw [List.length_take, List.length_nil] at this; omega
        have n2 : sb.toList ≠ [] := by
          rw [t2]; intro e
          have := congrArg List.length e
          rw [List.length_drop, List.length_nil] at this; omega
        obtain ⟨a2, e4, r4⟩ := r1.push .back w1 n1 (by omega)
        obtain ⟨b2, e5, r5⟩ := r3.push .front w2 n2 (by omega)
        rw [if_neg (by simpa using hj0), if_neg (by simp; omega)] at ef
        simp [e3, e4, e5] at ef
        obtain ⟨rfl, rfl⟩ := ef
        exact ⟨.inr ⟨sa, A, r4, fA, i1⟩, .inr ⟨sb, B, r5, fB, i2⟩⟩

theorem splitAtPosition_edge {n : Nat} {nd a b : Node α} (h : Wf n nd) (hd : Dense n nd) {pos : Nat}
    (hp : pos < nd.toList.length) (e : nd.splitAtPosition pos = .ok (a, b)) :
    EdgeDense .back n a ∧ EdgeDense .front n b :=
  splitAtPositionAux_edge n _ (by rw [h.level]; omega) h hd pos hp e

end Node

open Node

/-- Every child of the nodes of a spine holds all it could. -/
def SDense : Nat → List (Node α) → Prop
  | _, [] => True
  | n, x :: xs => Dense n x ∧ SDense (n + 1) xs

theorem sdense_append {n : Nat} {xs ys : List (Node α)} :
    SDense n (xs ++ ys) ↔ SDense n xs ∧ SDense (n + xs.length) ys := by
  induction xs generalizing n with
  | nil => simp [SDense]
  | cons x xs ih =>
    simp only [List.cons_append, SDense, ih, List.length_cons]
    rw [show n + 1 + xs.length = n + (xs.length + 1) by omega]
    tauto

theorem SDense.cap (s : Side) {n : Nat} {sp : List (Node α)} (h : SDense n sp) :
    spineCap n sp ≤ (spineList s sp).length := by
  induction sp generalizing n with
  | nil => simp [spineCap]
  | cons x xs ih =>
    have h1 := ih h.2
    have h2 := h.1
    unfold Dense at h2
    simp only [spineCap, spineList_cons, Side.length_add]
    omega

theorem Spine.cap_ge (s : Side) {n : Nat} {sp : List (Node α)} (h : Spine n sp) :
    (spineList s sp).length ≤ spineCap n sp := by
  induction sp generalizing n with
  | nil => simp [spineCap]
  | cons x xs ih =>
    have h1 := ih h.2.2
    have h2 := h.1.cap
    simp only [spineCap, spineList_cons, Side.length_add]
    omega

theorem sdense_of_cap (s : Side) {n : Nat} {sp : List (Node α)} (h : Spine n sp)
    (hc : spineCap n sp ≤ (spineList s sp).length) : SDense n sp := by
  induction sp generalizing n with
  | nil => trivial
  | cons x xs ih =>
    have h1 := h.1.cap
    have h2 := Spine.cap_ge s h.2.2
    simp only [spineCap, spineList_cons, Side.length_add] at hc
    exact ⟨by unfold Dense; omega, ih h.2.2 (by omega)⟩

namespace RVec

theorem dense_of_cap {v : RVec α} {h : Nat} (c : Core v h) (hc : v.cap ≤ v.toList.length) :
    (∀ s, SDense 0 (v.spine s)) ∧ Dense h v.root := by
  have h1 := Spine.cap_ge .front (c.spine .front)
  have h2 := Spine.cap_ge .back (c.spine .back)
  have h3 := c.root.cap
  rw [cap_eq .front c.length, toList_eq v .front] at hc
  simp only [Side.length_add, Side.negate] at hc
  refine ⟨?_, by unfold Dense; omega⟩
  rw [Side.forall .front]
  exact ⟨sdense_of_cap .front (c.spine _) (by omega), sdense_of_cap .back (c.spine _) (by simp only [Side.negate]; omega)⟩

theorem cap_of_dense {v : RVec α} {h : Nat} (hl : ∀ s, (v.spine s).length = h)
    (hs : ∀ s, SDense 0 (v.spine s)) (hr : Dense h v.root) : v.cap ≤ v.toList.length := by
  have h1 := (hs .front).cap .front
  have h2 := (hs .back).cap .back
  unfold Dense at hr
  rw [cap_eq .front hl, toList_eq v .front]
  simp only [Side.length_add, Side.negate]
  omega

/-- Refilling a spine from a node with a partial edge. -/
theorem fillLoop_spine_cap (s : Side) : ∀ (m : Nat) (p : Node α) (rest : List (Node α)) (root : Node α),
    p.Wf m → p.slots ≠ 0 → EdgeDense s m p →
    ∃ D p', fillLoop s (m + 1) (p :: rest) root = .ok (false, D ++ p' :: rest, root) ∧ D.length = m ∧
      SDense 0 D ∧ Dense m p' ∧ p.toList = s.add (spineList s D) p'.toList := by
  intro m
  induction m with
  | zero =>
    intro p rest root hp hne hd
    refine ⟨[], p, ?_, rfl, trivial, ?_, by simp⟩
    · obtain ⟨l, hI⟩ := Node.wf_zero.1 hp
      cases p with
      | leaf b =>
        simp only [Node.slots] at hne
        simp [fillLoop, hne]
      | internal a t c => exact absurd (Node.wf_zero.1 hp) (by rintro ⟨_, _, e, -⟩; cases e)
    · have := hp.slots_le_size
      unfold Dense
      simpa using this
  | succ m ih =>
    intro p rest root hp hne hd
    rcases hd with h0 | ⟨c, ks, hk, hf, he⟩
    · exact absurd h0 hne
    obtain ⟨p1, e1, hk1⟩ := hk.pop
    have hc := hk.child (k := c) (by cases s <;> simp [Side.cons])
    obtain ⟨D, c', e2, hD, hs, hd', ht⟩ := ih c (p1 :: rest) root hc.1
      (fun e => hc.2 (hc.1.slots_eq_zero.1 e)) he
    refine ⟨D ++ [c'], p1, ?_, by simp [hD], ?_, (dense_iff hk1).2 hf, ?_⟩
    · cases p with
      | leaf b => exact absurd hp.level (by simp [Node.level])
      | internal a t ch =>
        unfold fillLoop
        simp only [List.head?_cons, Option.getD_some, e1, ok_bind]
        rw [e2]
        simp
    · rw [sdense_append, Nat.zero_add, hD]
      exact ⟨hs, hd', trivial⟩
    · rw [hk.toList, spineList_append, Side.add_assoc]
      have h2 := hk1.toList
      cases s <;> simp [Side.cons, Side.add, h2, ht]

theorem fillLoop_root_cap (s : Side) (m : Nat) (root : Node α) (hp : root.Wf m) (hne : root.slots ≠ 0)
    (hd : EdgeDense s m root) :
    ∃ D root', fillLoop s (m + 1) [] root = .ok (false, D, root') ∧ D.length = m ∧ SDense 0 D ∧
      Dense m root' ∧ root.toList = s.add (spineList s D) root'.toList := by
  cases m with
  | zero =>
    refine ⟨[], root, ?_, rfl, trivial, ?_, by simp⟩
    · cases root with
      | leaf b =>
        simp only [Node.slots] at hne
        simp [fillLoop, hne]
      | internal a t c => exact absurd (Node.wf_zero.1 hp) (by rintro ⟨_, _, e, -⟩; cases e)
    · have := hp.slots_le_size
      unfold Dense
      simpa using this
  | succ m =>
    rcases hd with h0 | ⟨c, ks, hk, hf, he⟩
    · exact absurd h0 hne
    obtain ⟨p1, e1, hk1⟩ := hk.pop
    have hc := hk.child (k := c) (by cases s <;> simp [Side.cons])
    obtain ⟨D, c', e2, hD, hs, hd', ht⟩ := fillLoop_spine_cap s m c [] p1 hc.1
      (fun e => hc.2 (hc.1.slots_eq_zero.1 e)) he
    refine ⟨D ++ [c'], p1, ?_, by simp [hD], ?_, (dense_iff hk1).2 hf, ?_⟩
    · cases root with
      | leaf b => exact absurd hp.level (by simp [Node.level])
      | internal a t ch =>
        unfold fillLoop
        simp only [List.head?_nil, Option.getD_none, e1, ok_bind]
        rw [e2]
    · rw [sdense_append, Nat.zero_add, hD]
      exact ⟨hs, hd', trivial⟩
    · rw [hk.toList, spineList_append, Side.add_assoc]
      have h2 := hk1.toList
      cases s <;> simp [Side.cons, Side.add, h2, ht]

/-- Lowering the tree: what the new root and the spine are like. -/
theorem popTops_dense (s : Side) : ∀ (n : Nat) {v v' : RVec α} {r fuel : Nat},
    (v.spine s.negate).length = n → v.spine s = [] →
    Spine 0 (v.spine s.negate) → v.root.Wf r → (v.root.slots = 0 ∨ r = n) →
    SDense 0 (v.spine s.negate) → EdgeDense s r v.root → popTops fuel v = .ok v' → v.toList ≠ [] →
    ∃ h', v'.spine s = [] ∧ (v'.spine s.negate).length = h' ∧ SDense 0 (v'.spine s.negate) ∧
      v'.root.Wf h' ∧ v'.root.slots ≠ 0 ∧ EdgeDense s h' v'.root ∧ v'.toList = v.toList := by
  intro n
  induction n with
  | zero =>
    intro v v' r fuel hl hs hS hw hor hd he e hne
    have hop := List.eq_nil_of_length_eq_zero hl
    have ht : v.toList = v.root.toList := by rw [toList_eq v s, hs, hop]; simp
    have h0 : v.root.slots ≠ 0 := fun e => hne (by rw [ht, hw.slots_eq_zero.1 e])
    obtain rfl : r = 0 := by rcases hor with h | h; exact absurd h h0; exact h
    rw [popTops_done hw (.inl h0)] at e
    cases e
    exact ⟨0, hs, hl, hd, hw, h0, he, rfl⟩
  | succ n ih =>
    intro v v' r fuel hl hs hS hw hor hd he e hne
    by_cases h0 : v.root.slots = 0
    · rcases List.eq_nil_or_concat (v.spine s.negate) with e' | ⟨op, t, e'⟩
      · rw [e'] at hl; simp at hl
      rw [List.concat_eq_append] at e'
      rw [e'] at hl hS hd
      simp at hl
      rw [spine_append] at hS
      rw [sdense_append] at hd
      cases fuel with
      | zero =>
        exfalso
        unfold popTops at e
        obtain ⟨em, e1, e⟩ := bind_ok e
        rw [hw.isEmpty'] at e1
        cases e1
        have : (v.left.isEmpty || v.right.isEmpty) = true := by
          cases s
          · simp at hs; simp [hs]
          · simp at hs; simp [hs]
        simp only [h0, this, decide_true, Bool.and_self, if_true] at e
        cases e
      | succ fuel =>
        rw [popTops_step hw s hs h0 e'] at e
        have hsp1 : (({ v with root := t }).withSpine s.negate op).spine s = [] := by
          rw [withSpine_other', setRoot_spine, hs]
        have ht : (({ v with root := t }).withSpine s.negate op).toList = v.toList := by
          rw [toList_eq _ s, toList_eq v s, hsp1, hs, e', hw.slots_eq_zero.1 h0]
          simp [spineList_append, Side.negate_add]
        have hwt : t.Wf n := by simpa [hl] using hS.2.1
        have hdt : Dense n t := by simpa [hl] using hd.2.1
        obtain ⟨h', g1, g2, g3, g4, g5, g6, g7⟩ :=
          ih (v := ({ v with root := t }).withSpine s.negate op) (r := n) (fuel := fuel)
            (by simpa using hl) hsp1 (by simpa using hS.1) (by simpa using hwt) (.inr rfl)
            (by simpa using hd.1) (by simpa using Dense.edge s hwt hdt) e (by rw [ht]; exact hne)
        exact ⟨h', g1, g2, g3, g4, g5, g6, by rw [g7, ht]⟩
    · obtain rfl : r = n + 1 := by rcases hor with h | h; exact absurd h h0; exact h
      rw [popTops_done hw (.inl h0)] at e
      cases e
      exact ⟨n + 1, hs, hl, hd, hw, h0, he, rfl⟩

theorem dropEmpty_dense (s : Side) : ∀ (sp : List (Node α)) (j : Nat) {sp' : List (Node α)}, Spine j sp →
    (∀ x xs, sp = x :: xs → EdgeDense s j x ∧ SDense (j + 1) xs) → dropEmpty sp = .ok sp' →
    ∃ j', j' + sp'.length = j + sp.length ∧ Spine j' sp' ∧ HeadOk sp' ∧
      ∀ x xs, sp' = x :: xs → EdgeDense s j' x ∧ SDense (j' + 1) xs := by
  intro sp
  induction sp with
  | nil => intro j sp' h hd e; cases e; exact ⟨j, rfl, trivial, by simp, fun x xs h => by cases h⟩
  | cons x xs ih =>
    intro j sp' h hd e
    obtain ⟨d1, d2⟩ := hd x xs rfl
    by_cases h0 : x.slots = 0
    · simp [dropEmpty, h.1.isEmpty', h0] at e
      obtain ⟨j', q1, q2⟩ := ih (j + 1) h.2.2 (fun y ys hy => by
        subst hy
        exact ⟨Dense.edge s h.2.2.1 d2.1, d2.2⟩) e
      exact ⟨j', by simp; omega, q2⟩
    · simp [dropEmpty, h.1.isEmpty', h0] at e
      subst e
      exact ⟨j, rfl, h, by simpa using h0, fun y ys hy => by cases hy; exact ⟨d1, d2⟩⟩

/-- A cut part whose partial nodes lie along the cut becomes a vector of full nodes again. -/
theorem repair_cap (s : Side) {v v' : RVec α} {h r j : Nat} (hl : (v.spine s.negate).length = h)
    (hS : Spine 0 (v.spine s.negate)) (hj : Spine j (v.spine s)) (hw : v.root.Wf r)
    (hcase : (v.spine s = [] ∧ (v.root.slots = 0 ∨ r = h) ∧ EdgeDense s r v.root) ∨
      (v.spine s ≠ [] ∧ j + (v.spine s).length = h ∧ r = h ∧ Dense r v.root))
    (hne : v.toList ≠ []) (hd : SDense 0 (v.spine s.negate))
    (hds : ∀ x xs, v.spine s = x :: xs → EdgeDense s j x ∧ SDense (j + 1) xs)
    (e : v.repair s = .ok v') : v'.cap ≤ v.toList.length := by
  unfold repair at e
  obtain ⟨sp, e1, e⟩ := bind_ok e
  obtain ⟨j', l1, S1, H1, d1⟩ := dropEmpty_dense s _ j hj hds e1
  have ht1 : (v.withSpine s sp).toList = v.toList := by
    obtain ⟨sp2, _, e2, -, -, -, t1⟩ := dropEmpty_ok s (v.spine s) j hj
    rw [e2] at e1; cases e1
    rw [toList_eq _ s, toList_eq v s]; simp [t1]
  dsimp only at e
  obtain ⟨v1, e2, e⟩ := bind_ok e
  obtain ⟨q, e3, e⟩ := bind_ok e
  obtain ⟨v2, e4, e⟩ := bind_ok e
  by_cases hsp : sp = []
  · subst hsp
    have hed : EdgeDense s r v.root ∧ (v.root.slots = 0 ∨ r = h) := by
      rcases hcase with ⟨-, h1, h2⟩ | ⟨-, -, rfl, h2⟩
      · exact ⟨h2, h1⟩
      · exact ⟨Dense.edge s hw h2, .inr rfl⟩
    obtain ⟨h1, g2, g3, g4, g6, g7, g8, g9⟩ := popTops_dense s h (v := v.withSpine s []) (v' := v1)
      (by simpa using hl) (by simp) (by simpa using hS) (by simpa using hw) (by simpa using hed.2)
      (by simpa using hd) (by simpa using hed.1) e2 (by rw [ht1]; exact hne)
    obtain ⟨D, r', e5, lD, sD, dr, tr⟩ := fillLoop_root_cap s h1 v1.root g6 g7 g8
    unfold fillSpine at e3
    simp only [g2, List.head?_nil, Option.getD_none, g6.level, e5, ok_bind, Bool.false_and] at e3
    cases e3
    simp only [Bool.false_eq_true, if_false] at e4
    cases e4
    have hl2 : ∀ t, ((({ v1 with root := r' }).withSpine s D).spine t).length = h1 := by
      rw [Side.forall s]; simp [lD, g3]
    have hc := (fixup_cap e hl2).1
    have hc2 := cap_of_dense hl2 (by rw [Side.forall s]; simpa using ⟨sD, g4⟩) (by simpa using dr)
    have ht2 : (({ v1 with root := r' }).withSpine s D).toList = v.toList := by
      rw [← ht1, ← g9, toList_eq _ s, toList_eq v1 s, g2, tr]
      simp [Side.add_assoc]
    rw [ht2] at hc2
    omega
  · rcases hcase with ⟨hnil, -⟩ | ⟨-, hj2, rfl, hdr⟩
    · rw [hnil] at e1
      simp [dropEmpty] at e1
      exact absurd e1 hsp
    obtain ⟨p, rest, rfl⟩ := List.exists_cons_of_ne_nil hsp
    obtain ⟨dp, drest⟩ := d1 p rest rfl
    have hop : v.spine s.negate ≠ [] := by
      intro e
      rw [e] at hl; simp at hl l1; omega
    rw [popTops_done (by simpa using hw) (.inr (by
      cases s
      · simpa [withSpine] using hop
      · simpa [withSpine] using hop))] at e2
    cases e2
    have hp0 : p.slots ≠ 0 := by simpa using H1
    obtain ⟨D, p', e5, lD, sD, dp', tp⟩ := fillLoop_spine_cap s j' p rest v.root S1.1 hp0 dp
    unfold fillSpine at e3
    simp only [withSpine_same, List.head?_cons, Option.getD_some, S1.1.level, withSpine_root, e5,
      ok_bind, Bool.false_and] at e3
    cases e3
    simp only [Bool.false_eq_true, if_false] at e4
    cases e4
    have heq : ({ v.withSpine s (p :: rest) with root := v.root } : RVec α) = v.withSpine s (p :: rest) := by
      cases s <;> rfl
    rw [heq] at e
    have hl2 : ∀ t, (((v.withSpine s (p :: rest)).withSpine s (D ++ p' :: rest)).spine t).length = r := by
      rw [Side.forall s]
      simp only [withSpine_same, withSpine_other, List.length_append, List.length_cons, lD]
      exact ⟨by simp at l1; omega, hl⟩
    have hc := (fixup_cap e hl2).1
    have hc2 := cap_of_dense hl2 (by
      rw [Side.forall s]
      simp only [withSpine_same, withSpine_other, sdense_append, lD, Nat.zero_add]
      exact ⟨⟨sD, dp', drest⟩, hd⟩) (by simpa using hdr)
    have ht2 : ((v.withSpine s (p :: rest)).withSpine s (D ++ p' :: rest)).toList = v.toList := by
      rw [← ht1, toList_eq _ s, toList_eq (v.withSpine s (p :: rest)) s]
      simp [Side.add_assoc, spineList_append, tp]
    rw [ht2] at hc2
    omega

/-- The second part of a cut in the right spine: its last node becomes the root at once. -/
theorem repair_lift {A : List (Node α)} {b : Node α} {k n : Nat} (hb : b.Wf k) (h0 : b.slots ≠ 0) :
    ({ left := [], right := A ++ [b], root := Node.emptyLeaf, len := n } : RVec α).repair .front =
    ({ left := [], right := A, root := b, len := n } : RVec α).repair .front := by
  unfold repair
  simp only [spine_front, dropEmpty, ok_bind]
  rw [popTops_done (v := ({ left := [], right := A, root := b, len := n } : RVec α).withSpine .front [])
    (by simpa using hb) (.inl (by simpa using h0))]
  rw [popTops_step (v := ({ left := [], right := A ++ [b], root := Node.emptyLeaf, len := n } : RVec α).withSpine .front [])
    (by simpa using emptyLeaf_wf) .front (by rfl) (by rfl) (op := A) (t := b) (by rfl)]
  rw [popTops_done (by simpa using hb) (.inl (by simpa using h0))]
  rfl

theorem cut_cap {v : RVec α} {h : Nat} (i : InvH v h) (hcap : v.cap ≤ v.toList.length) {k sub : Nat} {pos}
    (f : Found v k pos sub) (h0 : k ≠ 0) {a b a' b' : RVec α} (e1 : v.cut pos sub k = .ok (a, b))
    (e2 : a.repair .back = .ok a') (e3 : b.repair .front = .ok b') :
    a'.cap ≤ (v.toList.take k).length ∧ b'.cap ≤ (v.toList.drop k).length := by
  obtain ⟨hds, hdr⟩ := dense_of_cap i.toCore hcap
  have hsl := i.spine .front
  have hsr := i.spine .back
  have hll := i.length .front
  have hlr := i.length .back
  have hdl := hds .front
  have hdR := hds .back
  have hT : v.toList = spineList .front v.left ++ v.root.toList ++ spineList .back v.right := by
    rw [toList_eq v .front]; simp [Side.add]
  simp only [spine_front, spine_back] at hsl hsr hll hlr hdl hdR
  suffices H : ∃ pre, v.toList = pre ++ b.toList ∧ pre.length = k ∧ a.toList = pre ∧
      b.toList ≠ [] ∧ (a.toList ≠ [] → a'.cap ≤ a.toList.length) ∧ (b.toList ≠ [] → b'.cap ≤ b.toList.length) by
    obtain ⟨pre, g1, g2, g3, g4, g5, g6⟩ := H
    have g7 := g5 (by rw [g3]; intro e; rw [e] at g2; exact h0 g2.symm)
    have g8 := g6 g4
    have t1 : v.toList.take k = pre := by rw [g1, ← g2]; simp
    have t2 : v.toList.drop k = b.toList := by rw [g1, ← g2]; simp
    rw [t1, t2, ← g3]
    exact ⟨g7, g8⟩
  unfold cut at e1
  obtain ⟨rest, -, e1⟩ := bind_ok e1
  cases f with
  | front A B nd _ e hi hs =>
    rw [e] at hsl hll hdl
    rw [spine_append] at hsl
    rw [sdense_append] at hdl
    simp only [Nat.zero_add, spine_cons, SDense] at hsl hdl
    obtain ⟨na, nb, q1, wa, wb, ta, tb, sa, sb⟩ := Node.splitAtPosition_ok hsl.2.1 hs
    obtain ⟨d1, d2⟩ := Node.splitAtPosition_edge hsl.2.1 hdl.2.1 hs q1
    have hbne : nb.toList ≠ [] := by
      rw [tb]; intro e; have := congrArg List.length e; simp at this; omega
    have hab : nd.toList = na.toList ++ nb.toList := by rw [ta, tb]; simp
    simp [e, q1] at e1
    obtain ⟨rfl, rfl⟩ := e1
    refine ⟨spineList .front A ++ na.toList, ?_, ?_, ?_, ?_, fun hne => ?_, fun hne => ?_⟩
    · rw [hT, e, toList_eq _ .front]
      simp [Side.add, spineList_append, hab]
    · simp [ta]; omega
    · rw [toList_eq _ .front]; simp [Side.add]
    · rw [toList_eq _ .front]; simp [Side.add, hbne]
    · exact repair_cap .back (j := 0) (h := A.length) (r := A.length) rfl hsl.1 trivial wa
        (.inl ⟨rfl, .inr rfl, d1⟩) hne hdl.1 (fun x xs h => by cases h) e2
    · exact repair_cap .front (j := A.length) (h := h) (r := h) hlr hsr
        ⟨wb, fun h0 => by have := hsl.2.2.1 h0; omega, hsl.2.2.2⟩ i.root
        (.inr ⟨by simp, by simp at hll ⊢; omega, rfl, hdr⟩) hne hdR
        (fun x xs h => by cases h; exact ⟨d2, hdl.2.2⟩) e3
  | root _ hi hs =>
    obtain ⟨na, nb, q1, wa, wb, ta, tb, sa, sb⟩ := Node.splitAtPosition_ok i.root hs
    obtain ⟨d1, d2⟩ := Node.splitAtPosition_edge i.root hdr hs q1
    have hbne : nb.toList ≠ [] := by
      rw [tb]; intro e; have := congrArg List.length e; simp at this; omega
    have hab : v.root.toList = na.toList ++ nb.toList := by rw [ta, tb]; simp
    simp [q1] at e1
    obtain ⟨rfl, rfl⟩ := e1
    refine ⟨spineList .front v.left ++ na.toList, ?_, ?_, ?_, ?_, fun hne => ?_, fun hne => ?_⟩
    · rw [hT, toList_eq _ .front]
      simp [Side.add, hab]
    · simp [ta]; omega
    · rw [toList_eq _ .front]; simp [Side.add]
    · rw [toList_eq _ .front]; simp [Side.add, hbne]
    · exact repair_cap .back (j := 0) (h := h) (r := h) hll hsl trivial wa
        (.inl ⟨rfl, .inr rfl, d1⟩) hne hdl (fun x xs h => by cases h) e2
    · exact repair_cap .front (j := 0) (h := h) (r := h) hlr hsr trivial wb
        (.inl ⟨rfl, .inr rfl, d2⟩) hne hdR (fun x xs h => by cases h) e3
  | back A B nd _ e hi hs =>
    rw [e] at hsr hlr hdR
    rw [spine_append] at hsr
    rw [sdense_append] at hdR
    simp only [Nat.zero_add, spine_cons, SDense] at hsr hdR
    obtain ⟨na, nb, q1, wa, wb, ta, tb, sa, sb⟩ := Node.splitAtPosition_ok hsr.2.1 hs
    obtain ⟨d1, d2⟩ := Node.splitAtPosition_edge hsr.2.1 hdR.2.1 hs q1
    have hbne : nb.toList ≠ [] := by
      rw [tb]; intro e; have := congrArg List.length e; simp at this; omega
    have hab : nd.toList = na.toList ++ nb.toList := by rw [ta, tb]; simp
    simp [e, q1] at e1
    obtain ⟨rfl, rfl⟩ := e1
    have hb0 : nb.slots ≠ 0 := fun e => hbne (wb.slots_eq_zero.1 e)
    rw [repair_lift wb hb0] at e3
    have htb : ({ left := [], right := A ++ [nb], root := Node.emptyLeaf, len := rest } : RVec α).toList =
        ({ left := [], right := A, root := nb, len := rest } : RVec α).toList := by
      rw [toList_eq _ .front, toList_eq _ .front]; simp [Side.add, spineList_append]
    refine ⟨spineList .front v.left ++ v.root.toList ++ spineList .back B ++ na.toList, ?_, ?_, ?_, ?_,
      fun hne => ?_, fun hne => ?_⟩
    · rw [hT, e, toList_eq _ .front]
      simp [Side.add, spineList_append, hab]
    · simp [ta]; omega
    · rw [toList_eq _ .front]; simp [Side.add]
    · rw [toList_eq _ .front]; simp [Side.add, spineList_append, hbne]
    · exact repair_cap .back (j := A.length) (h := h) (r := h) hll hsl
        ⟨wa, fun h0 => by have := hsr.2.2.1 h0; omega, hsr.2.2.2⟩ i.root
        (.inr ⟨by simp, by simp at hlr ⊢; omega, rfl, hdr⟩) hne hdl
        (fun x xs h => by cases h; exact ⟨d1, hdR.2.2⟩) e2
    · rw [htb] at hne ⊢
      exact repair_cap .front (j := 0) (h := A.length) (r := A.length) rfl hsr.1 trivial wb
        (.inl ⟨rfl, .inr rfl, d2⟩) hne hdR.1 (fun x xs h => by cases h) e3

/-- `split_off` keeps the nodes full. -/
theorem splitOff_cap {v a b : RVec α} {h : Nat} (i : InvH v h) (hcap : v.cap ≤ v.toList.length) {k : Nat}
    (e : v.splitOff k = .ok (a, b)) : a.cap ≤ a.toList.length ∧ b.cap ≤ b.toList.length := by
  have hnew : (RVec.new : RVec α).cap ≤ (RVec.new : RVec α).toList.length := by
    rw [new_toList]; exact Nat.le_refl 0
  obtain ⟨a2, b2, _, _, e', -, -, ta, tb, -, -⟩ := splitOff_ok i k
  rw [e] at e'; cases e'
  unfold splitOff at e
  by_cases h0 : k = 0
  · rw [if_pos (by simpa using h0)] at e; cases e
    exact ⟨hnew, hcap⟩
  rw [if_neg (by simpa using h0)] at e
  by_cases h1 : k ≥ v.len
  · rw [if_pos h1] at e; cases e
    exact ⟨hcap, hnew⟩
  rw [if_neg h1] at e
  obtain ⟨pos, sub, e1, f⟩ := findNodeInfo_ok i (index := k) (by rw [← i.len]; omega)
  simp only [e1, ok_bind, unwrap_some] at e
  obtain ⟨c, e2, e⟩ := bind_ok e
  obtain ⟨a1, e3, e⟩ := bind_ok e
  obtain ⟨b1, e4, e⟩ := bind_ok e
  cases e
  rw [ta, tb]
  exact cut_cap i hcap f h0 e2 e3 e4

theorem spineCap_set {sp : List (Node α)} {n p : Nat} {nd nd' : Node α} (h : sp[p]? = some nd)
    (hs : nd'.slots = nd.slots) : spineCap n (sp.set p nd') = spineCap n sp := by
  induction sp generalizing n p with
  | nil => simp at h
  | cons x xs ih =>
    cases p with
    | zero => simp at h; subst h; simp [spineCap, hs]
    | succ p => simp at h; simp [spineCap, ih h]

theorem withNodeAt_cap {v : RVec α} {pos} {nd nd' : Node α} (h : v.nodeAt pos = .ok nd)
    (hs : nd'.slots = nd.slots) : (v.withNodeAt pos nd').cap = v.cap := by
  rcases pos with _ | ⟨_ | _, p⟩
  · cases h
    simp [withNodeAt, cap, hs]
  · simp [withNodeAt, cap, spineCap_set (unwrap_eq h) hs]
  · simp [withNodeAt, cap, spineCap_set (unwrap_eq h) hs]

/-- Writing leaves the nodes as full as they were. -/
theorem set_cap {v v' : RVec α} {h idx : Nat} {x : α} (i : InvH v h) (e : v.set idx x = .ok (some v')) :
    v'.cap = v.cap := by
  by_cases hix : idx < v.toList.length
  · unfold set at e
    obtain ⟨pos, sub, e1, hf⟩ := findNodeInfo_ok i hix
    obtain ⟨nd, n, pre, post, e2, hw, ht, rfl, hs, -⟩ := hf.node i
    obtain ⟨nd', e3, w', t', s'⟩ := Node.set_ok hw x hs
    rw [e1] at e
    simp only [ok_bind, e2, e3, unwrap_some] at e
    cases e
    exact withNodeAt_cap e2 s'
  · rw [set_none i x (by omega)] at e
    cases e

theorem setLeafEnd_slots {nd nd' : Node α} (hw : nd.Wf 0) {s : Side} {x : α}
    (e : setLeafEnd s x nd = .ok (some nd')) : nd'.slots = nd.slots := by
  obtain ⟨l, b, rfl, hr⟩ := Node.wf_zero.1 hw
  have key : ∀ i, (b.set i x).bind (fun r => Except.ok (r.map Node.leaf)) = .ok (some nd') →
      nd'.slots = b.len := by
    intro i e
    obtain ⟨r, e1, e⟩ := bind_ok e
    by_cases hi : i < l.length
    · obtain ⟨b', e2, r2⟩ := CB.set_ok hr hi x
      rw [e2] at e1; cases e1
      cases e
      have h1 := r2.len_eq
      have h2 := hr.len_eq
      simp at h1
      simp only [Node.slots]
      omega
    · unfold CB.set at e1
      rw [if_neg (by rw [hr.len_eq]; exact hi)] at e1
      cases e1; cases e
  cases s
  · exact key 0 e
  · exact key (b.len - 1) e

theorem setFrontBack_cap {v v' : RVec α} {h : Nat} {s : Side} {x : α} (i : InvH v h)
    (e : v.setFrontBack s x = .ok (some v')) : v'.cap = v.cap := by
  unfold setFrontBack at e
  obtain ⟨r, e1, e⟩ := bind_ok e
  cases r with
  | none => cases e
  | some nd =>
    cases e
    have h1 := setLeafEnd_slots (i.leafNode s) e1
    have h2 := (leaf_cap i.length s nd).1
    omega

theorem height_ok {v : RVec α} {h : Nat} (i : InvH v h) : v.height = .ok h := by
  have h1 := i.length .front
  have h2 := i.length .back
  simp only [spine_front, spine_back] at h1 h2
  unfold height
  rw [massert_ok (by simp [h1, h2]), h1]
  rfl

end RVec
end Librrb
