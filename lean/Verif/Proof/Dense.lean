import Verif.Proof.Built

/-! # How many items the nodes of a vector could hold

`cap` counts every slot of a spine node or of the root as a full subtree. Pushing and popping never
make it exceed the number of items. -/
namespace Librrb

theorem CB.push_len {b b' : CB α} {s : Side} {x : α} (e : b.push s x = .ok b') : b'.len = b.len + 1 := by
  cases s
  · simp only [CB.push, CB.pushFront] at e
    obtain ⟨r, e1, e⟩ := RVec.bind_ok e
    unfold CB.tryPushFront at e1
    split at e1
    · cases e1; cases e
    · obtain ⟨d, e2, e1⟩ := RVec.bind_ok e1
      cases e1; cases e; rfl
  · simp only [CB.push, CB.pushBack] at e
    obtain ⟨r, e1, e⟩ := RVec.bind_ok e
    unfold CB.tryPushBack at e1
    split at e1
    · cases e1; cases e
    · obtain ⟨d, e2, e1⟩ := RVec.bind_ok e1
      cases e1; cases e; rfl

theorem usub_eq {a b c : Nat} (e : usub a b = .ok c) : a = c + b := by
  unfold usub at e
  split at e
  · cases e; omega
  · cases e

theorem CB.pop_len {b b' : CB α} {s : Side} {x : α} (e : b.pop s = .ok (x, b')) : b.len = b'.len + 1 := by
  simp only [CB.pop] at e
  obtain ⟨r, e1, e⟩ := RVec.bind_ok e
  cases s
  · simp only [CB.tryPop, CB.tryPopFront] at e1
    split at e1
    · cases e1; cases e
    · obtain ⟨d, e2, e1⟩ := RVec.bind_ok e1
      obtain ⟨n, e3, e1⟩ := RVec.bind_ok e1
      cases e1; cases e; exact usub_eq e3
  · simp only [CB.tryPop, CB.tryPopBack] at e1
    split at e1
    · cases e1; cases e
    · obtain ⟨n, e3, e1⟩ := RVec.bind_ok e1
      obtain ⟨d, e2, e1⟩ := RVec.bind_ok e1
      cases e1; cases e; exact usub_eq e3

theorem CB.decant_len {a b a' b' : CB α} {s : Side} {len k : Nat}
    (e : a.decantInto b s len = .ok (k, a', b')) : a'.len + b'.len = a.len + b.len := by
  have loop : ∀ (n : Nat) (a b a' b' : CB α), CB.decantLoop a b s n = .ok (a', b') →
      a'.len + b'.len = a.len + b.len := by
    intro n
    induction n with
    | zero => intro a b a' b' e; cases e; rfl
    | succ n ih =>
      intro a b a' b' e
      rw [CB.decantLoop] at e
      obtain ⟨r, e1, e⟩ := RVec.bind_ok e
      obtain ⟨d, e2, e⟩ := RVec.bind_ok e
      have h1 := CB.pop_len (x := r.1) (b' := r.2) e1
      have h2 := CB.push_len e2
      have := ih _ _ _ _ e
      omega
  unfold CB.decantInto at e
  split at e
  · cases e; omega
  · obtain ⟨f, e1, e⟩ := RVec.bind_ok e
    obtain ⟨r, e2, e⟩ := RVec.bind_ok e
    cases e
    exact loop _ _ _ _ _ e2

namespace Node

theorem pushChild_slots {nd c nd' : Node α} {s : Side} (e : nd.pushChild s c = .ok nd') :
    nd'.slots = nd.slots + 1 := by
  cases nd with
  | leaf b => cases e
  | internal sz t ch =>
    simp only [pushChild] at e
    obtain ⟨n, e1, e⟩ := RVec.bind_ok e
    obtain ⟨sz', e2, e⟩ := RVec.bind_ok e
    obtain ⟨u, e3, e⟩ := RVec.bind_ok e
    obtain ⟨ch', e4, e⟩ := RVec.bind_ok e
    cases e
    exact CB.push_len e4

theorem share_slots {a b a' b' : Node α} {s : Side} {len k : Nat}
    (e : a.shareChildrenWith b s len = .ok (k, a', b')) : a'.slots + b'.slots = a.slots + b.slots := by
  cases a with
  | leaf x =>
    cases b with
    | leaf y =>
      simp only [shareChildrenWith] at e
      obtain ⟨r, e1, e⟩ := RVec.bind_ok e
      cases e
      exact CB.decant_len (k := r.1) (a' := r.2.1) (b' := r.2.2) e1
    | internal _ _ _ => cases e
  | internal s1 t1 x =>
    cases b with
    | leaf y => cases e
    | internal s2 t2 y =>
      simp only [shareChildrenWith] at e
      obtain ⟨_, _, e⟩ := RVec.bind_ok e
      obtain ⟨_, _, e⟩ := RVec.bind_ok e
      obtain ⟨_, _, e⟩ := RVec.bind_ok e
      obtain ⟨r, e1, e⟩ := RVec.bind_ok e
      obtain ⟨q, e2, e⟩ := RVec.bind_ok e
      cases e
      exact CB.decant_len (k := r.1) (a' := r.2.1) (b' := r.2.2) e1

theorem newEmpty_slots (nd : Node α) : nd.newEmpty.slots = 0 := by cases nd <;> rfl

theorem freeSlots_eq {nd : Node α} {k : Nat} (e : nd.freeSlots = .ok k) : nd.slots + k = 64 := by
  cases nd with
  | leaf b => have := usub_eq e; simp only [slots]; omega
  | internal s t c => have := usub_eq e; simp only [slots]; omega

end Node

/-- What the nodes of a spine, the first one of level `n`, could hold. -/
def spineCap : Nat → List (Node α) → Nat
  | _, [] => 0
  | n, x :: xs => x.slots * 64 ^ n + spineCap (n + 1) xs

theorem spineCap_append (n : Nat) (xs ys : List (Node α)) :
    spineCap n (xs ++ ys) = spineCap n xs + spineCap (n + xs.length) ys := by
  induction xs generalizing n with
  | nil => simp [spineCap]
  | cons x xs ih =>
    simp only [List.cons_append, spineCap, ih, List.length_cons]
    rw [show n + 1 + xs.length = n + (xs.length + 1) by omega]
    omega

/-- What the nodes of a spine could hold is less than a full node of the next level, apart from the
leaf. -/
theorem Spine.cap_le : ∀ {n : Nat} {sp : List (Node α)}, Spine n sp → n ≠ 0 →
    spineCap n sp + 64 ^ n ≤ 64 ^ (n + sp.length) := by
  intro n sp
  induction sp generalizing n with
  | nil => intro _ _; simp [spineCap]
  | cons x xs ih =>
    intro h hn
    have h1 := h.2.1 hn
    have h2 := ih h.2.2 (by omega)
    simp only [spineCap, List.length_cons]
    rw [show n + (xs.length + 1) = n + 1 + xs.length by omega]
    have : x.slots * 64 ^ n ≤ 63 * 64 ^ n := Nat.mul_le_mul_right _ h1
    have e : (64 : Nat) ^ (n + 1) = 64 ^ n * 64 := Nat.pow_succ ..
    omega

theorem Spine.cap_le_zero {sp : List (Node α)} (h : Spine 0 sp) (hne : sp ≠ []) :
    spineCap 0 sp ≤ 64 ^ sp.length := by
  cases sp with
  | nil => exact absurd rfl hne
  | cons x xs =>
    have h1 := h.1.slots_le
    have h2 := Spine.cap_le h.2.2 (by omega)
    simp only [spineCap, List.length_cons]
    rw [show xs.length + 1 = 0 + 1 + xs.length by omega]
    simp only [Nat.pow_zero, Nat.zero_add, Nat.pow_one] at h2 ⊢
    omega

namespace RVec

/-- What the nodes of a vector could hold. -/
def cap (v : RVec α) : Nat :=
  spineCap 0 v.left + spineCap 0 v.right + v.root.slots * 64 ^ v.left.length

theorem cap_eq {v : RVec α} {h : Nat} (s : Side) (hl : ∀ s, (v.spine s).length = h) :
    v.cap = spineCap 0 (v.spine s) + spineCap 0 (v.spine s.negate) + v.root.slots * 64 ^ h := by
  have h1 := hl .front
  simp only [spine_front] at h1
  unfold cap
  rw [h1]
  cases s <;> simp only [spine_front, spine_back, Side.negate]
  omega

/-! ### fixup_spine_tops -/

theorem eq_append_of_getLast? {xs : List γ} {a : γ} (h : xs.getLast? = some a) : xs = xs.dropLast ++ [a] := by
  rcases List.eq_nil_or_concat xs with rfl | ⟨l, b, rfl⟩
  · simp at h
  · simp at h; subst h; simp

theorem unwrap_eq {o : Option γ} {x : γ} (e : unwrap o = .ok x) : o = some x := by
  cases o with
  | none => cases e
  | some y => cases e; rfl

theorem fixupStep_cap {v v' : RVec α} {b : Bool} {h : Nat} (e : v.fixupStep = .ok (v', b))
    (hl : ∀ s, (v.spine s).length = h) (hr : v.root.slots = 0) :
    v'.cap ≤ v.cap ∧ ∃ h', ∀ s, (v'.spine s).length = h' := by
  unfold fixupStep at e
  obtain ⟨lt, e1, e⟩ := bind_ok e
  obtain ⟨rt, e2, e⟩ := bind_ok e
  have e1' := eq_append_of_getLast? (unwrap_eq e1)
  have e2' := eq_append_of_getLast? (unwrap_eq e2)
  have hl1 := hl .front
  have hl2 := hl .back
  simp only [spine_front, spine_back] at hl1 hl2
  obtain ⟨L, eL⟩ : ∃ L, L = v.left.dropLast := ⟨_, rfl⟩
  obtain ⟨R, eR⟩ : ∃ R, R = v.right.dropLast := ⟨_, rfl⟩
  rw [← eL] at e1' e
  rw [← eR] at e2' e
  have hL : h = L.length + 1 := by rw [← hl1, e1']; simp
  have hR : R.length = L.length := by rw [e2'] at hl2; simp at hl2; omega
  have hc : v.cap = spineCap 0 L + spineCap 0 R + (lt.slots + rt.slots) * 64 ^ L.length := by
    unfold cap
    rw [e1', e2', spineCap_append, spineCap_append, hr, hR]
    simp only [spineCap, Nat.zero_add, Nat.zero_mul, Nat.add_zero, Nat.add_mul]
    omega
  have tops : ∀ (a b : Node α), a.slots + b.slots = lt.slots + rt.slots →
      ({ v with left := L ++ [a], right := R ++ [b] }).cap ≤ v.cap ∧
      ∃ h', ∀ s, (({ v with left := L ++ [a], right := R ++ [b] }).spine s).length = h' := by
    intro a b hab
    refine ⟨?_, L.length + 1, ?_⟩
    · rw [hc, ← hab]
      unfold cap
      rw [spineCap_append, spineCap_append, hr, hR]
      simp only [spineCap, Nat.zero_add, Nat.zero_mul, Nat.add_zero, Nat.add_mul]
      omega
    · intro s; cases s <;> simp [hR]
  dsimp only at e
  generalize (if (v.root.level == 1) = true then 64 else 64 - 2) = mc at e
  generalize (if lt.slots > rt.slots then lt.slots - rt.slots else rt.slots - lt.slots) = df at e
  split at e
  · obtain ⟨r, e3, e⟩ := bind_ok e
    have := Node.share_slots (k := r.1) (a' := r.2.1) (b' := r.2.2) e3
    cases e
    refine ⟨?_, L.length, ?_⟩
    · rw [hc]
      unfold cap
      have : r.2.2.slots * 64 ^ L.length ≤ (lt.slots + rt.slots) * 64 ^ L.length :=
        Nat.mul_le_mul_right _ (by omega)
      simp only
      omega
    · intro s; cases s <;> simp [hR]
  · split at e
    · split at e
      · obtain ⟨r, e3, e⟩ := bind_ok e
        have := Node.share_slots (k := r.1) (a' := r.2.1) (b' := r.2.2) e3
        cases e
        exact tops _ _ this
      · obtain ⟨r, e3, e⟩ := bind_ok e
        have := Node.share_slots (k := r.1) (a' := r.2.1) (b' := r.2.2) e3
        cases e
        exact tops _ _ (by omega)
    · cases e
      exact ⟨Nat.le_refl _, h, hl⟩

theorem fixupLoop_cap : ∀ (n : Nat) {v v' : RVec α} {h : Nat}, fixupLoop n v = .ok v' →
    (∀ s, (v.spine s).length = h) → v'.cap ≤ v.cap ∧ ∃ h', ∀ s, (v'.spine s).length = h' := by
  intro n
  induction n with
  | zero =>
    intro v v' h e hl
    unfold fixupLoop at e
    split at e
    · cases e
    · cases e; exact ⟨Nat.le_refl _, h, hl⟩
  | succ n ih =>
    intro v v' h e hl
    unfold fixupLoop at e
    split at e
    · rename_i hc
      obtain ⟨r, e1, e⟩ := bind_ok e
      obtain ⟨h1, h', h2⟩ := fixupStep_cap (v' := r.1) (b := r.2) e1 hl (by simp at hc; exact hc.1)
      split at e
      · obtain ⟨h3, h4⟩ := ih e h2
        exact ⟨Nat.le_trans h3 h1, h4⟩
      · cases e; exact ⟨h1, h', h2⟩
    · cases e; exact ⟨Nat.le_refl _, h, hl⟩

theorem fixup_cap {v v' : RVec α} {h : Nat} (e : v.fixupSpineTops = .ok v')
    (hl : ∀ s, (v.spine s).length = h) : v'.cap ≤ v.cap ∧ ∃ h', ∀ s, (v'.spine s).length = h' :=
  fixupLoop_cap _ e hl

/-! ### complete_leaf and push_side -/

theorem completeLoop_cap (s : Side) : ∀ (n m : Nat) (sp : List (Node α)) (root : Node α) {sp' root'},
    completeLoop s n sp root = .ok (sp', root') →
    sp'.length = sp.length ∧
      spineCap m sp' + root'.slots * 64 ^ (m + sp.length) = spineCap m sp + root.slots * 64 ^ (m + sp.length) := by
  intro n
  induction n with
  | zero => intro m sp root sp' root' e; cases e; exact ⟨rfl, rfl⟩
  | succ n ih =>
    intro m sp root sp' root' e
    cases sp with
    | nil => cases e; exact ⟨rfl, rfl⟩
    | cons x rest =>
      simp only [completeLoop] at e
      obtain ⟨free, e1, e⟩ := bind_ok e
      have hfree := Node.freeSlots_eq e1
      split at e
      · cases e; exact ⟨rfl, rfl⟩
      · rename_i hf
        have hx : x.slots = 64 := by simp at hf; omega
        cases rest with
        | nil =>
          dsimp only at e
          obtain ⟨root1, e2, e⟩ := bind_ok e
          cases e
          have := Node.pushChild_slots e2
          refine ⟨rfl, ?_⟩
          simp only [spineCap, Node.newEmpty_slots, this, hx, List.length_cons, List.length_nil, Nat.pow_succ,
            Nat.zero_add, Nat.add_mul]
          omega
        | cons p rest =>
          dsimp only at e
          obtain ⟨p1, e2, e⟩ := bind_ok e
          obtain ⟨r, e3, e⟩ := bind_ok e
          cases e
          have hp := Node.pushChild_slots e2
          obtain ⟨h1, h2⟩ := ih (m + 1) (p1 :: rest) root (sp' := r.1) (root' := r.2) e3
          simp only [List.length_cons] at h1 h2 ⊢
          refine ⟨by omega, ?_⟩
          rw [show m + (rest.length + 1 + 1) = m + 1 + (rest.length + 1) by omega]
          simp only [spineCap, Node.newEmpty_slots, hx, hp, Nat.zero_mul, Nat.zero_add, Nat.add_mul,
            Nat.pow_succ] at h2 ⊢
          omega

theorem completeLeaf_cap {v v' : RVec α} {h : Nat} {s : Side} (e : v.completeLeaf s = .ok v')
    (hl : ∀ s, (v.spine s).length = h) : v'.cap ≤ v.cap ∧ ∃ h', ∀ s, (v'.spine s).length = h' := by
  unfold completeLeaf at e
  obtain ⟨_, _, e⟩ := bind_ok e
  obtain ⟨_, _, e⟩ := bind_ok e
  obtain ⟨_, _, e⟩ := bind_ok e
  obtain ⟨r, e1, e⟩ := bind_ok e
  obtain ⟨h1, h2⟩ := completeLoop_cap s _ 0 _ _ (sp' := r.1) (root' := r.2) e1
  rw [hl s] at h1 h2
  dsimp only at e
  have hc := cap_eq s hl
  simp only [Nat.zero_add] at h2
  have mid : (({ v with root := r.2 }).withSpine s r.1).cap = v.cap ∧
      ∀ t, ((({ v with root := r.2 }).withSpine s r.1).spine t).length = h := by
    have hl' : ∀ t, ((({ v with root := r.2 }).withSpine s r.1).spine t).length = h := by
      rw [Side.forall s]
      simp only [withSpine_same, withSpine_other, setRoot_spine]
      exact ⟨h1, hl _⟩
    refine ⟨?_, hl'⟩
    rw [cap_eq s hl', hc]
    simp only [withSpine_same, withSpine_other, setRoot_spine, withSpine_root]
    omega
  split at e
  · obtain ⟨nr, e2, e⟩ := bind_ok e
    obtain ⟨q, e3, e⟩ := bind_ok e
    have hq := Node.share_slots (k := q.1) (a' := q.2.1) (b' := q.2.2) e3
    rw [Node.newEmpty_slots] at hq
    have hnr : nr.slots = 0 := by
      obtain ⟨nd, e4, -, -, h4⟩ := emptyInternal_wf (α := α) r.2.level
      rw [e4] at e2; cases e2; exact h4
    cases e
    have hl' : ∀ t, (((({ v with root := nr }).withSpine s (r.1 ++ [q.2.1])).withSpine s.negate
        (v.spine s.negate ++ [q.2.2])).spine t).length = h + 1 := by
      rw [Side.forall s]
      simp [h1, hl]
    refine ⟨?_, _, hl'⟩
    rw [cap_eq s hl', hc]
    simp only [withSpine_same, withSpine_other', setRoot_spine, withSpine_root, spineCap_append, spineCap,
      hnr, h1, hl, Nat.zero_add, Nat.add_zero, Nat.zero_mul]
    have : (q.2.1.slots + q.2.2.slots) * 64 ^ h = r.2.slots * 64 ^ h := by rw [hq]; rfl
    rw [Nat.add_mul] at this
    omega
  · split at e
    · obtain ⟨h3, h4⟩ := fixup_cap e mid.2
      exact ⟨by omega, h4⟩
    · cases e
      exact ⟨by omega, _, mid.2⟩

theorem leaf_cap {v : RVec α} {h : Nat} (hl : ∀ s, (v.spine s).length = h) (s : Side) (nd : Node α) :
    (v.withLeafNode s nd).cap + (v.leafNode s).slots = v.cap + nd.slots ∧
      ∀ t, ((v.withLeafNode s nd).spine t).length = h := by
  cases hsp : v.spine s with
  | nil =>
    have h0 : h = 0 := by rw [← hl s, hsp]; rfl
    subst h0
    have hl' : ∀ t, ((v.withLeafNode s nd).spine t).length = 0 := by
      intro t; simp only [withLeafNode, hsp, setRoot_spine]; exact hl t
    refine ⟨?_, hl'⟩
    rw [cap_eq s hl', cap_eq s hl]
    simp only [withLeafNode, leafNode, hsp, setRoot_spine, List.head?_nil, Option.getD_none, Nat.pow_zero]
    omega
  | cons x rest =>
    have hx := hl s
    rw [hsp] at hx
    have hl' : ∀ t, ((v.withLeafNode s nd).spine t).length = h := by
      rw [Side.forall s]
      simp only [withLeafNode, hsp, withSpine_same, withSpine_other]
      exact ⟨by simpa using hx, hl _⟩
    refine ⟨?_, hl'⟩
    rw [cap_eq s hl', cap_eq s hl]
    simp only [withLeafNode, leafNode, hsp, withSpine_same, withSpine_other, withSpine_root, List.head?_cons,
      Option.getD_some, spineCap, Nat.pow_zero]
    omega

theorem leafPush_slots {nd nd' : Node α} {s : Side} {x : α} (e : nd.leafPush s x = .ok nd') :
    nd'.slots = nd.slots + 1 := by
  cases nd with
  | leaf b =>
    simp only [Node.leafPush] at e
    obtain ⟨b', e1, e⟩ := bind_ok e
    cases e
    exact CB.push_len e1
  | internal _ _ _ => cases e

theorem leafPop_slots {nd nd' : Node α} {s : Side} {x : α} (e : nd.leafPop s = .ok (x, nd')) :
    nd.slots = nd'.slots + 1 := by
  cases nd with
  | leaf b =>
    simp only [Node.leafPop] at e
    obtain ⟨r, e1, e⟩ := bind_ok e
    cases e
    exact CB.pop_len (x := r.1) (b' := r.2) e1
  | internal _ _ _ => cases e

theorem setLen_cap (v : RVec α) (n : Nat) : ({ v with len := n }).cap = v.cap := rfl

theorem pushSide_cap {v v' : RVec α} {h : Nat} {s : Side} {x : α} (e : v.pushSide s x = .ok v')
    (hl : ∀ s, (v.spine s).length = h) : v'.cap ≤ v.cap + 1 := by
  unfold pushSide at e
  obtain ⟨free, e1, e⟩ := bind_ok e
  obtain ⟨v1, e2, e⟩ := bind_ok e
  obtain ⟨nd, e3, e⟩ := bind_ok e
  obtain ⟨len, e4, e⟩ := bind_ok e
  have h1 : v1.cap ≤ v.cap ∧ ∃ h', ∀ s, (v1.spine s).length = h' := by
    split at e2
    · exact completeLeaf_cap e2 hl
    · cases e2; exact ⟨Nat.le_refl _, h, hl⟩
  obtain ⟨h1, h', h2⟩ := h1
  obtain ⟨h3, h4⟩ := leaf_cap h2 s nd
  have h5 := leafPush_slots e3
  dsimp only at e
  split at e
  · have : v'.cap ≤ (v1.withLeafNode s nd).cap :=
      (fixup_cap e (h := h') (fun t => by rw [setLen_spine]; exact h4 t)).1
    omega
  · cases e
    rw [setLen_cap]
    omega

/-! ### empty_leaf and pop_side -/

theorem spineCap_zero : ∀ (n : Nat) (E : List (Node α)), (∀ x ∈ E, x.slots = 0) → spineCap n E = 0 := by
  intro n E
  induction E generalizing n with
  | nil => intro _; rfl
  | cons x xs ih => intro h; simp [spineCap, h x (by simp), ih (n + 1) (fun y hy => h y (by simp [hy]))]

theorem emptyLeaf_cap {v v' : RVec α} {h : Nat} (c : Core v h) (s : Side) {x : Node α}
    {rest : List (Node α)} (hsp : v.spine s = x :: rest) (hx : x.slots = 0)
    (e : v.emptyLeaf s = .ok v') : v'.cap ≤ v.cap := by
  have hlen := c.length s
  have hspine := c.spine s
  rw [hsp] at hlen hspine
  unfold emptyLeaf at e
  rw [hsp] at e
  obtain ⟨_, _, e⟩ := bind_ok e
  dsimp only at e
  obtain ⟨_, _, e⟩ := bind_ok e
  obtain ⟨_, _, e⟩ := bind_ok e
  obtain ⟨last, elast, e⟩ := bind_ok e
  obtain ⟨_, eas, e⟩ := bind_ok e
  obtain ⟨dflt, edf, e⟩ := bind_ok e
  obtain ⟨q, e1, e⟩ := bind_ok e
  obtain ⟨E, r, e2, hE, hr, hcnt⟩ := lastEmpty_ok rest 1 (Nat.le_refl _)
  have hd : dflt = 1 + rest.length - 1 := by have := usub_eq edf; simp at this; omega
  rw [List.tail_cons, hd, hcnt] at e1
  have hEe : ∀ y ∈ x :: E, y.slots = 0 := by
    intro y hy; simp at hy; rcases hy with rfl | hy; exact hx; exact hE y hy
  have hwE : Spine 0 (x :: E) ∧ Spine (E.length + 1) r := by
    have : Spine 0 ((x :: E) ++ r) := by simpa [e2] using hspine
    rw [spine_append] at this
    simpa using this
  have key : q.1.length = h ∧
      spineCap 0 q.1 + q.2.slots * 64 ^ h ≤ spineCap 0 (x :: rest) + v.root.slots * 64 ^ h := by
    rcases hr with rfl | ⟨p, r, rfl, hp⟩
    · simp at e2
      subst e2
      have hlast : last.slots = 0 := hEe last (List.mem_of_getLast? (unwrap_eq elast))
      have hroot : v.root.slots ≠ 0 := by
        intro h0
        rw [h0, hlast] at eas
        cases eas
      have hh : h = rest.length + 1 := by simpa using hlen.symm
      subst hh
      obtain ⟨D, root', q1, q2, q3, q4, q5, q6, q7⟩ := emptyLeafLoop_root s rest.length (x :: rest)
        v.root (by simp) c.root hroot
      rw [Nat.add_comm, q1] at e1
      cases e1
      have hD := Spine.cap_le_zero q3 (by rintro rfl; simp at q2)
      rw [q2] at hD
      refine ⟨q2, ?_⟩
      rw [spineCap_zero _ _ hEe, ← q6, Nat.add_mul]
      dsimp only
      omega
    · have hp' : p.Wf (E.length + 1) := hwE.2.1
      obtain ⟨D, p', q1, q2, q3, q4, q5, -, q7, q8⟩ := emptyLeafLoop_spine s (E.length + 1) (x :: E) p r
        v.root (by simp) hp' hp
      rw [Nat.add_comm, show x :: rest = x :: E ++ p :: r by simp [e2], q1] at e1
      cases e1
      have hD := Spine.cap_le_zero q3 (by rintro rfl; simp at q2)
      rw [q2] at hD
      have hlen2 : E.length + 1 + (r.length + 1) = h := by rw [← hlen, e2]; simp; omega
      refine ⟨by simp [q2]; omega, ?_⟩
      rw [show x :: rest = x :: E ++ p :: r by simp [e2], spineCap_append, spineCap_append,
        spineCap_zero _ _ hEe, q2]
      have := q7 (by omega)
      simp only [spineCap, List.length_cons, Nat.zero_add, ← this, Nat.add_mul]
      omega
  obtain ⟨k1, k2⟩ := key
  have hl' : ∀ t, ((({ v with root := q.2 }).withSpine s q.1).spine t).length = h := by
    rw [Side.forall s]
    simp only [withSpine_same, withSpine_other, setRoot_spine]
    exact ⟨k1, c.length _⟩
  have := (fixup_cap e hl').1
  rw [cap_eq s hl'] at this
  rw [cap_eq s c.length, hsp]
  simp only [withSpine_same, withSpine_other, setRoot_spine, withSpine_root] at this
  omega

theorem popSide_cap {v v' : RVec α} {h : Nat} {s : Side} {x : α} (i : InvH v h)
    (e : v.popSide s = .ok (some x, v')) : v'.cap + 1 ≤ v.cap := by
  unfold popSide at e
  obtain ⟨_, _, e⟩ := bind_ok e
  split at e
  · rename_i hsp
    obtain ⟨em, e1, e⟩ := bind_ok e
    split at e
    · obtain ⟨len, e2, e⟩ := bind_ok e
      obtain ⟨r, e3, e⟩ := bind_ok e
      cases e
      have h1 := leafPop_slots (x := r.1) (nd' := r.2) e3
      have hs : v.spine s = [] := by simpa using hsp
      have h2 := leaf_cap i.length s r.2
      simp only [withLeafNode, leafNode, hs, List.head?_nil, Option.getD_none] at h2
      have : ({ v with root := r.2, len := len }).cap = ({ v with root := r.2 }).cap := rfl
      omega
    · cases e
  · rename_i hne
    obtain ⟨r, e1, e⟩ := bind_ok e
    dsimp only at e
    obtain ⟨em, e2, e⟩ := bind_ok e
    obtain ⟨v1, e3, e⟩ := bind_ok e
    obtain ⟨len, e4, e⟩ := bind_ok e
    cases e
    have h1 := leafPop_slots (x := r.1) (nd' := r.2) e1
    obtain ⟨h2, h3⟩ := leaf_cap i.length s r.2
    rw [setLen_cap]
    suffices v1.cap ≤ (v.withLeafNode s r.2).cap by omega
    have hw0 := i.leafNode s
    have hw : r.2.Wf 0 := by
      obtain ⟨y, nd', e5, w5, -⟩ := Node.leafPop_ok hw0 s (by omega)
      rw [e5] at e1; cases e1; exact w5
    split at e3
    · rename_i hem
      have hem' : r.2.slots = 0 := by
        rw [hw.isEmpty'] at e2; cases e2; simpa using hem
      obtain ⟨y, rest, hsp⟩ := List.exists_cons_of_ne_nil (l := v.spine s) (by simpa using hne)
      have hv : v.withLeafNode s r.2 = v.withSpine s (r.2 :: rest) := by simp [withLeafNode, hsp]
      rw [hv] at e3 h3 ⊢
      have hspine := i.spine s
      rw [hsp] at hspine
      refine emptyLeaf_cap (h := h) ⟨h3, ?_, ?_, ?_⟩ s (x := r.2) (rest := rest) (by simp) hem' e3
      · rw [Side.forall s]; simp only [withSpine_same, withSpine_other]
        exact ⟨⟨hw, fun h => absurd rfl h, hspine.2.2⟩, i.spine _⟩
      · simpa using i.root
      · simpa using i.room
    · split at e3
      · exact (fixup_cap e3 h3).1
      · cases e3; exact Nat.le_refl _

/-! ### The height -/

/-- A vector whose nodes hold all they could is low. -/
theorem InvH.height {v : RVec α} {h : Nat} (i : InvH v (h + 1)) (hc : v.cap ≤ v.toList.length) :
    62 * 64 ^ h ≤ v.len ∧ (h = 0 → 64 ≤ v.len) := by
  rw [i.len]
  have hcap := cap_eq .front i.length
  by_cases hr : v.root.slots = 0
  · obtain ⟨L, l, eL, hL, -⟩ := i.toCore.tops .front
    obtain ⟨R, r, eR, hR, -⟩ := i.toCore.tops .back
    have ht := (i.top (by omega) hr .front l r (by simp [eL]) (by simp [eR, Side.negate])).2
    rw [eL, show Side.front.negate = Side.back from rfl, eR, spineCap_append, spineCap_append, hL, hR] at hcap
    simp only [spineCap, Nat.zero_add, Nat.add_zero] at hcap
    have h1 : minTop (h + 1) * 64 ^ h ≤ (l.slots + r.slots) * 64 ^ h := Nat.mul_le_mul_right _ ht
    rw [Nat.add_mul] at h1
    have h2 : 62 * 64 ^ h ≤ minTop (h + 1) * 64 ^ h :=
      Nat.mul_le_mul_right _ (by unfold minTop; split <;> omega)
    refine ⟨by omega, ?_⟩
    rintro rfl
    simp [minTop] at h1
    simp only [Nat.pow_zero, Nat.mul_one] at hcap
    omega
  · have h1 : 1 * 64 ^ (h + 1) ≤ v.root.slots * 64 ^ (h + 1) := Nat.mul_le_mul_right _ (by omega)
    rw [Nat.pow_succ] at h1 hcap
    refine ⟨by omega, ?_⟩
    rintro rfl
    simp only [Nat.pow_zero, Nat.one_mul] at h1 hcap
    omega

end RVec
end Librrb
