import Verif.Model.Abs
import Verif.Proof.SizeTable

/-! # Specification of the node operations on well-formed nodes -/
namespace Librrb
namespace Node

/-- The arm of `ChildList` used by a node of level `n`. -/
def tagFor (n : Nat) : Tag := if n = 1 then .leaves else .internals

/-- Number of items below a node. -/
def size (nd : Node α) : Nat := nd.toList.length

/-- A well-formed node of level `n`: sound rings, size table equal to the sizes of the children,
children well-formed of level `n-1` and not empty. -/
def Wf : Nat → Node α → Prop
  | 0, .leaf b => b.Inv
  | n + 1, .internal s t c =>
    s.Rep (n + 1) (c.toList.map size) ∧ t = tagFor (n + 1) ∧ c.Inv ∧
      ∀ k ∈ c.toList, Wf n k ∧ k.toList ≠ []
  | 0, .internal _ _ _ => False
  | _ + 1, .leaf _ => False

/-- `nd` is a well-formed internal node of level `n+1` with the children `ks`. -/
def Kids (n : Nat) (nd : Node α) (ks : List (Node α)) : Prop :=
  ∃ s c, nd = .internal s (tagFor (n + 1)) c ∧ s.Rep (n + 1) (ks.map size) ∧ c.Rep ks ∧
    ∀ k ∈ ks, Wf n k ∧ k.toList ≠ []

/-- `nd` is a well-formed leaf with the items `l`. -/
def Items (nd : Node α) (l : List α) : Prop := ∃ b, nd = .leaf b ∧ b.Rep l

theorem wf_zero {nd : Node α} : Wf 0 nd ↔ ∃ l, Items nd l := by
  constructor
  · intro h
    match nd, h with
    | .leaf b, h => exact ⟨b.toList, b, rfl, h⟩
  · rintro ⟨l, b, rfl, h⟩
    exact h.inv

theorem wf_succ {n : Nat} {nd : Node α} : Wf (n + 1) nd ↔ ∃ ks, Kids n nd ks := by
  constructor
  · intro h
    match nd, h with
    | .internal s t c, h =>
      obtain ⟨h1, rfl, h3, h4⟩ := h
      exact ⟨c.toList, s, c, rfl, h1, h3, h4⟩
  · rintro ⟨ks, s, c, rfl, h1, h2, h3⟩
    have := h2.toList
    refine ⟨by rw [this]; exact h1, rfl, h2.inv, by rw [this]; exact h3⟩

theorem Kids.wf {n : Nat} {nd : Node α} {ks} (h : Kids n nd ks) : Wf (n + 1) nd := wf_succ.2 ⟨ks, h⟩
theorem Items.wf {nd : Node α} {l} (h : Items nd l) : Wf 0 nd := wf_zero.2 ⟨l, h⟩

theorem Kids.toList {n : Nat} {nd : Node α} {ks} (h : Kids n nd ks) :
    nd.toList = ks.flatMap Node.toList := by
  obtain ⟨s, c, rfl, h1, h2, h3⟩ := h
  rw [toList_internal, h2.toList]

theorem Items.toList {nd : Node α} {l} (h : Items nd l) : nd.toList = l := by
  obtain ⟨b, rfl, h⟩ := h
  rw [toList_leaf, h.toList]

theorem Kids.slots {n : Nat} {nd : Node α} {ks} (h : Kids n nd ks) : nd.slots = ks.length := by
  obtain ⟨s, c, rfl, h1, h2, h3⟩ := h
  exact h2.len_eq

theorem Items.slots {nd : Node α} {l} (h : Items nd l) : nd.slots = l.length := by
  obtain ⟨b, rfl, h⟩ := h
  exact h.len_eq

theorem Kids.le {n : Nat} {nd : Node α} {ks} (h : Kids n nd ks) : ks.length ≤ 64 := by
  obtain ⟨s, c, rfl, h1, h2, h3⟩ := h
  exact h2.le

theorem Items.le {nd : Node α} {l} (h : Items nd l) : l.length ≤ 64 := by
  obtain ⟨b, rfl, h⟩ := h
  exact h.le

theorem Kids.child {n : Nat} {nd : Node α} {ks} (h : Kids n nd ks) {k} (hk : k ∈ ks) :
    Wf n k ∧ k.toList ≠ [] := by
  obtain ⟨s, c, rfl, h1, h2, h3⟩ := h
  exact h3 k hk

theorem flatMap_length (ks : List (Node α)) :
    (ks.flatMap Node.toList).length = (ks.map size).sum := by
  rw [List.length_flatMap]; rfl

theorem Kids.size_eq {n : Nat} {nd : Node α} {ks} (h : Kids n nd ks) :
    nd.size = (ks.map size).sum := by
  rw [size, h.toList, flatMap_length]

theorem Kids.toList_eq_nil {n : Nat} {nd : Node α} {ks} (h : Kids n nd ks) :
    nd.toList = [] ↔ ks = [] := by
  rw [h.toList]
  constructor
  · intro e
    cases ks with
    | nil => rfl
    | cons k ks =>
      simp at e
      exact absurd e.1 (h.child (by simp)).2
  · rintro rfl; rfl

theorem Wf.slots_le {n : Nat} {nd : Node α} (h : Wf n nd) : nd.slots ≤ 64 := by
  cases n with
  | zero => obtain ⟨l, h⟩ := wf_zero.1 h; rw [h.slots]; exact h.le
  | succ n => obtain ⟨l, h⟩ := wf_succ.1 h; rw [h.slots]; exact h.le

theorem Wf.slots_eq_zero {n : Nat} {nd : Node α} (h : Wf n nd) : nd.slots = 0 ↔ nd.toList = [] := by
  cases n with
  | zero => obtain ⟨l, h⟩ := wf_zero.1 h; rw [h.slots, h.toList]; simp
  | succ n => obtain ⟨l, h⟩ := wf_succ.1 h; rw [h.slots, h.toList_eq_nil]; simp

theorem Wf.slots_le_size {n : Nat} {nd : Node α} (h : Wf n nd) : nd.slots ≤ nd.toList.length := by
  cases n with
  | zero => obtain ⟨l, h⟩ := wf_zero.1 h; rw [h.slots, h.toList]; exact Nat.le_refl _
  | succ n =>
    obtain ⟨ks, h⟩ := wf_succ.1 h
    rw [h.slots, h.toList, flatMap_length]
    have : ∀ k ∈ ks, 1 ≤ size k := fun k hk =>
      List.length_pos_iff.2 (h.child hk).2
    clear h
    induction ks with
    | nil => simp
    | cons k ks ih =>
      have := ih (fun k hk => this k (by simp [hk]))
      have h1 := ‹∀ k' ∈ k :: ks, 1 ≤ size k'› k (by simp)
      simp; omega

theorem Wf.level {n : Nat} {nd : Node α} (h : Wf n nd) : nd.level = n := by
  cases n with
  | zero => obtain ⟨l, b, rfl, h⟩ := wf_zero.1 h; rfl
  | succ n => obtain ⟨l, s, c, rfl, h, _⟩ := wf_succ.1 h; exact h.1

theorem Wf.isLeaf {n : Nat} {nd : Node α} (h : Wf n nd) : nd.isLeaf = decide (n = 0) := by
  rw [Node.isLeaf, h.level]; rfl

theorem Wf.len {n : Nat} {nd : Node α} (h : Wf n nd) : nd.len = .ok nd.toList.length := by
  cases n with
  | zero =>
    obtain ⟨l, b, rfl, hb⟩ := wf_zero.1 h
    simp [Node.len, hb.toList, hb.len_eq]
  | succ n =>
    obtain ⟨ks, hk⟩ := wf_succ.1 h
    have := hk.size_eq
    rw [size] at this
    rw [this]
    obtain ⟨s, c, rfl, h1, h2, h3⟩ := hk
    exact SizeTable.cumulativeSize_ok h1

theorem Wf.isEmpty {n : Nat} {nd : Node α} (h : Wf n nd) :
    nd.isEmpty = .ok (decide (nd.toList = [])) := by
  rw [Node.isEmpty, h.len]
  cases nd.toList <;> simp

theorem Wf.isEmpty' {n : Nat} {nd : Node α} (h : Wf n nd) :
    nd.isEmpty = .ok (decide (nd.slots = 0)) := by
  rw [h.isEmpty]; simp [h.slots_eq_zero]

theorem Wf.freeSlots {n : Nat} {nd : Node α} (h : Wf n nd) : nd.freeSlots = .ok (64 - nd.slots) := by
  cases n with
  | zero =>
    obtain ⟨l, hi⟩ := wf_zero.1 h
    rw [hi.slots]
    obtain ⟨b, rfl, hb⟩ := hi
    exact CB.freeSpace_ok hb
  | succ n =>
    obtain ⟨ks, h⟩ := wf_succ.1 h
    have hl := h.le
    rw [h.slots]
    obtain ⟨s, c, rfl, h1, h2, h3⟩ := h
    rw [Node.freeSlots, h2.len_eq, usub_ok hl]

theorem Wf.isFull {n : Nat} {nd : Node α} (h : Wf n nd) :
    nd.isFull = .ok (decide (nd.slots = 64)) := by
  rw [Node.isFull, h.freeSlots]
  have := h.slots_le
  simp only [ok_bind]
  congr 1
  rw [Bool.eq_iff_iff]
  simp; omega

theorem emptyLeaf_items : Items (emptyLeaf : Node α) [] := ⟨_, rfl, CB.rep_new⟩

theorem emptyInternal_ok (n : Nat) : ∃ nd, (emptyInternal (n + 1) : M (Node α)) = .ok nd ∧
    Kids n nd [] := by
  unfold emptyInternal
  rw [massert_ok (by simp)]
  by_cases h : n = 0
  · subst h
    exact ⟨_, rfl, _, _, rfl, SizeTable.rep_new _, CB.rep_new, by simp⟩
  · refine ⟨.internal (SizeTable.new (n + 1)) .internals CB.new, ?_, SizeTable.new (n + 1), CB.new, ?_,
      SizeTable.rep_new _, CB.rep_new, by simp⟩
    · simp [h]
    · simp [tagFor, h]

theorem Items.newEmpty {nd : Node α} {l} (h : Items nd l) : Items nd.newEmpty [] := by
  obtain ⟨b, rfl, h⟩ := h
  exact emptyLeaf_items

theorem Kids.newEmpty {n} {nd : Node α} {l} (h : Kids n nd l) : Kids n nd.newEmpty [] := by
  obtain ⟨s, c, rfl, h1, h2, h3⟩ := h
  refine ⟨_, _, rfl, ?_, CB.rep_new, by simp⟩
  rw [h1.1]; exact SizeTable.rep_new _

theorem Wf.newEmpty {n} {nd : Node α} (h : Wf n nd) :
    Wf n nd.newEmpty ∧ nd.newEmpty.toList = [] ∧ nd.newEmpty.slots = 0 := by
  cases n with
  | zero =>
    obtain ⟨l, h⟩ := wf_zero.1 h
    exact ⟨h.newEmpty.wf, h.newEmpty.toList, h.newEmpty.slots⟩
  | succ n =>
    obtain ⟨l, h⟩ := wf_succ.1 h
    exact ⟨h.newEmpty.wf, h.newEmpty.toList, h.newEmpty.slots⟩

/-! ### Sharing -/

theorem shareSizes_ok (sd : Side) {n : Nat} : ∀ (mv rest dl : List Nat) {s d : SizeTable},
    s.Rep n (sd.add mv rest) → d.Rep n dl → mv.length + dl.length ≤ 64 →
    ∃ s' d', shareSizes sd mv.length s d = .ok (s', d') ∧ s'.Rep n rest ∧
      d'.Rep n (sd.negate.add mv dl) := by
  cases sd with
  | front =>
    intro mv
    induction mv with
    | nil => intro rest dl s d h1 h2 _; exact ⟨s, d, rfl, by simpa using h1, by simpa using h2⟩
    | cons x mv ih =>
      intro rest dl s d h1 h2 hl
      obtain ⟨s1, e1, r1⟩ := SizeTable.popChild_ok (s := .front) (x := x) (l := mv ++ rest)
        (by simpa [Side.add, Side.cons] using h1)
      obtain ⟨d1, e2, r2⟩ := SizeTable.pushChild_ok h2 .back x (by simp at hl; omega)
      obtain ⟨s', d', e, ra, rb⟩ := ih rest _ (s := s1) (by simpa [Side.add] using r1) r2
        (by simp at hl ⊢; omega)
      exact ⟨s', d', by simp [shareSizes, e1, e2, e], ra, by simpa [Side.add, Side.cons] using rb⟩
  | back =>
    intro mv
    induction h : mv.length generalizing mv with
    | zero =>
      intro rest dl s d h1 h2 _
      obtain rfl := List.eq_nil_of_length_eq_zero h
      exact ⟨s, d, rfl, by simpa using h1, by simpa using h2⟩
    | succ m ih =>
      intro rest dl s d h1 h2 hl
      rcases List.eq_nil_or_concat mv with rfl | ⟨mv, x, rfl⟩
      · simp at h
      simp at h
      obtain ⟨s1, e1, r1⟩ := SizeTable.popChild_ok (s := .back) (x := x) (l := rest ++ mv)
        (by simpa [Side.add, Side.cons] using h1)
      obtain ⟨d1, e2, r2⟩ := SizeTable.pushChild_ok h2 .front x (by omega)
      obtain ⟨s', d', e, ra, rb⟩ := ih mv h rest _ (s := s1) (by simpa [Side.add] using r1) r2
        (by simp; omega)
      exact ⟨s', d', by simp [shareSizes, e1, e2, e], ra, by simpa [Side.add, Side.cons] using rb⟩

theorem Items.share {a b : Node α} {l1 l2 : List α} (h1 : Items a l1) (h2 : Items b l2) (sd : Side)
    (len : Nat) : ∃ mv rest a' b', l1 = sd.add mv rest ∧
      mv.length = min (min len l1.length) (64 - l2.length) ∧
      a.shareChildrenWith b sd len = .ok (mv.length, a', b') ∧ Items a' rest ∧
      Items b' (sd.negate.add mv l2) := by
  obtain ⟨x, rfl, h1⟩ := h1
  obtain ⟨y, rfl, h2⟩ := h2
  obtain ⟨mv, rest, x', y', e1, e2, e3, r1, r2⟩ := CB.decantInto_ok h1 h2 sd len
  exact ⟨mv, rest, _, _, e1, e2, by simp [shareChildrenWith, e3], ⟨_, rfl, r1⟩, ⟨_, rfl, r2⟩⟩

theorem Kids.share {n : Nat} {a b : Node α} {l1 l2} (h1 : Kids n a l1) (h2 : Kids n b l2)
    (sd : Side) (len : Nat) : ∃ mv rest a' b', l1 = sd.add mv rest ∧
      mv.length = min (min len l1.length) (64 - l2.length) ∧
      a.shareChildrenWith b sd len = .ok (mv.length, a', b') ∧ Kids n a' rest ∧
      Kids n b' (sd.negate.add mv l2) := by
  have hle2 := h2.le
  obtain ⟨s, c, rfl, hs, hc, hw⟩ := h1
  obtain ⟨s', c', rfl, hs', hc', hw'⟩ := h2
  obtain ⟨mv, rest, x', y', e1, e2, e3, r1, r2⟩ := CB.decantInto_ok hc hc' sd len
  have hs2 : s.Rep (n + 1) (sd.add (mv.map size) (rest.map size)) := by
    rw [e1] at hs; cases sd <;> simpa [Side.add] using hs
  obtain ⟨s1, s2, e4, q1, q2⟩ := shareSizes_ok sd (mv.map size) (rest.map size) (l2.map size) hs2 hs'
    (by simp; omega)
  have hmem : ∀ k, k ∈ l1 ↔ k ∈ mv ∨ k ∈ rest := by
    intro k; rw [e1]; cases sd <;> simp [Side.add]; tauto
  refine ⟨mv, rest, .internal s1 (tagFor (n + 1)) x', .internal s2 (tagFor (n + 1)) y', e1, e2, ?_,
    ⟨s1, x', rfl, q1, r1, fun k hk => hw k ((hmem k).2 (.inr hk))⟩,
    ⟨s2, y', rfl, ?_, r2, ?_⟩⟩
  · simp only [shareChildrenWith]
    rw [massert_ok (by simp [hs.1, hs'.1]),
      massert_ok (by simp [hc.len_eq, hs.len]), massert_ok (by simp)]
    simp only [ok_bind, e3]
    by_cases hm : mv = []
    · subst hm
      simp [shareSizes] at e4
      simp [e4]
    · rw [if_pos (by simpa using hm)]
      rw [List.length_map] at e4
      simp [e4]
  · cases sd <;> simpa [Side.add] using q2
  · intro k hk
    have : k ∈ mv ∨ k ∈ l2 := by
      cases sd <;> simp [Side.add] at hk <;> tauto
    rcases this with h | h
    · exact hw k ((hmem k).2 (.inl h))
    · exact hw' k h

theorem share_ok {n : Nat} {a b : Node α} (h1 : Wf n a) (h2 : Wf n b) (sd : Side) (len : Nat) :
    ∃ k a' b', a.shareChildrenWith b sd len = .ok (k, a', b') ∧ Wf n a' ∧ Wf n b' ∧
      k = min (min len a.slots) (64 - b.slots) ∧ a'.slots = a.slots - k ∧ b'.slots = b.slots + k ∧
      ∃ mv, a.toList = sd.add mv a'.toList ∧ b'.toList = sd.negate.add mv b.toList := by
  cases n with
  | zero =>
    obtain ⟨l1, h1⟩ := wf_zero.1 h1
    obtain ⟨l2, h2⟩ := wf_zero.1 h2
    obtain ⟨mv, rest, a', b', e1, e2, e3, r1, r2⟩ := h1.share h2 sd len
    have hl := congrArg List.length e1
    simp at hl
    refine ⟨_, a', b', e3, r1.wf, r2.wf, ?_, ?_, ?_, mv, ?_, ?_⟩
    · rw [h1.slots, h2.slots, e2]
    · rw [h1.slots, r1.slots]; omega
    · rw [h2.slots, r2.slots]; simp; omega
    · rw [h1.toList, r1.toList, e1]
    · rw [h2.toList, r2.toList]
  | succ n =>
    obtain ⟨l1, h1⟩ := wf_succ.1 h1
    obtain ⟨l2, h2⟩ := wf_succ.1 h2
    obtain ⟨mv, rest, a', b', e1, e2, e3, r1, r2⟩ := h1.share h2 sd len
    have hl := congrArg List.length e1
    simp at hl
    refine ⟨_, a', b', e3, r1.wf, r2.wf, ?_, ?_, ?_, mv.flatMap Node.toList, ?_, ?_⟩
    · rw [h1.slots, h2.slots, e2]
    · rw [h1.slots, r1.slots]; omega
    · rw [h2.slots, r2.slots]; simp; omega
    · rw [h1.toList, r1.toList, e1]; cases sd <;> simp [Side.add]
    · rw [h2.toList, r2.toList]; cases sd <;> simp [Side.add]

/-! ### Adding and removing children -/

theorem checkTag_ok {n : Nat} {nd : Node α} (h : Wf n nd) : checkTag (tagFor (n + 1)) nd = .ok () := by
  cases n with
  | zero => obtain ⟨l, b, rfl, h⟩ := wf_zero.1 h; rfl
  | succ n => obtain ⟨l, s, c, rfl, h, _⟩ := wf_succ.1 h; rfl

theorem Kids.push {n : Nat} {nd c : Node α} {ks} (h : Kids n nd ks) (sd : Side) (hc : Wf n c)
    (hne : c.toList ≠ []) (hl : ks.length < 64) :
    ∃ nd', nd.pushChild sd c = .ok nd' ∧ Kids n nd' (sd.cons c ks) := by
  obtain ⟨s, ch, rfl, h1, h2, h3⟩ := h
  obtain ⟨s', e1, q1⟩ := SizeTable.pushChild_ok h1 sd c.toList.length (by simpa using hl)
  obtain ⟨c', e2, q2⟩ := CB.push_ok h2 sd c hl
  refine ⟨.internal s' (tagFor (n + 1)) c', ?_, s', c', rfl, ?_, q2, ?_⟩
  · simp [pushChild, hc.len, e1, checkTag_ok hc, e2]
  · cases sd <;> simpa [Side.cons, size] using q1
  · intro k hk
    have : k = c ∨ k ∈ ks := by cases sd <;> simp [Side.cons] at hk <;> tauto
    rcases this with rfl | h
    · exact ⟨hc, hne⟩
    · exact h3 k h

theorem Kids.pop {n : Nat} {nd c : Node α} {ks} {sd : Side} (h : Kids n nd (sd.cons c ks)) :
    ∃ nd', nd.popChild sd = .ok (c, nd') ∧ Kids n nd' ks := by
  obtain ⟨s, ch, rfl, h1, h2, h3⟩ := h
  have h1' : s.Rep (n + 1) (sd.cons (size c) (ks.map size)) := by
    cases sd <;> simpa [Side.cons] using h1
  obtain ⟨s', e1, q1⟩ := SizeTable.popChild_ok h1'
  obtain ⟨c', e2, q2⟩ := CB.pop_ok h2
  refine ⟨.internal s' (tagFor (n + 1)) c', ?_, s', c', rfl, q1, q2, ?_⟩
  · simp [popChild, e1, e2]
  · intro k hk
    exact h3 k (by cases sd <;> simp [Side.cons, hk])

theorem pushChild_ok {n : Nat} {nd c : Node α} (h : Wf (n + 1) nd) (sd : Side) (hc : Wf n c)
    (hne : c.toList ≠ []) (hl : nd.slots < 64) :
    ∃ nd', nd.pushChild sd c = .ok nd' ∧ Wf (n + 1) nd' ∧ nd'.slots = nd.slots + 1 ∧
      nd'.toList = sd.add c.toList nd.toList := by
  obtain ⟨ks, h⟩ := wf_succ.1 h
  obtain ⟨nd', e, r⟩ := h.push sd hc hne (by rw [← h.slots]; exact hl)
  refine ⟨nd', e, r.wf, by rw [r.slots, h.slots]; simp, ?_⟩
  rw [r.toList, h.toList]
  cases sd <;> simp [Side.cons, Side.add]

theorem popChild_ok {n : Nat} {nd : Node α} (h : Wf (n + 1) nd) (sd : Side) (hl : nd.slots ≠ 0) :
    ∃ c nd', nd.popChild sd = .ok (c, nd') ∧ Wf n c ∧ c.toList ≠ [] ∧ Wf (n + 1) nd' ∧
      nd'.slots + 1 = nd.slots ∧ nd.toList = sd.add c.toList nd'.toList := by
  obtain ⟨ks, h⟩ := wf_succ.1 h
  rw [h.slots] at hl
  obtain ⟨c, ks, rfl⟩ := sd.exists_cons (l := ks) (by rintro rfl; simp at hl)
  obtain ⟨nd', e, r⟩ := h.pop
  have hc := h.child (k := c) (by cases sd <;> simp [Side.cons])
  refine ⟨c, nd', e, hc.1, hc.2, r.wf, by rw [r.slots, h.slots]; simp, ?_⟩
  rw [r.toList, h.toList]
  cases sd <;> simp [Side.cons, Side.add]

theorem leafPush_ok {nd : Node α} (h : Wf 0 nd) (sd : Side) (x : α) (hl : nd.slots < 64) :
    ∃ nd', nd.leafPush sd x = .ok nd' ∧ Wf 0 nd' ∧ nd'.slots = nd.slots + 1 ∧
      nd'.toList = sd.cons x nd.toList := by
  obtain ⟨l, h⟩ := wf_zero.1 h
  rw [h.slots] at hl
  rw [h.slots, h.toList]
  clear * - h hl
  obtain ⟨b, rfl, h⟩ := h
  obtain ⟨b', e, r⟩ := CB.push_ok h sd x hl
  have hi : Items (.leaf b') (sd.cons x l) := ⟨_, rfl, r⟩
  exact ⟨.leaf b', by simp [leafPush, e], hi.wf, by rw [hi.slots]; simp, hi.toList⟩

theorem leafPop_ok {nd : Node α} (h : Wf 0 nd) (sd : Side) (hl : nd.slots ≠ 0) :
    ∃ x nd', nd.leafPop sd = .ok (x, nd') ∧ Wf 0 nd' ∧ nd'.slots + 1 = nd.slots ∧
      nd.toList = sd.cons x nd'.toList := by
  obtain ⟨l, h⟩ := wf_zero.1 h
  rw [h.slots] at hl
  rw [h.slots, h.toList]
  obtain ⟨b, rfl, h⟩ := h
  obtain ⟨x, l, rfl⟩ := sd.exists_cons (l := l) (by rintro rfl; simp at hl)
  obtain ⟨b', e, r⟩ := CB.pop_ok h
  have hi : Items (.leaf b') l := ⟨_, rfl, r⟩
  exact ⟨x, .leaf b', by simp [leafPop, e], hi.wf, by rw [hi.slots]; simp, by rw [hi.toList]⟩

end Node
end Librrb
