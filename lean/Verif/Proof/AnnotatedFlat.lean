import Verif.Proof.AnnotatedSum
import Verif.Proof.AnnotatedJoin

/-!
# Annotated vectors of at most 64 items
-/
namespace Librrb

/-- What a sequence has to be for the sums to be right for certain. -/
def SmallSeq (l : List Nat) : Prop := l.length ≤ 64 ∧ l.sum < USIZE_LIMIT

/-- `append` of sequences whose lengths are at most 64 in total returns if one of the two has at most one item. -/
def JoinsWell (l m : List Nat) : Prop := l.length ≤ 1 ∨ m.length ≤ 1

instance (l m : List Nat) : Decidable (JoinsWell l m) := inferInstanceAs (Decidable (_ ∨ _))
instance (l : List Nat) : Decidable (SmallSeq l) := inferInstanceAs (Decidable (_ ∧ _))

theorem SmallSeq.left {l m : List Nat} (h : SmallSeq (l ++ m)) : SmallSeq l := by
  unfold SmallSeq at *
  simp only [List.length_append, List.sum_append] at h
  omega

theorem SmallSeq.right {l m : List Nat} (h : SmallSeq (l ++ m)) : SmallSeq m := by
  unfold SmallSeq at *
  simp only [List.length_append, List.sum_append] at h
  omega

theorem SmallSeq.take {l : List Nat} (h : SmallSeq l) (i : Nat) : SmallSeq (l.take i) :=
  SmallSeq.left (m := l.drop i) (by rwa [List.take_append_drop])

theorem SmallSeq.drop {l : List Nat} (h : SmallSeq l) (i : Nat) : SmallSeq (l.drop i) :=
  SmallSeq.right (l := l.take i) (by rwa [List.take_append_drop])

/-- A vector that is a leaf with the right sum. -/
def AVec.Flat (v : AVec) (l : List Nat) : Prop :=
  ∃ b : CB Nat, b.Rep l ∧ v = { left := [], right := [], root := .leaf b l.sum, len := l.length }

namespace AVec.Flat

theorem new : AVec.new.Flat [] := ⟨CB.new, CB.rep_new, rfl⟩

theorem len {v : AVec} {l : List Nat} (h : v.Flat l) : v.len = l.length := by
  obtain ⟨b, hb, rfl⟩ := h; rfl

theorem toList {v : AVec} {l : List Nat} (h : v.Flat l) : v.erase.toList = l := by
  obtain ⟨b, hb, rfl⟩ := h
  simp [AVec.erase, RVec.toList, hb.toList]

theorem push {v : AVec} {l : List Nat} (h : v.Flat l) (s : Side) (x : Nat) (hs : SmallSeq (s.cons x l)) :
    ∃ v', v.pushSide s x = .ok v' ∧ v'.Flat (s.cons x l) := by
  obtain ⟨b, hb, rfl⟩ := h
  obtain ⟨h3, h4⟩ := hs
  have hlen : (s.cons x l).length = l.length + 1 := by cases s <;> simp [Side.cons]
  have hsum : (s.cons x l).sum = l.sum + x := by cases s <;> simp [Side.cons, Nat.add_comm]
  rw [hlen] at h3
  rw [hsum] at h4
  obtain ⟨b', e, hb'⟩ := CB.push_ok hb s x (by omega)
  refine ⟨{ left := [], right := [], root := .leaf b' (s.cons x l).sum, len := (s.cons x l).length }, ?_, b', hb', rfl⟩
  have hf : ¬ (64 - l.length = 0) := by omega
  cases s <;> simp [AVec.pushSide, AVec.leafNode, AVec.spine, AVec.leafFreeSpace, CB.freeSpace_ok hb,
    if_neg hf, ANode.leafPush, uadd_ok h4, e, uadd_ok (show l.length + 1 < USIZE_LIMIT by omega), AVec.withLeafNode,
    hlen, hsum]

/-- A push that the sum does not have room for. -/
theorem push_full {v : AVec} {l : List Nat} (h : v.Flat l) (s : Side) (x : Nat) (hl : l.length < 64)
    (hs : ¬ (l.sum + x < USIZE_LIMIT)) : v.pushSide s x = .error .overflow := by
  obtain ⟨b, hb, rfl⟩ := h
  have hf : ¬ (64 - l.length = 0) := by omega
  cases s <;> simp [AVec.pushSide, AVec.leafNode, AVec.spine, AVec.leafFreeSpace, CB.freeSpace_ok hb,
    if_neg hf, ANode.leafPush, uadd, hs]

theorem pop {v : AVec} {l : List Nat} (h : v.Flat l) (s : Side) :
    ∃ v', v.popSide s = .ok ((takeEnd s l).1, v') ∧ v'.Flat (takeEnd s l).2 := by
  obtain ⟨b, hb, rfl⟩ := h
  by_cases hne : l = []
  · subst hne
    refine ⟨_, ?_, b, ?_, rfl⟩
    · cases s <;> simp [takeEnd, AVec.popSide, massert, AVec.spine, ANode.isEmpty, ANode.len, hb.len_eq]
    · cases s <;> simpa [takeEnd] using hb
  · obtain ⟨x, m, rfl⟩ := Side.exists_cons s hne
    obtain ⟨b', e, hb'⟩ := CB.pop_ok hb
    have hlen : (s.cons x m).length = m.length + 1 := by cases s <;> simp [Side.cons]
    have hsum : (s.cons x m).sum = m.sum + x := by cases s <;> simp [Side.cons, Nat.add_comm]
    have hsp : takeEnd s (s.cons x m) = (some x, m) := by
      cases s <;> simp [takeEnd, Side.cons]
    rw [hsp]
    refine ⟨{ left := [], right := [], root := .leaf b' m.sum, len := m.length }, ?_, b', hb', rfl⟩
    cases s <;> simp [AVec.popSide, massert, AVec.spine, ANode.isEmpty, ANode.len, hb.len_eq, hlen,
      usub_ok, ANode.leafPop, e, hsum]

theorem set {v : AVec} {l : List Nat} (h : v.Flat l) (hs : SmallSeq l) (i x : Nat) (hs' : SmallSeq (l.set i x)) :
    ∃ o, v.set true i x = .ok o ∧ (o.getD v).Flat (l.set i x) := by
  obtain ⟨b, hb, rfl⟩ := h
  obtain ⟨h1, h2⟩ := hs
  obtain ⟨h3, h4⟩ := hs'
  simp only [AVec.set, AVec.findNodeInfoForIndex]
  by_cases hi : i < l.length
  · have hr : ANode.Right 0 (.leaf b l.sum) l := ⟨b, rfl, hb⟩
    have hss := ANode.sum_set hi x
    obtain ⟨nd', e, b', rfl, hb'⟩ := hr.set hi x (by omega) h2
    refine ⟨some _, ?_, b', hb', rfl⟩
    rw [if_neg (by omega)]
    simp [AVec.findLoop, massert, hi, usub_ok, AVec.nodeAt, e, AVec.withNodeAt]
  · rw [if_pos (by omega), List.set_eq_of_length_le (by omega)]
    exact ⟨none, rfl, b, hb, rfl⟩

theorem frontBack {v : AVec} {l : List Nat} (h : v.Flat l) (s : Side) : ∃ o, v.frontBack s = .ok o := by
  obtain ⟨b, hb, rfl⟩ := h
  cases s <;> exact ⟨_, by simp [AVec.frontBack, AVec.leafNode, AVec.spine, AVec.leafEnd, CB.get_ok hb]; rfl⟩

theorem get {v : AVec} {l : List Nat} (h : v.Flat l) (i : Nat) : v.get i = .ok l[i]? := by
  obtain ⟨b, hb, rfl⟩ := h
  simp only [AVec.get, AVec.findNodeInfoForIndex]
  by_cases hi : i < l.length
  · rw [if_neg (by omega)]
    simp [AVec.findLoop, massert, hi, usub_ok, AVec.nodeAt, ANode.get, ANode.level, ANode.getAux, CB.get_ok hb]
  · rw [if_pos (by omega), ok_bind, List.getElem?_eq_none (by omega)]

theorem splitLoop : ∀ (n : Nat) {b o : CB Nat} {l m : List Nat}, b.Rep l → o.Rep m → n ≤ l.length →
    SmallSeq (m ++ l) → ∃ b' o', ANode.splitLoop n (.leaf b l.sum) (.leaf o m.sum) =
      .ok (.leaf b' (l.drop n).sum, .leaf o' (m ++ l.take n).sum) ∧ b'.Rep (l.drop n) ∧ o'.Rep (m ++ l.take n)
  | 0, b, o, l, m, hb, ho, _, _ => ⟨b, o, by simp [ANode.splitLoop], by simpa using hb, by simpa using ho⟩
  | n + 1, b, o, l, m, hb, ho, hn, hs => by
    cases l with
    | nil => simp at hn
    | cons x l =>
      obtain ⟨b', e, hb'⟩ := CB.pop_ok (s := .front) (x := x) (l := l) hb
      have hs' : SmallSeq ((m ++ [x]) ++ l) := by simpa using hs
      have h2 := hs'.left
      obtain ⟨h3, h4⟩ := h2
      simp only [List.length_append, List.length_singleton, List.sum_append, List.sum_singleton] at h3 h4
      obtain ⟨o', e', ho'⟩ := CB.push_ok ho .back x (by omega)
      obtain ⟨b2, o2, e2, hb2, ho2⟩ := splitLoop n hb' ho' (by simpa using hn) hs'
      refine ⟨b2, o2, ?_, by simpa using hb2, by simpa [Side.cons] using ho2⟩
      simp only [ANode.splitLoop, ANode.leafPop, e, ok_bind, usub_ok (show x ≤ (x :: l).sum by simp),
        ANode.leafPush, uadd_ok h4, e']
      have h5 : (x :: l).sum - x = l.sum := by simp
      have h6 : m.sum + x = (m ++ [x]).sum := by simp
      rw [h5, h6]
      simpa [Side.cons] using e2

theorem splitOff {v : AVec} {l : List Nat} (h : v.Flat l) (hs : SmallSeq l) (i : Nat) :
    ∃ a b, v.splitOff i = .ok (a, b) ∧ a.Flat (l.take i) ∧ b.Flat (l.drop i) := by
  have hlen := h.len
  unfold AVec.splitOff
  by_cases h0 : i = 0
  · subst h0
    exact ⟨_, _, rfl, .new, h⟩
  rw [if_neg (by simpa using h0)]
  by_cases hi : l.length ≤ i
  · rw [if_pos (by omega)]
    exact ⟨_, _, rfl, by rwa [List.take_of_length_le hi], by rw [List.drop_eq_nil_of_le hi]; exact .new⟩
  rw [if_neg (by omega)]
  obtain ⟨b, hb, rfl⟩ := h
  obtain ⟨b', o', e, hb', ho'⟩ := splitLoop i hb CB.rep_new (by omega) (by simpa using hs)
  simp only [List.nil_append] at e ho'
  refine ⟨{ left := [], right := [], root := .leaf o' (l.take i).sum, len := (l.take i).length },
    { left := [], right := [], root := .leaf b' (l.drop i).sum, len := (l.drop i).length }, ?_, ⟨o', ho', rfl⟩, ⟨b', hb', rfl⟩⟩
  have e' : ANode.splitLoop i (.leaf b l.sum) ANode.emptyLeaf = .ok (.leaf b' (l.drop i).sum, .leaf o' (l.take i).sum) := e
  have h1 : (l.take i).length = i := by simp; omega
  have h2 : (l.drop i).length = l.length - i := by simp
  have rep : ∀ {c : CB Nat} {m : List Nat} (s : Side), c.Rep m → m.length ≠ 0 →
      AVec.repair { left := [], right := [], root := .leaf c m.sum, len := m.length } s =
        .ok { left := [], right := [], root := .leaf c m.sum, len := m.length } := by
    intro c m s hc hm
    cases s <;>
    simp [AVec.repair, AVec.spine, AVec.dropEmpty, AVec.withSpine, AVec.popTops, ANode.isEmpty, ANode.len, hc.len_eq, hm,
      AVec.fillSpine, AVec.fillLoop, AVec.fixupSpineTops, AVec.fixupLoop, ANode.isLeaf, ANode.level, ANode.slots]
  have r1 := rep .back ho' (by omega)
  have r2 := rep .front hb' (by omega)
  rw [h1] at r1
  rw [h2] at r2
  simp [AVec.findNodeInfoForIndex, hi, AVec.findLoop, massert, usub_ok, AVec.cut, ANode.splitAtPosition, ANode.level,
    ANode.splitAtPositionAux, ANode.splitAtChild, hb.len_eq, e', show i ≤ l.length by omega, show i < l.length by omega, h1, h2, r1, r2]

theorem append {v w : AVec} {l m : List Nat} (h : v.Flat l) (h' : w.Flat m) (hj : JoinsWell l m) (hs : SmallSeq (l ++ m)) :
    ∃ u, v.append w = .ok u ∧ u.Flat (l ++ m) := by
  have hv := h.len
  have hw := h'.len
  unfold AVec.append AVec.isEmpty
  by_cases h0 : l = []
  · subst h0
    rw [if_pos (by simp [hv])]
    exact ⟨w, rfl, by simpa using h'⟩
  have h0' : l.length ≠ 0 := by simpa using h0
  rw [if_neg (by simpa [hv] using h0')]
  by_cases h1 : m = []
  · subst h1
    rw [if_pos (by simp [hw])]
    exact ⟨v, rfl, by simpa using h⟩
  have h1' : m.length ≠ 0 := by simpa using h1
  rw [if_neg (by simpa [hw] using h1')]
  by_cases h2 : l.length = 1
  · rw [if_pos (by simp [hv, h2])]
    obtain ⟨x, rfl⟩ := List.length_eq_one_iff.1 h2
    obtain ⟨v', e, -⟩ := h.pop .back
    obtain ⟨u, e', hu⟩ := h'.push .front x hs
    exact ⟨u, by simp only [AVec.popBack, e, ok_bind, takeEnd, List.getLast?_singleton, unwrap_some, AVec.pushFront, e'], hu⟩
  rw [if_neg (by simpa [hv] using h2)]
  have h3 : m.length = 1 := by unfold JoinsWell at hj; omega
  rw [if_pos (by simp [hw, h3])]
  obtain ⟨x, rfl⟩ := List.length_eq_one_iff.1 h3
  obtain ⟨v', e, -⟩ := h'.pop .back
  obtain ⟨u, e', hu⟩ := h.push .back x hs
  exact ⟨u, by simp only [AVec.popBack, e, ok_bind, takeEnd, List.getLast?_singleton, unwrap_some, AVec.pushBack, e'], hu⟩

theorem pushAll {v : AVec} {l : List Nat} (h : v.Flat l) : ∀ {m : List Nat}, SmallSeq (l ++ m) →
    ∃ u, v.pushAll m = .ok u ∧ u.Flat (l ++ m) := by
  intro m
  induction m generalizing v l with
  | nil => intro _; exact ⟨v, rfl, by simpa using h⟩
  | cons x m ih =>
    intro hs
    have hs' : SmallSeq ((l ++ [x]) ++ m) := by simpa using hs
    obtain ⟨w, e, hw⟩ := h.push .back x hs'.left
    obtain ⟨u, e', hu⟩ := ih hw hs'
    exact ⟨u, by simp only [AVec.pushAll, AVec.pushBack, e, ok_bind, e'], by simpa [Side.cons] using hu⟩

theorem runPops : ∀ (script : List Side) {v : AVec} {l : List Nat}, v.Flat l →
    ∃ r, runScript (fun s v => v.popSide s) script v = .ok r
  | [], v, l, _ => ⟨_, rfl⟩
  | s :: ss, v, l, h => by
    obtain ⟨v', e, h'⟩ := h.pop s
    obtain ⟨r, e'⟩ := runPops ss h'
    exact ⟨_, by simp only [runScript, e, ok_bind, e']; rfl⟩

theorem sum {v : AVec} {l : List Nat} (h : v.Flat l) (hs : SmallSeq l) (sb eb : Bound) (h1 : sb.first < USIZE_LIMIT)
    (h2 : eb.afterLast l.length < USIZE_LIMIT) :
    v.sum sb eb = .ok ((l.take (eb.afterLast l.length)).drop sb.first).sum := by
  obtain ⟨b, hb, rfl⟩ := h
  unfold AVec.sum
  rw [RVec.rangeStart_first h1, ok_bind, RVec.rangeEnd_afterLast h2, ok_bind]
  have hr : ANode.Right 0 (.leaf b l.sum) l := ⟨b, rfl, hb⟩
  have := AVec.sumLoop_ok (start := sb.first) (stop := eb.afterLast l.length) (ks := [.leaf b l.sum]) (acc := 0)
    (startPos := 0) (by intro nd h; simp at h; subst h; exact ⟨0, by omega, by rw [hr.toList]; exact hr⟩)
    (by simp [hb.toList]; exact hs.2)
  simpa [hb.toList, sliceSum] using this

/-- More rounds than there are items left: the index runs below zero. -/
theorem decantedItems_fails {b : CB Nat} {l : List Nat} (hb : b.Rep l) : ∀ (n i acc : Nat), i ≤ l.length → l.length < i + n →
    ANode.decantedItems b n i acc = .error .overflow
  | 0, i, acc, h1, h2 => absurd h1 (by omega)
  | n + 1, i, acc, h1, h2 => by
    simp only [ANode.decantedItems, hb.len_eq]
    rw [usub_ok h1, ok_bind]
    by_cases h : i = l.length
    · subst h
      simp [usub]
    · rw [usub_ok (by omega), ok_bind, CB.get_ok hb, ok_bind, List.getElem?_eq_getElem (by omega), unwrap_some, ok_bind]
      unfold uadd
      split
      · exact decantedItems_fails hb n (i + 1) _ (by omega) (by omega)
      · rfl

/-- Two vectors of two items or more that are leaves cannot be joined when the first leaf has room for more
than half of the items of the second. -/
theorem append_fails {v w : AVec} {l m : List Nat} (h : v.Flat l) (h' : w.Flat m) (h1 : 2 ≤ l.length) (h2 : 2 ≤ m.length)
    (hl : l.length ≤ 64) (hm : m.length < 2 * (64 - l.length)) : v.append w = .error .overflow := by
  have hv := h.len
  have hw := h'.len
  unfold AVec.append AVec.isEmpty
  rw [if_neg (by simp; omega), if_neg (by simp; omega), if_neg (by simp; omega), if_neg (by simp; omega)]
  obtain ⟨b, hb, rfl⟩ := h
  obtain ⟨c, hc, rfl⟩ := h'
  have hc64 := hc.le
  obtain ⟨moved, rest, c', b', e0, e1, e2, hc', hb'⟩ := CB.decantInto_ok hc hb .front 64
  have hlen : m.length = moved.length + rest.length := by rw [e0]; simp [Side.add]
  have hf := decantedItems_fails hc' moved.length 0 0 (by omega) (by omega)
  simp [AVec.appendMain, AVec.raiseSelf, AVec.raiseOther, massert, AVec.firstUp, AVec.appendLoop, ANode.shareChildrenWith,
    e2, hf, uadd_ok (show l.length + m.length < USIZE_LIMIT by omega), show moved ≠ [] by intro h; subst h; simp at hlen e1; omega]

end AVec.Flat
end Librrb
