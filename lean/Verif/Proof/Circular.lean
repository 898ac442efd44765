import Verif.Model.Circular
import Verif.Proof.Basic
import Mathlib.Data.List.Basic

/-! # Ring buffers refine bounded lists -/
namespace Librrb
namespace CB

/-- `b` is a sound ring that holds exactly the sequence `l`: slot `front + i` holds `l[i]` and
all other slots are uninitialised. -/
structure Rep (b : CB α) (l : List α) : Prop where
  size : b.data.length = 64
  front_lt : b.front < 64
  len_eq : b.len = l.length
  le : l.length ≤ 64
  slot : ∀ i, i < 64 → b.data[(b.front + i) % 64]? = some l[i]?

theorem filterMap_range_getElem? (l : List α) :
    (List.range l.length).filterMap (fun i => l[i]?) = l := by
  induction l with
  | nil => rfl
  | cons x l ih =>
    rw [List.length_cons, List.range_succ_eq_map, List.filterMap_cons, List.filterMap_map]
    simp only [List.getElem?_cons_zero]
    congr 1

theorem Rep.toList {b : CB α} {l : List α} (h : Rep b l) : b.toList = l := by
  have h1 : ∀ i ∈ List.range b.len, (b.data[(b.front + i) % 64]?).join = l[i]? := by
    intro i hi
    have : i < 64 := by have := h.le; have := h.len_eq; simp at hi; omega
    rw [h.slot i this]; rfl
  unfold CB.toList
  rw [List.filterMap_congr h1, h.len_eq]
  exact filterMap_range_getElem? l

/-- The invariant of a ring. -/
def Inv (b : CB α) : Prop := Rep b b.toList

theorem Rep.inv {b : CB α} {l : List α} (h : Rep b l) : Inv b := by
  unfold Inv; rw [h.toList]; exact h

theorem Rep.unique {b : CB α} {l l' : List α} (h : Rep b l) (h' : Rep b l') : l = l' := by
  rw [← h.toList, h'.toList]

theorem Rep.read {b : CB α} {l : List α} (h : Rep b l) {i : Nat} (hi : i < l.length) :
    readSlot b.data ((b.front + i) % 64) = .ok l[i] := by
  have := h.le
  simp [readSlot, h.slot i (by omega), List.getElem?_eq_getElem hi]

theorem rep_new : Rep (new : CB α) [] := by
  refine ⟨List.length_replicate, by simp [new], rfl, by simp, fun i hi => ?_⟩
  unfold new
  rw [List.getElem?_replicate, if_pos (by omega)]; rfl

theorem tryPushBack_ok {b : CB α} {l : List α} (h : Rep b l) (x : α) (hl : l.length < 64) :
    ∃ b', b.tryPushBack x = .ok (some b') ∧ Rep b' (l ++ [x]) := by
  have h1 := h.len_eq
  have h2 := h.slot l.length hl
  have h3 : b.data[(b.front + b.len) % 64]? = some none := by
    rw [h1, h2]; simp
  have hnf : b.isFull = false := by simp [isFull]; omega
  refine ⟨{ b with data := b.data.set ((b.front + b.len) % 64) (some x), len := b.len + 1 },
    by simp [tryPushBack, hnf, initSlot, h3], ?_⟩
  constructor
  · simp [h.size]
  · exact h.front_lt
  · simp [h1]
  · simp; omega
  · intro i hi
    simp only
    rw [List.getElem?_set]
    have hs := h.size
    have hf := h.front_lt
    by_cases hc : i = l.length
    · subst hc
      simp [h1, hs]; omega
    · rw [if_neg (by omega), h.slot i hi]
      by_cases hi2 : i < l.length
      · rw [List.getElem?_append_left hi2]
      · rw [List.getElem?_eq_none (by omega), List.getElem?_eq_none (by simp; omega)]

theorem tryPushBack_full {b : CB α} {l : List α} (h : Rep b l) (x : α) (hl : l.length = 64) :
    b.tryPushBack x = .ok none := by
  simp [tryPushBack, isFull, h.len_eq, hl]

theorem pushBack_ok {b : CB α} {l : List α} (h : Rep b l) (x : α) (hl : l.length < 64) :
    ∃ b', b.pushBack x = .ok b' ∧ Rep b' (l ++ [x]) := by
  obtain ⟨b', e, h'⟩ := tryPushBack_ok h x hl
  exact ⟨b', by simp [pushBack, e], h'⟩

theorem tryPushFront_ok {b : CB α} {l : List α} (h : Rep b l) (x : α) (hl : l.length < 64) :
    ∃ b', b.tryPushFront x = .ok (some b') ∧ Rep b' (x :: l) := by
  have h1 := h.len_eq
  have hf := h.front_lt
  have hs := h.size
  have h2 := h.slot 63 (by omega)
  have h3 : b.data[(b.front + 64 - 1) % 64]? = some none := by
    rw [show b.front + 64 - 1 = b.front + 63 by omega, h2]; simp; omega
  have hnf : b.isFull = false := by simp [isFull]; omega
  refine ⟨{ front := (b.front + 64 - 1) % 64, len := b.len + 1,
            data := b.data.set ((b.front + 64 - 1) % 64) (some x) },
    by simp only [tryPushFront, hnf, initSlot, h3]; rfl, ?_⟩
  constructor
  · simp [h.size]
  · simp; omega
  · simp [h1]
  · simp; omega
  · intro i hi
    simp only
    rw [List.getElem?_set]
    by_cases hc : i = 0
    · subst hc
      simp [hs]; omega
    · rw [if_neg (by omega)]
      obtain ⟨j, rfl⟩ : ∃ j, i = j + 1 := ⟨i - 1, by omega⟩
      rw [show ((b.front + 64 - 1) % 64 + (j + 1)) % 64 = (b.front + j) % 64 by omega,
        h.slot j (by omega)]
      simp

theorem tryPushFront_full {b : CB α} {l : List α} (h : Rep b l) (x : α) (hl : l.length = 64) :
    b.tryPushFront x = .ok none := by
  simp [tryPushFront, isFull, h.len_eq, hl]

theorem pushFront_ok {b : CB α} {l : List α} (h : Rep b l) (x : α) (hl : l.length < 64) :
    ∃ b', b.pushFront x = .ok b' ∧ Rep b' (x :: l) := by
  obtain ⟨b', e, h'⟩ := tryPushFront_ok h x hl
  exact ⟨b', by simp [pushFront, e], h'⟩

theorem tryPopBack_ok {b : CB α} {l : List α} {x : α} (h : Rep b (l ++ [x])) :
    ∃ b', b.tryPopBack = .ok (some (x, b')) ∧ Rep b' l := by
  have h1 := h.len_eq
  have hle := h.le
  simp at h1 hle
  have h2 : b.data[(b.front + (b.len - 1)) % 64]? = some (some x) := by
    rw [h.slot _ (by omega), h1]; simp
  have he : b.isEmpty = false := by simp [isEmpty]; omega
  refine ⟨{ b with data := b.data.set ((b.front + (b.len - 1)) % 64) none, len := b.len - 1 }, by
    simp [tryPopBack, he, usub_ok (show 1 ≤ b.len by omega), takeSlot, h2], ?_⟩
  constructor
  · simp [h.size]
  · exact h.front_lt
  · simp [h1]
  · omega
  · intro i hi
    simp only
    rw [List.getElem?_set]
    have hs := h.size
    have hf := h.front_lt
    by_cases hc : i = l.length
    · subst hc
      simp [h1, hs]; omega
    · rw [if_neg (by omega), h.slot i hi]
      by_cases hi2 : i < l.length
      · rw [List.getElem?_append_left hi2]
      · rw [List.getElem?_eq_none (l := l) (by omega), List.getElem?_eq_none (by simp; omega)]

theorem tryPopFront_ok {b : CB α} {l : List α} {x : α} (h : Rep b (x :: l)) :
    ∃ b', b.tryPopFront = .ok (some (x, b')) ∧ Rep b' l := by
  have h1 := h.len_eq
  have hle := h.le
  have hf := h.front_lt
  simp at h1 hle
  have h2 : b.data[b.front]? = some (some x) := by
    have := h.slot 0 (by omega)
    rw [show (b.front + 0) % 64 = b.front by omega] at this
    rw [this]; rfl
  have he : b.isEmpty = false := by simp [isEmpty]; omega
  refine ⟨{ front := (b.front + 1) % 64, len := b.len - 1, data := b.data.set b.front none }, by
    simp [tryPopFront, he, usub_ok (show 1 ≤ b.len by omega), takeSlot, h2], ?_⟩
  constructor
  · simp [h.size]
  · simp; omega
  · simp [h1]
  · omega
  · intro i hi
    simp only
    rw [List.getElem?_set]
    have hs := h.size
    by_cases hc : i = 63
    · subst hc
      simp [hs]
      rw [if_pos (by omega), if_pos (by omega), List.getElem?_eq_none (by omega)]
    · rw [if_neg (by omega)]
      rw [show ((b.front + 1) % 64 + i) % 64 = (b.front + (i + 1)) % 64 by omega,
        h.slot (i + 1) (by omega)]
      simp

theorem popBack_ok {b : CB α} {l : List α} {x : α} (h : Rep b (l ++ [x])) :
    ∃ b', b.popBack = .ok (x, b') ∧ Rep b' l := by
  obtain ⟨b', e, h'⟩ := tryPopBack_ok h
  exact ⟨b', by simp [popBack, e], h'⟩

theorem popFront_ok {b : CB α} {l : List α} {x : α} (h : Rep b (x :: l)) :
    ∃ b', b.popFront = .ok (x, b') ∧ Rep b' l := by
  obtain ⟨b', e, h'⟩ := tryPopFront_ok h
  exact ⟨b', by simp [popFront, e], h'⟩

theorem tryPop_empty {b : CB α} (h : Rep b []) (s : Side) : b.tryPop s = .ok none := by
  cases s <;> simp [tryPop, tryPopBack, tryPopFront, isEmpty, h.len_eq]

theorem push_ok {b : CB α} {l : List α} (h : Rep b l) (s : Side) (x : α) (hl : l.length < 64) :
    ∃ b', b.push s x = .ok b' ∧ Rep b' (s.cons x l) := by
  cases s
  · exact pushFront_ok h x hl
  · exact pushBack_ok h x hl

theorem push_full {b : CB α} {l : List α} (h : Rep b l) (s : Side) (x : α) (hl : l.length = 64) :
    b.push s x = .error .panic := by
  cases s
  · simp [push, pushFront, tryPushFront_full h x hl]
  · simp [push, pushBack, tryPushBack_full h x hl]

theorem tryPop_ok {b : CB α} {l : List α} {s : Side} {x : α} (h : Rep b (s.cons x l)) :
    ∃ b', b.tryPop s = .ok (some (x, b')) ∧ Rep b' l := by
  cases s
  · exact tryPopFront_ok h
  · exact tryPopBack_ok h

theorem pop_ok {b : CB α} {l : List α} {s : Side} {x : α} (h : Rep b (s.cons x l)) :
    ∃ b', b.pop s = .ok (x, b') ∧ Rep b' l := by
  obtain ⟨b', e, h'⟩ := tryPop_ok h
  exact ⟨b', by simp [pop, e], h'⟩

theorem pop_empty {b : CB α} (h : Rep b []) (s : Side) : b.pop s = .error .panic := by
  simp [pop, tryPop_empty h s]

theorem get_ok {b : CB α} {l : List α} (h : Rep b l) (i : Nat) : b.get i = .ok l[i]? := by
  unfold CB.get
  have := h.len_eq
  by_cases hi : i < l.length
  · rw [if_pos (by omega)]
    simp [indexFor, h.read hi, hi]
  · rw [if_neg (by omega), List.getElem?_eq_none (by omega)]

theorem index_ok {b : CB α} {l : List α} (h : Rep b l) {i : Nat} (hi : i < l.length) :
    b.index i = .ok l[i] := by
  simp [index, get_ok h, hi]

theorem assignSlot_ok {b : CB α} {l : List α} (h : Rep b l) {i : Nat} (hi : i < l.length) (x : α) :
    ∃ d, assignSlot b.data (b.indexFor i) x = .ok d ∧ Rep { b with data := d } (l.set i x) := by
  have hle := h.le
  have hs := h.size
  have hf := h.front_lt
  have h2 : b.data[(b.front + i) % 64]? = some (some l[i]) := by
    rw [h.slot _ (by omega), List.getElem?_eq_getElem hi]
  refine ⟨b.data.set ((b.front + i) % 64) (some x), by simp [assignSlot, indexFor, h2], ?_⟩
  refine ⟨by simp [hs], hf, by simp [h.len_eq], by simpa using hle, fun j hj => ?_⟩
  simp only
  rw [List.getElem?_set, List.getElem?_set]
  by_cases hc : i = j
  · subst hc
    rw [if_pos rfl, if_pos (by omega), if_pos rfl, if_pos hi]
  · rw [if_neg (by omega), if_neg hc, h.slot j hj]

theorem set_ok {b : CB α} {l : List α} (h : Rep b l) {i : Nat} (hi : i < l.length) (x : α) :
    ∃ b', b.set i x = .ok (some b') ∧ Rep b' (l.set i x) := by
  obtain ⟨d, e, h'⟩ := assignSlot_ok h hi x
  refine ⟨_, ?_, h'⟩
  unfold CB.set
  rw [if_pos (by have := h.len_eq; omega), e]; rfl

theorem set_none {b : CB α} {l : List α} (h : Rep b l) {i : Nat} (hi : l.length ≤ i) (x : α) :
    b.set i x = .ok none := by
  unfold CB.set
  rw [if_neg (by have := h.len_eq; omega)]

theorem back_ok {b : CB α} {l : List α} (h : Rep b l) : b.back = .ok l.getLast? := by
  have h1 := h.len_eq
  rcases List.eq_nil_or_concat l with rfl | ⟨l, x, rfl⟩
  · simp [CB.back, isEmpty, h1]
  · simp at h1
    simp [CB.back, isEmpty, h1, get_ok h, usub_ok]

theorem freeSpace_ok {b : CB α} {l : List α} (h : Rep b l) : b.freeSpace = .ok (64 - l.length) := by
  rw [freeSpace, h.len_eq, usub_ok h.le]

theorem isEmpty_eq {b : CB α} {l : List α} (h : Rep b l) : b.isEmpty = l.isEmpty := by
  have h1 := h.len_eq
  cases l <;> simp_all [CB.isEmpty]

theorem isFull_eq {b : CB α} {l : List α} (h : Rep b l) : b.isFull = decide (l.length = 64) := by
  have h1 := h.len_eq
  rw [isFull, h1]; rfl

theorem Rep.slot_inj {b : CB α} {l : List α} (_ : Rep b l) {i j : Nat} (hi : i < 64) (hj : j < 64)
    (h : b.indexFor i = b.indexFor j) : i = j := by
  unfold indexFor at h; omega

theorem pairMut_ok {b : CB α} {l : List α} (h : Rep b l) {i j : Nat} (hij : i ≠ j)
    (hi : i < l.length) (hj : j < l.length) :
    b.pairMut i j = .ok (b.indexFor i, b.indexFor j) := by
  have h1 := h.len_eq
  have hle := h.le
  have hs := h.size
  have hne : b.indexFor i ≠ b.indexFor j := fun e => hij (h.slot_inj (by omega) (by omega) e)
  have hlt : ∀ k, b.indexFor k < 64 := fun k => by unfold indexFor; omega
  have := hlt i
  have := hlt j
  unfold pairMut
  rw [massert_ok (by simpa using hij), massert_ok (by simp; omega), massert_ok (by simp; omega)]
  simp only [ok_bind]
  split
  · rw [massert_ok (by simp; omega)]; rfl
  · rw [massert_ok (by simp; omega)]; rfl

theorem decantLoop_ok (s : Side) : ∀ (n : Nat) {b d : CB α} {l1 l2 : List α}, Rep b l1 → Rep d l2 →
    n ≤ l1.length → n + l2.length ≤ 64 →
    ∃ moved rest b' d', l1 = s.add moved rest ∧ moved.length = n ∧
      decantLoop b d s n = .ok (b', d') ∧ Rep b' rest ∧ Rep d' (s.negate.add moved l2) := by
  intro n
  induction n with
  | zero =>
    intro b d l1 l2 h1 h2 _ _
    exact ⟨[], l1, b, d, by simp, rfl, rfl, h1, by simpa using h2⟩
  | succ n ih =>
    intro b d l1 l2 h1 h2 hn hm
    obtain ⟨x, l, rfl⟩ := s.exists_cons (l := l1) (by intro h; simp [h] at hn)
    obtain ⟨b1, e1, r1⟩ := pop_ok h1
    obtain ⟨d1, e2, r2⟩ := push_ok h2 s.negate x (by omega)
    simp at hn
    obtain ⟨moved, rest, b', d', rfl, hlen, e, ra, rb⟩ := ih r1 r2 (by omega) (by simp; omega)
    refine ⟨s.cons x moved, rest, b', d', ?_, by simp [hlen], ?_, ra, ?_⟩
    · cases s <;> simp [Side.cons, Side.add]
    · simp [decantLoop, e1, e2, e]
    · cases s <;> simpa [Side.cons, Side.add] using rb

theorem decantInto_ok {b d : CB α} {l1 l2 : List α} (h1 : Rep b l1) (h2 : Rep d l2) (s : Side)
    (n : Nat) :
    ∃ moved rest b' d', l1 = s.add moved rest ∧
      moved.length = min (min n l1.length) (64 - l2.length) ∧
      decantInto b d s n = .ok (moved.length, b', d') ∧ Rep b' rest ∧
      Rep d' (s.negate.add moved l2) := by
  have hb := h1.len_eq
  have hbl := h1.le
  have hdl := h2.le
  unfold decantInto
  by_cases hc : (d.isEmpty && decide (n ≥ 64)) = true
  · rw [if_pos hc]
    simp only [Bool.and_eq_true, decide_eq_true_eq] at hc
    have hl2 : l2 = [] := by
      have := h2.len_eq; rw [CB.isEmpty] at hc
      have h0 : l2.length = 0 := by have := hc.1; simp at this; omega
      exact List.eq_nil_of_length_eq_zero h0
    subst hl2
    refine ⟨l1, [], d, b, by simp, by simp; omega, by rw [hb], h2, by simpa using h1⟩
  · rw [if_neg hc, freeSpace_ok h2]
    obtain ⟨moved, rest, b', d', e1, e2, e3, r1, r2⟩ :=
      decantLoop_ok s (min (min n b.len) (64 - l2.length)) h1 h2 (by omega) (by omega)
    refine ⟨moved, rest, b', d', e1, by rw [e2, hb], ?_, r1, r2⟩
    simp only [ok_bind, e3, e2]

theorem forEachMut_ok (f : α → M α) (g : α → α) : ∀ (post pre : List α) (b : CB α),
    Rep b (pre ++ post) → (∀ x ∈ post, f x = .ok (g x)) →
    ∃ b', forEachMut f post.length { front := (b.front + pre.length) % 64, len := post.length } b
      = .ok b' ∧ Rep b' (pre ++ post.map g) := by
  intro post
  induction post with
  | nil =>
    intro pre b h _
    exact ⟨b, by simp [forEachMut, IterMut.next], h⟩
  | cons x post ih =>
    intro pre b h hf
    have hr := h.read (i := pre.length) (by simp)
    obtain ⟨d, e, h'⟩ := assignSlot_ok h (i := pre.length) (by simp) (g x)
    have hle := h.le
    simp at hle
    rw [show (pre ++ x :: post).set pre.length (g x) = (pre ++ [g x]) ++ post by simp] at h'
    obtain ⟨b', e', r⟩ := ih (pre ++ [g x]) { b with data := d } h' (fun y hy => hf y (by simp [hy]))
    refine ⟨b', ?_, by simpa using r⟩
    simp only [List.length_append, List.length_singleton] at e'
    simp at hr
    unfold indexFor at e
    simp [forEachMut, IterMut.next, usub_ok, hr, hf x (by simp), e]
    rw [← e']
    congr 2

theorem mapMut_ok {f : α → M α} {g : α → α} {b : CB α} {l : List α} (h : Rep b l)
    (hf : ∀ x ∈ l, f x = .ok (g x)) : ∃ b', mapMut f b = .ok b' ∧ Rep b' (l.map g) := by
  obtain ⟨b', e, r⟩ := forEachMut_ok f g l [] b (by simpa using h) hf
  refine ⟨b', ?_, by simpa using r⟩
  have := h.front_lt
  rw [← e, mapMut, iterMut, h.len_eq]
  simp; congr 2; omega

theorem foldIterLoop_ok {σ : Type} (f : σ → α → M σ) {b : CB α} {l : List α} (h : Rep b l) :
    ∀ (post pre : List α), l = pre ++ post → ∀ bk fuel st, post.length < fuel →
    foldIterLoop f b fuel
      { consumed := pre.length, front := (b.front + pre.length) % 64, back := bk } st =
    post.foldlM f st := by
  intro post
  induction post with
  | nil =>
    intro pre hl bk fuel st hf
    obtain ⟨fuel, rfl⟩ : ∃ k, fuel = k + 1 := ⟨fuel - 1, by simp at hf; omega⟩
    have := h.len_eq
    simp [hl] at this
    simp [foldIterLoop, CB.Iter.next, this]; rfl
  | cons x post ih =>
    intro pre hl bk fuel st hf
    obtain ⟨fuel, rfl⟩ : ∃ k, fuel = k + 1 := ⟨fuel - 1, by simp at hf; omega⟩
    have h1 := h.len_eq
    have hlt : pre.length < l.length := by simp [hl]
    have hr := h.read (i := pre.length) hlt
    have hv : l[pre.length]'hlt = x := by simp [hl]
    rw [hv] at hr
    have hne : ((pre.length == b.len) = false) := by
      simp [h1]; omega
    simp only [foldIterLoop, CB.Iter.next, hne, hr]
    simp only [Bool.false_eq_true, if_false, ok_bind, List.foldlM_cons]
    congr 1
    funext st'
    have := ih (pre ++ [x]) (by simp [hl]) bk fuel st' (by simp at hf; omega)
    simp only [List.length_append, List.length_singleton] at this
    rw [show (b.front + (pre.length + 1)) % 64 = ((b.front + pre.length) % 64 + 1) % 64 by omega] at this
    exact this

theorem foldIter_ok {σ : Type} (f : σ → α → M σ) {b : CB α} {l : List α} (h : Rep b l) (st : σ) :
    foldIter f b st = l.foldlM f st := by
  have := foldIterLoop_ok f h l [] rfl ((b.front + b.len) % 64)
    (b.len + 1) st (by have := h.len_eq; omega)
  have hf := h.front_lt
  rw [foldIter, CB.iter]
  simp only [List.length_nil] at this
  rw [show (b.front + 0) % 64 = b.front by omega] at this
  exact this

end CB
end Librrb
