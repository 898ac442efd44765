import Verif.Proof.Circular
import Verif.Spec

/-! # Iterating, cloning and dropping ring buffers -/
namespace Librrb

/-- An iterator refines taking items off a sequence when every step does. -/
theorem runScript_ok {σ β : Type} {step : Side → σ → M (Option β × σ)} (R : σ → List β → Prop)
    (hstep : ∀ s st l, R st l → ∃ st', step s st = .ok ((takeEnd s l).1, st') ∧ R st' (takeEnd s l).2) :
    ∀ (ss : List Side) {st : σ} {l : List β}, R st l →
      ∃ st', runScript step ss st = .ok ((drain ss l).1, st') ∧ R st' (drain ss l).2 := by
  intro ss
  induction ss with
  | nil => intro st l h; exact ⟨st, rfl, h⟩
  | cons s ss ih =>
    intro st l h
    obtain ⟨st1, e1, h1⟩ := hstep s st l h
    obtain ⟨st2, e2, h2⟩ := ih h1
    exact ⟨st2, by simp [runScript, e1, e2, drain], h2⟩

theorem runAll_ok {ι σ τ β : Type} {f : ι → σ → M (β × σ)} {g : ι → τ → M (β × τ)} (R : σ → τ → Prop)
    (hs : ∀ o p q, R p q → (∃ out p' q', f o p = .ok (out, p') ∧ g o q = .ok (out, q') ∧ R p' q') ∨
      (f o p = .error .panic ∧ g o q = .error .panic)) :
    ∀ (os : List ι) {p : σ} {q : τ}, R p q →
      (∃ outs p' q', runAll f os p = .ok (outs, p') ∧ runAll g os q = .ok (outs, q') ∧ R p' q') ∨
      (runAll f os p = .error .panic ∧ runAll g os q = .error .panic) := by
  intro os
  induction os with
  | nil => intro p q h; exact .inl ⟨[], p, q, rfl, rfl, h⟩
  | cons o os ih =>
    intro p q h
    rcases hs o p q h with ⟨out, p', q', e1, e2, h'⟩ | ⟨e1, e2⟩
    · rcases ih h' with ⟨outs, p2, q2, e3, e4, h2⟩ | ⟨e3, e4⟩
      · exact .inl ⟨out :: outs, p2, q2, by simp [runAll, e1, e3], by simp [runAll, e2, e4], h2⟩
      · exact .inr ⟨by simp [runAll, e1, e3], by simp [runAll, e2, e4]⟩
    · exact .inr ⟨by simp [runAll, e1], by simp [runAll, e2]⟩

theorem map_ok_eq {r : M β} {f : β → γ} {k : γ} {x : β} (h : r.map f = .ok k) (e : r = .ok x) : f x = k := by
  subst e
  injection h

theorem takeEnd_cons (s : Side) (x : α) (l : List α) : takeEnd s (s.cons x l) = (some x, l) := by
  cases s <;> simp [takeEnd, Side.cons]

theorem takeEnd_nil (s : Side) : takeEnd s ([] : List α) = (none, []) := by
  cases s <;> rfl

namespace CB

/-- The state of an `Iter` with the items `m` still to come. -/
def Iter.Has (b : CB α) (l : List α) (it : Iter) (m : List α) : Prop :=
  ∃ pre post, l = pre ++ m ++ post ∧ it.consumed = pre.length + post.length ∧
    it.front = (b.front + pre.length) % 64 ∧ it.back = (b.front + pre.length + m.length) % 64

theorem iter_has {b : CB α} {l : List α} (h : Rep b l) : Iter.Has b l b.iter l := by
  refine ⟨[], [], by simp, rfl, ?_, ?_⟩
  · have := h.front_lt; simp [iter]; omega
  · simp [iter, h.len_eq]

theorem Iter.step_ok {b : CB α} {l : List α} (h : Rep b l) (s : Side) {it : Iter} {m : List α}
    (hm : Iter.Has b l it m) :
    ∃ it', Iter.step b s it = .ok ((takeEnd s m).1, it') ∧ Iter.Has b l it' (takeEnd s m).2 := by
  obtain ⟨pre, post, hl, hc, hf, hb⟩ := hm
  have hlen := h.len_eq
  have hle := h.le
  rw [hl] at hlen hle
  simp at hlen hle
  by_cases hn : m = []
  · subst hn
    have : it.consumed = b.len := by simp at hlen; omega
    refine ⟨it, ?_, pre, post, ?_, hc, hf, ?_⟩
    · cases s <;> simp [Iter.step, Iter.next, Iter.nextBack, this, takeEnd]
    · rw [takeEnd_nil]; exact hl
    · rw [takeEnd_nil]; exact hb
  obtain ⟨x, m', rfl⟩ := s.exists_cons hn
  rw [takeEnd_cons]
  simp at hlen hle hb
  have hne : it.consumed ≠ b.len := by omega
  cases s with
  | front =>
    simp only [Side.cons] at hl
    have hr := h.read (i := pre.length) (by rw [hl]; simp)
    have hx : l[pre.length]'(by rw [hl]; simp) = x := by simp [hl]
    rw [hx, ← hf] at hr
    refine ⟨_, by simp [Iter.step, Iter.next, hne, hr]; rfl, pre ++ [x], post, by simp [hl], ?_, ?_, ?_⟩
    · simp; omega
    · simp [hf, Nat.add_assoc]
    · simp [hb]; omega
  | back =>
    simp only [Side.cons] at hl
    have hr := h.read (i := pre.length + m'.length) (by rw [hl]; simp)
    have hx : l[pre.length + m'.length]'(by rw [hl]; simp) = x := by
      simp [hl]
    rw [hx] at hr
    have hbk : (it.back + 64 - 1) % 64 = (b.front + (pre.length + m'.length)) % 64 := by omega
    refine ⟨⟨it.consumed + 1, it.front, (it.back + 64 - 1) % 64⟩, ?_, pre, x :: post, by simp [hl], ?_, hf, ?_⟩
    · simp only [Iter.step, Iter.nextBack]
      rw [hbk, hr]
      simp [hne]
    · simp; omega
    · show (it.back + 64 - 1) % 64 = (b.front + pre.length + m'.length) % 64
      omega

/-- The physical slots of a buffer that holds `n` items, in the order of the items. -/
def slots (b : CB α) : List Nat := (List.range b.len).map b.indexFor

theorem slots_nodup {b : CB α} {l : List α} (h : Rep b l) : b.slots.Nodup := by
  have := h.len_eq
  have := h.le
  unfold slots
  rw [List.Nodup, List.pairwise_map]
  refine List.Pairwise.imp_of_mem (fun {i j} hi hj hij e => hij ?_) List.nodup_range
  simp at hi hj
  exact h.slot_inj (by omega) (by omega) e

/-- The state of an `IterMut` with the slots `m` still to come. -/
def IterMut.Has (b : CB α) (it : IterMut) (m : List Nat) : Prop :=
  ∃ i, i + it.len ≤ b.len ∧ it.front = (b.front + i) % 64 ∧
    m = (List.range' i it.len).map b.indexFor

theorem iterMut_has {b : CB α} {l : List α} (h : Rep b l) : IterMut.Has b b.iterMut b.slots := by
  refine ⟨0, by simp [iterMut], ?_, ?_⟩
  · have := h.front_lt; simp [iterMut]; omega
  · simp [iterMut, slots, List.range_eq_range']

theorem IterMut.step_ok {b : CB α} {l : List α} (h : Rep b l) (s : Side) {it : IterMut} {m : List Nat}
    (hm : IterMut.Has b it m) :
    ∃ it', IterMut.step b s it = .ok ((takeEnd s m).1, it') ∧ IterMut.Has b it' (takeEnd s m).2 := by
  obtain ⟨i, hle, hf, rfl⟩ := hm
  have hlen := h.len_eq
  obtain ⟨fr, n⟩ := it
  simp only at hle hf ⊢
  cases n with
  | zero =>
    refine ⟨⟨fr, 0⟩, ?_, i, hle, hf, ?_⟩
    · cases s <;> simp [IterMut.step, IterMut.next, IterMut.nextBack, takeEnd]
    · cases s <;> simp [takeEnd]
  | succ n =>
    cases s with
    | front =>
      have hr := h.read (i := i) (by omega)
      rw [← hf] at hr
      refine ⟨⟨(fr + 1) % 64, n⟩, ?_, i + 1, by show i + 1 + n ≤ _; omega, by simp [hf]; omega, ?_⟩
      · simp only [IterMut.step, IterMut.next, takeEnd, hr]
        simp [usub, List.range'_succ, indexFor, hf]
      · simp [takeEnd, List.range'_succ]
    | back =>
      have hr := h.read (i := i + n) (by omega)
      have hidx : (fr + n + 64) % 64 = (b.front + (i + n)) % 64 := by omega
      refine ⟨⟨fr, n⟩, ?_, i, by show i + n ≤ _; omega, hf, ?_⟩
      · simp only [IterMut.step, IterMut.nextBack, takeEnd]
        rw [List.range'_concat]
        simp only [usub_ok (show 1 ≤ n + 1 by omega), Nat.add_one_sub_one, ok_bind, hidx, hr]
        simp [indexFor]
      · simp only [takeEnd]
        rw [List.range'_concat]
        simp

/-! ### Consuming iterator, forwards only -/

/-- The state of an `IntoIter` that was only moved forwards, with the items `m` still to come:
exactly those slots are live. -/
def IntoIter.Has (l : List α) (it : IntoIter α) (m : List α) : Prop :=
  ∃ pre, l = pre ++ m ∧ it.consumed = pre.length ∧ it.buffer.len = l.length ∧ l.length ≤ 64 ∧
    it.buffer.front < 64 ∧ it.front = (it.buffer.front + pre.length) % 64 ∧
    ∀ i, i < 64 → it.buffer.data[(it.buffer.front + i) % 64]? = some (if i < pre.length then none else l[i]?)

theorem intoIter_has {b : CB α} {l : List α} (h : Rep b l) : IntoIter.Has l b.intoIter l := by
  have := h.front_lt
  exact ⟨[], rfl, rfl, h.len_eq, h.le, h.front_lt, by simp [intoIter]; omega,
    fun i hi => by simpa [intoIter] using h.slot i hi⟩

theorem IntoIter.next_ok {l : List α} {it : IntoIter α} {m : List α} (hm : IntoIter.Has l it m) :
    ∃ it', it.next = .ok (m.head?, it') ∧ IntoIter.Has l it' m.tail := by
  obtain ⟨pre, rfl, hc, hlen, hle, hlt, hf, hs⟩ := hm
  have hm' : IntoIter.Has (pre ++ m) it m := ⟨pre, rfl, hc, hlen, hle, hlt, hf, hs⟩
  simp at hlen hle
  cases m with
  | nil => exact ⟨it, by simp [IntoIter.next, hc, hlen], hm'⟩
  | cons x m =>
    simp at hlen hle
    have h1 := hs pre.length (by omega)
    simp at h1
    rw [← hf] at h1
    have hne : it.consumed ≠ it.buffer.len := by omega
    refine ⟨⟨it.consumed + 1, (it.front + 1) % 64, it.back, { it.buffer with data := it.buffer.data.set it.front none }⟩,
      by simp [IntoIter.next, hne, takeSlot, h1], pre ++ [x], by simp, by simp [hc],
      by simp [hlen], by simp; omega, hlt, by simp [hf, Nat.add_assoc], ?_⟩
    intro i hi
    have h2 := hs i hi
    simp only [List.length_append, List.length_singleton]
    by_cases e : i = pre.length
    · subst e
      rw [List.getElem?_set, if_pos (by omega)]
      have : it.front < it.buffer.data.length := (List.getElem?_eq_some_iff.1 h1).1
      simp [this]
    · rw [List.getElem?_set_ne (by omega), h2]
      by_cases hi2 : i < pre.length
      · simp [hi2, show i < pre.length + 1 by omega]
      · simp [hi2, show ¬ i < pre.length + 1 by omega]

/-! ### Clone and drop -/

theorem Rep.phys {b : CB α} {l : List α} (h : Rep b l) {p : Nat} (hp : p < 64) :
    b.data[p]? = some l[(p + 64 - b.front) % 64]? := by
  have h1 := h.front_lt
  have := h.slot ((p + 64 - b.front) % 64) (by omega)
  rwa [show (b.front + (p + 64 - b.front) % 64) % 64 = p by omega] at this

theorem Rep.segment {b : CB α} {l : List α} (h : Rep b l) {lo n m : Nat} (hn : lo + n ≤ 64)
    (hm : m + n ≤ l.length) (hi : ∀ i, i < n → (lo + i + 64 - b.front) % 64 = m + i) :
    (b.data.drop lo).take n = ((l.drop m).take n).map some := by
  have hsz := h.size
  apply List.ext_getElem?
  intro i
  by_cases hin : i < n
  · rw [List.getElem?_take_of_lt hin, List.getElem?_drop, h.phys (by omega), hi i hin]
    simp [List.getElem?_take_of_lt hin, List.getElem?_eq_getElem (show m + i < l.length by omega)]
  · rw [List.getElem?_eq_none (by simp; omega), List.getElem?_eq_none (by simp; omega)]

theorem cloneLoop_ok {data : List (Option α)} : ∀ (n lo : Nat) (seg : List α) (data' : List (Option α)),
    (data.drop lo).take n = seg.map some → seg.length = n → data'.length = data.length →
    (∀ j, lo ≤ j → j < lo + n → data'[j]? = some none) →
    ∃ data'', cloneLoop data lo n data' = .ok (data'', seg) ∧ data''.length = data.length ∧
      ∀ j, data''[j]? = if lo ≤ j ∧ j < lo + n then data[j]? else data'[j]? := by
  intro n
  induction n with
  | zero =>
    intro lo seg data' _ hl hd _
    obtain rfl := List.eq_nil_of_length_eq_zero hl
    exact ⟨data', rfl, hd, fun j => by rw [if_neg (by omega)]⟩
  | succ n ih =>
    intro lo seg data' hseg hl hd hnone
    cases seg with
    | nil => simp at hl
    | cons x seg =>
      simp at hl
      have hlo : lo < data.length := by
        by_contra hc
        rw [List.drop_of_length_le (by omega)] at hseg
        simp at hseg
      rw [List.drop_eq_getElem_cons hlo, List.take_succ_cons, List.map_cons] at hseg
      injection hseg with hx hseg
      have hd0 := hnone lo (by omega) (by omega)
      obtain ⟨d2, e, l2, h2⟩ := ih (lo + 1) seg (data'.set lo (some x)) hseg hl (by simp [hd]) (by
        intro j h1 h2
        rw [List.getElem?_set_ne (by omega)]
        exact hnone j (by omega) (by omega))
      refine ⟨d2, ?_, l2, fun j => ?_⟩
      · simp [cloneLoop, readSlot, List.getElem?_eq_getElem hlo, hx, initSlot, hd0, e]
      · rw [h2 j]
        by_cases hj : j = lo
        · subst hj
          rw [if_neg (by omega), if_pos (by omega), List.getElem?_set, if_pos rfl]
          simp [List.getElem?_eq_getElem hlo, hx, hd, hlo]
        · by_cases hj2 : lo + 1 ≤ j ∧ j < lo + 1 + n
          · rw [if_pos hj2, if_pos (by omega)]
          · rw [if_neg hj2, if_neg (by omega), List.getElem?_set_ne (by omega)]

theorem clone_ok {b : CB α} {l : List α} (h : Rep b l) :
    ∃ k, b.clone = .ok (b, l.drop k ++ l.take k) := by
  have hf := h.front_lt
  have hlen := h.len_eq
  have hle := h.le
  have hsz := h.size
  -- it is enough to fill all live slots
  suffices H : ∃ k data', (if b.isFull then cloneLoop b.data 0 b.data.length (List.replicate 64 none)
      else if (b.front + b.len) % 64 ≥ b.front then
        cloneLoop b.data b.front (min b.len (b.data.length - b.front)) (List.replicate 64 none)
      else do
        let r1 ← cloneLoop b.data 0 (min ((b.front + b.len) % 64) b.data.length) (List.replicate 64 none)
        let r2 ← cloneLoop b.data b.front (b.data.length - b.front) r1.1
        .ok (r2.1, r1.2 ++ r2.2)) = .ok (data', l.drop k ++ l.take k) ∧
      data'.length = 64 ∧ ∀ j, j < 64 → data'[j]? = b.data[j]? by
    obtain ⟨k, data', e, hl', hd⟩ := H
    refine ⟨k, ?_⟩
    have : data' = b.data := by
      apply List.ext_getElem?
      intro j
      by_cases hj : j < 64
      · exact hd j hj
      · rw [List.getElem?_eq_none (by omega), List.getElem?_eq_none (by omega)]
    subst this
    simp only [clone]
    rw [e]
    rfl
  have hrep : ∀ j, j < 64 → (List.replicate 64 (none : Option α))[j]? = some none := by
    intro j hj; rw [List.getElem?_replicate, if_pos hj]
  have hrl : (List.replicate 64 (none : Option α)).length = b.data.length := by
    rw [hsz, List.length_replicate]
  by_cases hfull : l.length = 64
  · rw [if_pos (by simp [isFull_eq h, hfull])]
    have hdata : (b.data.drop 0).take b.data.length = (l.drop (64 - b.front) ++ l.take (64 - b.front)).map some := by
      have s1 := h.segment (lo := 0) (n := b.front) (m := 64 - b.front) (by omega) (by omega) (by intros; omega)
      have s2 := h.segment (lo := b.front) (n := 64 - b.front) (m := 0) (by omega) (by omega) (by intros; omega)
      rw [List.take_of_length_le (l := b.data.drop _) (by simp; omega)] at s2
      rw [List.take_of_length_le (l := l.drop _) (by simp; omega)] at s1
      simp only [List.drop_zero] at s1 s2
      rw [List.drop_zero, List.take_length, List.map_append, ← s1, ← s2, List.take_append_drop]
    obtain ⟨d, e, l2, h2⟩ := cloneLoop_ok b.data.length 0 _ (List.replicate 64 none) hdata (by simp; omega) hrl
      (by intro j _ hj; exact hrep j (by omega))
    exact ⟨_, d, e, by omega, fun j hj => by rw [h2 j, if_pos (by omega)]⟩
  · rw [if_neg (by simp [isFull_eq h, hfull])]
    by_cases hb : (b.front + b.len) % 64 ≥ b.front
    · rw [if_pos hb]
      have hnw : b.front + b.len < 64 := by omega
      have s1 := h.segment (lo := b.front) (n := b.len) (m := 0) (by omega) (by omega) (by intros; omega)
      rw [List.drop_zero, hlen, List.take_length] at s1
      obtain ⟨d, e, l2, h2⟩ := cloneLoop_ok b.len b.front l (List.replicate 64 none) (by rw [hlen]; exact s1)
        hlen.symm hrl (by intro j _ hj; exact hrep j (by omega))
      refine ⟨0, d, ?_, by omega, fun j hj => ?_⟩
      · rw [Nat.min_eq_left (by omega), e]; simp
      · rw [h2 j]
        split
        · rfl
        · rw [hrep j hj, h.phys hj, List.getElem?_eq_none (by omega)]
    · rw [if_neg hb]
      have s1 := h.segment (lo := 0) (n := (b.front + b.len) % 64) (m := 64 - b.front) (by omega) (by omega)
        (by intros; omega)
      have s2 := h.segment (lo := b.front) (n := 64 - b.front) (m := 0) (by omega) (by omega) (by intros; omega)
      rw [List.take_of_length_le (l := l.drop _) (by simp; omega)] at s1
      rw [List.drop_zero] at s2
      obtain ⟨d, e, l2, h2⟩ := cloneLoop_ok ((b.front + b.len) % 64) 0 _ (List.replicate 64 none) s1
        (by simp; omega) hrl (by intro j _ hj; exact hrep j (by omega))
      obtain ⟨d', e', l2', h2'⟩ := cloneLoop_ok (64 - b.front) b.front _ d s2
        (by simp; omega) l2 (by
          intro j h1 hj; rw [h2 j, if_neg (by omega)]; exact hrep j (by omega))
      refine ⟨64 - b.front, d', ?_, by omega, fun j hj => ?_⟩
      · rw [Nat.min_eq_left (by omega), hsz, e]
        simp only [ok_bind, e']
      · rw [h2' j]
        split
        · rfl
        · rw [h2 j]
          split
          · rfl
          · rw [hrep j hj, h.phys hj, List.getElem?_eq_none (by omega)]

theorem dropLoop_ok : ∀ (n lo : Nat) (seg : List α) (data : List (Option α)),
    (data.drop lo).take n = seg.map some → seg.length = n →
    ∃ data'', dropLoop lo n data = .ok (data'', seg) ∧ data''.length = data.length ∧
      ∀ j, data''[j]? = if lo ≤ j ∧ j < lo + n then some none else data[j]? := by
  intro n
  induction n with
  | zero =>
    intro lo seg data _ hl
    obtain rfl := List.eq_nil_of_length_eq_zero hl
    exact ⟨data, rfl, rfl, fun j => by rw [if_neg (by omega)]⟩
  | succ n ih =>
    intro lo seg data hseg hl
    cases seg with
    | nil => simp at hl
    | cons x seg =>
      simp at hl
      have hlo : lo < data.length := by
        by_contra hc
        rw [List.drop_of_length_le (by omega)] at hseg
        simp at hseg
      rw [List.drop_eq_getElem_cons hlo, List.take_succ_cons, List.map_cons] at hseg
      injection hseg with hx hseg
      obtain ⟨d2, e, l2, h2⟩ := ih (lo + 1) seg (data.set lo none) (by
        rw [List.drop_set_of_lt (by omega)]; exact hseg) hl
      refine ⟨d2, ?_, by rw [l2]; simp, fun j => ?_⟩
      · simp [dropLoop, takeSlot, List.getElem?_eq_getElem hlo, hx, e]
      · rw [h2 j]
        by_cases hj : j = lo
        · subst hj
          rw [if_neg (by omega), if_pos (by omega), List.getElem?_set, if_pos rfl]
          simp [hlo]
        · by_cases hj2 : lo + 1 ≤ j ∧ j < lo + 1 + n
          · rw [if_pos hj2, if_pos (by omega)]
          · rw [if_neg hj2, if_neg (by omega), List.getElem?_set_ne (by omega)]

theorem drop_ok {b : CB α} {l : List α} (h : Rep b l) :
    ∃ k data', b.drop = .ok (data', l.drop k ++ l.take k) ∧ data'.length = 64 ∧
      ∀ j, j < 64 → data'[j]? = some none := by
  have hf := h.front_lt
  have hlen := h.len_eq
  have hle := h.le
  have hsz := h.size
  simp only [drop]
  by_cases hfull : l.length = 64
  · rw [if_pos (by simp [isFull_eq h, hfull])]
    have hdata : (b.data.drop 0).take b.data.length = (l.drop (64 - b.front) ++ l.take (64 - b.front)).map some := by
      have s1 := h.segment (lo := 0) (n := b.front) (m := 64 - b.front) (by omega) (by omega) (by intros; omega)
      have s2 := h.segment (lo := b.front) (n := 64 - b.front) (m := 0) (by omega) (by omega) (by intros; omega)
      rw [List.take_of_length_le (l := b.data.drop _) (by simp; omega)] at s2
      rw [List.take_of_length_le (l := l.drop _) (by simp; omega)] at s1
      simp only [List.drop_zero] at s1 s2
      rw [List.drop_zero, List.take_length, List.map_append, ← s1, ← s2, List.take_append_drop]
    obtain ⟨d, e, l2, h2⟩ := dropLoop_ok b.data.length 0 _ b.data hdata (by simp; omega)
    exact ⟨_, d, e, by omega, fun j hj => by rw [h2 j, if_pos (by omega)]⟩
  · rw [if_neg (by simp [isFull_eq h, hfull])]
    by_cases hb : (b.front + b.len) % 64 ≥ b.front
    · rw [if_pos hb, massert_ok (by simp; omega)]
      have hnw : b.front + b.len < 64 := by omega
      have s1 := h.segment (lo := b.front) (n := b.len) (m := 0) (by omega) (by omega) (by intros; omega)
      rw [List.drop_zero, hlen, List.take_length] at s1
      obtain ⟨d, e, l2, h2⟩ := dropLoop_ok b.len b.front l b.data (by rw [hlen]; exact s1) hlen.symm
      refine ⟨0, d, ?_, by omega, fun j hj => ?_⟩
      · simp only [ok_bind]
        rw [show (b.front + b.len) % 64 - b.front = b.len by omega, e]; simp
      · rw [h2 j]
        split
        · rfl
        · rw [h.phys hj, List.getElem?_eq_none (by omega)]
    · rw [if_neg hb, massert_ok (by simp; omega)]
      have s1 := h.segment (lo := 0) (n := (b.front + b.len) % 64) (m := 64 - b.front) (by omega) (by omega)
        (by intros; omega)
      have s2 := h.segment (lo := b.front) (n := 64 - b.front) (m := 0) (by omega) (by omega) (by intros; omega)
      rw [List.take_of_length_le (l := l.drop _) (by simp; omega)] at s1
      rw [List.drop_zero] at s2
      obtain ⟨d, e, l2, h2⟩ := dropLoop_ok ((b.front + b.len) % 64) 0 _ b.data s1 (by simp; omega)
      have s3 : (d.drop b.front).take (64 - b.front) = (b.data.drop b.front).take (64 - b.front) := by
        apply List.ext_getElem?
        intro i
        by_cases hi : i < 64 - b.front
        · rw [List.getElem?_take_of_lt hi, List.getElem?_take_of_lt hi, List.getElem?_drop, List.getElem?_drop,
            h2, if_neg (by omega)]
        · rw [List.getElem?_eq_none (by simp; omega), List.getElem?_eq_none (by simp; omega)]
      obtain ⟨d', e', l2', h2'⟩ := dropLoop_ok (64 - b.front) b.front _ d (by rw [s3]; exact s2) (by simp; omega)
      refine ⟨64 - b.front, d', ?_, by omega, fun j hj => ?_⟩
      · simp only [ok_bind]
        rw [hsz, e]
        simp only [ok_bind, e']
      · rw [h2' j]
        split
        · rfl
        · rw [h2 j]
          split
          · rfl
          · rw [h.phys hj, List.getElem?_eq_none (by omega)]

end CB
end Librrb
