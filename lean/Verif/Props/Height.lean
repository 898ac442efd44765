import Verif.Proof.DenseSplit
import Verif.Proof.Tall
import Verif.Props.Vector

/-!
# C44: the tree stays low without concatenation; C47: concatenation makes it high

`Unjoined` vectors are those made without concatenation: pushes and pops at either end, writes,
collecting an iterator, `split_off` and the slices, in any order.
-/
namespace Librrb

open RVec

/-- The vectors that calls other than concatenations produce. -/
inductive Unjoined {α : Type} : RVec α → Prop
  | new : Unjoined RVec.new
  | singleton {x v} : RVec.singleton x = .ok v → Unjoined v
  | collect {items v} : fromIter items = .ok v → Unjoined v
  | pushBack {v x v'} : Unjoined v → v.pushBack x = .ok v' → Unjoined v'
  | pushFront {v x v'} : Unjoined v → v.pushFront x = .ok v' → Unjoined v'
  | popBack {v r v'} : Unjoined v → v.popBack = .ok (r, v') → Unjoined v'
  | popFront {v r v'} : Unjoined v → v.popFront = .ok (r, v') → Unjoined v'
  | set {v i x v'} : Unjoined v → v.set i x = .ok (some v') → Unjoined v'
  | setEnd {v s x v'} : Unjoined v → v.setFrontBack s x = .ok (some v') → Unjoined v'
  | splitOffLeft {v i a b} : Unjoined v → v.splitOff i = .ok (a, b) → Unjoined a
  | splitOffRight {v i a b} : Unjoined v → v.splitOff i = .ok (a, b) → Unjoined b
  | sliceFromStart {v n v'} : Unjoined v → v.sliceFromStart n = .ok v' → Unjoined v'
  | sliceToEnd {v n v'} : Unjoined v → v.sliceToEnd n = .ok v' → Unjoined v'

theorem Unjoined.built {v : RVec α} (h : Unjoined v) : Built v := by
  induction h with
  | new => exact .new
  | singleton e => exact .singleton e
  | collect e => exact .collect e
  | pushBack _ e ih => exact .pushBack ih e
  | pushFront _ e ih => exact .pushFront ih e
  | popBack _ e ih => exact .popBack ih e
  | popFront _ e ih => exact .popFront ih e
  | set _ e ih => exact .set ih e
  | setEnd _ e ih => exact .setEnd ih e
  | splitOffLeft _ e ih => exact .splitOffLeft ih e
  | splitOffRight _ e ih => exact .splitOffRight ih e
  | sliceFromStart _ e ih => exact .sliceFromStart ih e
  | sliceToEnd _ e ih => exact .sliceToEnd ih e

theorem new_cap : (RVec.new : RVec α).cap ≤ (RVec.new : RVec α).toList.length := by
  rw [new_toList]; exact Nat.le_refl 0

theorem push_dense {v v' : RVec α} {h : Nat} {s : Side} {x : α} (i : InvH v h)
    (hc : v.cap ≤ v.toList.length) (e : v.pushSide s x = .ok v') : v'.cap ≤ v'.toList.length := by
  have h1 := pushSide_cap e i.length
  by_cases hlt : v.toList.length + 1 < USIZE_LIMIT
  · obtain ⟨v2, h2, e2, i2, t2, -⟩ := pushSide_ok i s x hlt
    rw [e] at e2; cases e2
    have : (s.cons x v.toList).length = v.toList.length + 1 := by cases s <;> simp [Side.cons]
    rw [t2]; omega
  · exfalso
    have hl := i.lt
    rw [i.len] at hl
    rw [pushSide_full i s x (by omega)] at e
    cases e

theorem pop_dense {v v' : RVec α} {h : Nat} {s : Side} {r : Option α} (i : InvH v h)
    (hc : v.cap ≤ v.toList.length) (e : v.popSide s = .ok (r, v')) : v'.cap ≤ v'.toList.length := by
  by_cases h0 : v.toList = []
  · rw [popSide_empty i s h0] at e
    cases e
    exact hc
  · obtain ⟨x, l, hl⟩ := s.exists_cons h0
    obtain ⟨v2, h2, e2, i2, t2, -⟩ := popSide_ok i s hl
    rw [e] at e2; cases e2
    have h1 := popSide_cap i e
    have : (s.cons x l).length = l.length + 1 := by cases s <;> simp [Side.cons]
    rw [hl] at hc
    rw [t2]; omega

theorem pushAll_dense : ∀ (l : List α) {v v' : RVec α} {h : Nat}, InvH v h → v.cap ≤ v.toList.length →
    v.pushAll l = .ok v' → v'.cap ≤ v'.toList.length := by
  intro l
  induction l with
  | nil => intro v v' h _ hc e; cases e; exact hc
  | cons x xs ih =>
    intro v v' h i hc e
    unfold pushAll at e
    obtain ⟨v1, e1, e⟩ := bind_ok e
    have hc1 := push_dense (s := .back) i hc e1
    by_cases hlt : v.toList.length + 1 < USIZE_LIMIT
    · obtain ⟨v2, h2, e2, i2, -, -⟩ := pushSide_ok i .back x hlt
      have : v1 = v2 := by
        have e1' : v.pushSide .back x = .ok v1 := e1
        rw [e2] at e1'; cases e1'; rfl
      subst this
      exact ih i2 hc1 e
    · exfalso
      have hl := i.lt
      rw [i.len] at hl
      have e1' : v.pushSide .back x = .ok v1 := e1
      rw [pushSide_full i .back x (by omega)] at e1'
      cases e1'

/-- Without concatenation every node but those of the two edges is full. -/
theorem Unjoined.dense {v : RVec α} (h : Unjoined v) : v.cap ≤ v.toList.length := by
  induction h with
  | new => exact new_cap
  | singleton e => exact push_dense (s := .back) new_inv new_cap e
  | collect e => exact pushAll_dense _ new_inv new_cap e
  | pushBack b e ih => obtain ⟨h, i⟩ := b.built.inv; exact push_dense (s := .back) i ih e
  | pushFront b e ih => obtain ⟨h, i⟩ := b.built.inv; exact push_dense (s := .front) i ih e
  | popBack b e ih => obtain ⟨h, i⟩ := b.built.inv; exact pop_dense (s := .back) i ih e
  | popFront b e ih => obtain ⟨h, i⟩ := b.built.inv; exact pop_dense (s := .front) i ih e
  | @set v idx x v' b e ih =>
    obtain ⟨h, i⟩ := b.built.inv
    have h1 := set_cap i e
    by_cases hix : idx < v.toList.length
    · obtain ⟨v2, e2, -, t⟩ := set_ok i x hix
      rw [e] at e2; cases e2
      rw [t, List.length_set]; omega
    · rw [set_none i x (by omega)] at e; cases e
  | @setEnd v s x v' b e ih =>
    obtain ⟨h, i⟩ := b.built.inv
    have h1 := setFrontBack_cap i e
    by_cases h0 : v.toList = []
    · rw [h0] at ih
      simp at ih
      omega
    · obtain ⟨y, l, hl⟩ := s.exists_cons h0
      obtain ⟨v2, e2, -, t⟩ := setFrontBack_ok i s x hl
      rw [e] at e2; cases e2
      rw [hl] at ih
      rw [t]
      cases s <;> simp [Side.cons] at ih ⊢ <;> omega
  | splitOffLeft b e ih => obtain ⟨h, i⟩ := b.built.inv; exact (splitOff_cap i ih e).1
  | splitOffRight b e ih => obtain ⟨h, i⟩ := b.built.inv; exact (splitOff_cap i ih e).2
  | sliceFromStart b e ih =>
    obtain ⟨h, i⟩ := b.built.inv
    obtain ⟨r, e1, e⟩ := bind_ok e
    cases e
    exact (splitOff_cap i ih (a := r.1) (b := r.2) e1).1
  | sliceToEnd b e ih =>
    obtain ⟨h, i⟩ := b.built.inv
    obtain ⟨r, e1, e⟩ := bind_ok e
    cases e
    exact (splitOff_cap i ih (a := r.1) (b := r.2) e1).2

/-- C44. A vector made without concatenation, of `n` items and height `h ≥ 1`, has
`n ≥ 62 * 64 ^ (h - 1)`; `height` never panics. -/
theorem C44_height {v : RVec α} (b : Unjoined v) :
    ∃ h, v.height = .ok h ∧ (1 ≤ h → 62 * 64 ^ (h - 1) ≤ v.len ∧ 64 ≤ v.len) := by
  obtain ⟨h, i⟩ := b.built.inv
  refine ⟨h, height_ok i, fun h1 => ?_⟩
  obtain ⟨k, rfl⟩ : ∃ k, h = k + 1 := ⟨h - 1, by omega⟩
  obtain ⟨g1, g2⟩ := i.height b.dense
  refine ⟨g1, ?_⟩
  cases k with
  | zero => exact g2 rfl
  | succ k =>
    have : 1 ≤ 64 ^ k := Nat.pow_pos (by omega)
    rw [Nat.pow_succ] at g1
    omega

/-- C44. So its height is at most ten, and up to 64 items sit in a single leaf. -/
theorem C44_at_most_ten {v : RVec α} (b : Unjoined v) :
    ∃ h, v.height = .ok h ∧ h ≤ 10 ∧ (v.len < 64 → h = 0) := by
  obtain ⟨h, e, hh⟩ := C44_height b
  obtain ⟨_, i⟩ := b.built.inv
  have hlt := i.lt
  refine ⟨h, e, ?_, fun hl => ?_⟩
  · apply Nat.le_of_not_lt
    intro h11
    have h1 := (hh (by omega)).1
    have h2 : 64 ^ 10 * 64 ^ (h - 11) = 64 ^ (h - 1) := by
      rw [← Nat.pow_add]; congr 1; omega
    have h3 : 1 ≤ 64 ^ (h - 11) := Nat.pow_pos (by omega)
    have h4 : 64 ^ 10 * 1 ≤ 64 ^ 10 * 64 ^ (h - 11) := Nat.mul_le_mul_left _ h3
    omega
  · apply Nat.eq_zero_of_not_pos
    intro h1
    have := (hh h1).2
    omega

/-- A vector with two levels meets the hypothesis. -/
example : ∃ v : RVec Nat, Unjoined v ∧ v.height = .ok 1 ∧ v.len = 100 := by
  have h : ((fromIter (List.range 100)).bind fun v => v.height.bind fun h => .ok (h, v.len)) =
    .ok (1, 100) := by decide +kernel
  obtain ⟨v, e1, h⟩ := bind_ok h
  obtain ⟨k, e2, h⟩ := bind_ok h
  injection h with h
  injection h with h3 h4
  exact ⟨v, .collect e1, by rw [e2, h3], h4⟩

/-! ### C47 -/

/-- Appending several vectors, one after the other. -/
def appendEach : List (RVec α) → RVec α → M (RVec α)
  | [], v => .ok v
  | w :: ws, v => do
    let v ← v.append w
    appendEach ws v

/-- C47. Concatenating `C` vectors of at least two items each, one after the other, onto a vector of
height `h ≥ 1` gives a vector of height at least `h + (C - 62) / 63`, whatever the vectors are. -/
theorem C47_concatenation_raises {v : RVec α} {h : Nat} (b : Built v) (hh : v.height = .ok h) (h1 : 1 ≤ h)
    (ws : List (RVec α)) (hb : ∀ w ∈ ws, Built w ∧ 2 ≤ w.len) (hlt : v.len + (ws.map RVec.len).sum < 2 ^ 64) :
    ∃ v' h', appendEach ws v = .ok v' ∧ Built v' ∧ v'.len = v.len + (ws.map RVec.len).sum ∧
      v'.height = .ok h' ∧ ws.length ≤ 63 * (h' - h) + 62 ∧ h ≤ h' := by
  suffices H : ∀ (ws : List (RVec α)) {v : RVec α} {h : Nat}, Built v → InvH v h → 1 ≤ h → 2 ≤ v.len →
      (∀ w ∈ ws, Built w ∧ 2 ≤ w.len) → v.len + (ws.map RVec.len).sum < 2 ^ 64 →
      ∃ v' h', appendEach ws v = .ok v' ∧ Built v' ∧ v'.len = v.len + (ws.map RVec.len).sum ∧ InvH v' h' ∧
        63 * h + v.root.slots + ws.length ≤ 63 * h' + v'.root.slots ∧ 1 ≤ h' by
    obtain ⟨h2, i⟩ := b.inv
    have := height_ok i
    rw [hh] at this
    cases this
    have h2v : 2 ≤ v.len := by
      rw [i.len]
      exact i.two_le h1
    obtain ⟨v', h', e, b', l', i', hphi, h1'⟩ := H ws b i h1 h2v hb hlt
    have hr := i'.room (by omega)
    exact ⟨v', h', e, b', l', height_ok i', by omega, by omega⟩
  intro ws
  induction ws with
  | nil => intro v h b i h1 h2 _ _; exact ⟨v, h, rfl, b, by simp, i, by simp, h1⟩
  | cons w ws ih =>
    intro v h b i h1 h2 hb hlt
    obtain ⟨bw, hw⟩ := hb w (by simp)
    obtain ⟨hw', iw⟩ := bw.inv
    simp only [List.map_cons, List.sum_cons] at hlt
    have hl : v.toList.length + w.toList.length < USIZE_LIMIT := by
      rw [← i.len, ← iw.len]; omega
    obtain ⟨v1, k1, e1, i1, t1, -⟩ := append_ok i iw hl
    have ht := append_tall i iw (by rw [← i.len]; omega) (by rw [← iw.len]; omega) h1 hl e1
    have l1 : v1.len = v.len + w.len := by rw [i1.len, t1, i.len, iw.len]; simp
    have hs := i.length .front
    have hs1 := i1.length .front
    simp only [spine_front] at hs hs1
    rw [hs, hs1] at ht
    have hroom := i.room (by omega)
    have hk1 : 1 ≤ k1 := by omega
    obtain ⟨v', h', e, b', l', i', hphi, h1'⟩ := ih (.append b bw e1) i1 hk1 (by omega)
      (fun x hx => hb x (by simp [hx])) (by omega)
    refine ⟨v', h', by simp [appendEach, e1, e], b', by simp; omega, i', ?_, h1'⟩
    simp only [List.length_cons]
    omega

/-- C47. From a hundred items on, `C` concatenations of a vector of two items leave `100 + 2 * C`
items and a tree of height at least `C / 63`. -/
theorem C47_height_linear (C : Nat) (hC : 100 + 2 * C < 2 ^ 64) :
    ∃ (v w r : RVec Nat) (h : Nat), Built v ∧ Built w ∧ v.len = 100 ∧ w.len = 2 ∧
      appendEach (List.replicate C w) v = .ok r ∧ r.len = 100 + 2 * C ∧ r.height = .ok h ∧ C ≤ 63 * h := by
  have h : ((fromIter (List.range 100)).bind fun v => (fromIter [0, 1]).bind fun w =>
      v.height.bind fun h => .ok (h, v.len, w.len)) = .ok (1, 100, 2) := by decide +kernel
  obtain ⟨v, e1, h⟩ := bind_ok h
  obtain ⟨w, e2, h⟩ := bind_ok h
  obtain ⟨k, e3, h⟩ := bind_ok h
  injection h with h
  injection h with h3 h4
  injection h4 with h4 h5
  have hs : ((List.replicate C w).map RVec.len).sum = 2 * C := by
    rw [List.map_replicate, List.sum_replicate_nat, h5, Nat.mul_comm]
  obtain ⟨r, h', g1, g2, g3, g4, g5, g6⟩ := C47_concatenation_raises (h := 1) (.collect e1) (by rw [e3, h3])
    (Nat.le_refl 1) (List.replicate C w)
    (fun x hx => by
      obtain ⟨-, rfl⟩ := List.mem_replicate.1 hx
      exact ⟨.collect e2, by omega⟩) (by rw [hs, h4]; exact hC)
  rw [List.length_replicate] at g5
  exact ⟨v, w, r, h', .collect e1, .collect e2, h4, h5, g1, by rw [g3, hs, h4], g4, by omega⟩

/-- C47. So the documented bound `O(log N + log C)` fails, even with a factor of `2 ^ 48`. -/
theorem C47_not_logarithmic (c : Nat) (hc : c ≤ 2 ^ 48) :
    ∃ (C : Nat) (v w r : RVec Nat) (h : Nat), Built v ∧ Built w ∧
      appendEach (List.replicate C w) v = .ok r ∧ r.height = .ok h ∧
      c * (Nat.log2 r.len + Nat.log2 C + 1) < h := by
  obtain ⟨v, w, r, h, b1, b2, -, -, e, l, hh, hle⟩ := C47_height_linear (2 ^ 62) (by decide)
  refine ⟨2 ^ 62, v, w, r, h, b1, b2, e, hh, ?_⟩
  have h1 : Nat.log2 r.len + Nat.log2 (2 ^ 62) + 1 ≤ 128 := by
    rw [l]
    have h2 : Nat.log2 (2 ^ 62) = 62 := by rw [Nat.log2_two_pow]
    have h3 : Nat.log2 (100 + 2 * 2 ^ 62) < 65 := by
      rw [Nat.log2_lt (by omega)]; decide
    omega
  have h4 : c * (Nat.log2 r.len + Nat.log2 (2 ^ 62) + 1) ≤ 2 ^ 48 * 128 := Nat.mul_le_mul hc h1
  omega

end Librrb
