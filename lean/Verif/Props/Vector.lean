import Verif.Proof.Full
import Verif.History

/-!
# Properties of the operations of a vector

Every theorem speaks about a vector that calls of the public API can produce (`Built`) and about
what is visible through `len` and `get` (`Shows`). A result `.ok …` says that the call neither
panics, nor reads an empty slot, nor loses one, nor runs forever.
-/
namespace Librrb
open RVec

/-- Every reachable vector shows exactly one sequence. -/
theorem built_shows {v : RVec α} (b : Built v) : ∃ l, Shows v l ∧ ∀ l', Shows v l' → l' = l := by
  obtain ⟨h, i⟩ := b.inv
  exact ⟨v.toList, (shows_iff i).2 rfl, fun l' h' => ((shows_iff i).1 h').symm⟩

theorem Built.length_lt {v : RVec α} {l : List α} (b : Built v) (h : Shows v l) : l.length < USIZE_LIMIT := by
  obtain ⟨k, iv⟩ := b.inv
  rw [← h.1]
  exact iv.lt

/-- Every sequence that fits is shown by a reachable vector, namely by collecting it. -/
theorem exists_built (l : List α) (hl : l.length < USIZE_LIMIT) :
    ∃ v, fromIter l = .ok v ∧ Built v ∧ Shows v l := by
  obtain ⟨v, h, e, i, t⟩ := pushAll_ok l new_inv (by simpa [new_toList] using hl)
  exact ⟨v, e, .collect e, (shows_iff i).2 (by simpa [new_toList] using t)⟩

/-- A reachable vector with 5000 items, for the examples below. -/
theorem sample : ∃ v, Built v ∧ Shows v (List.range 5000) := by
  obtain ⟨v, -, b, s⟩ := exists_built (List.range 5000) (by rw [List.length_range]; decide)
  exact ⟨v, b, s⟩

/-- Another one, of another shape: it was built from the front and then split and joined. -/
theorem sample' : ∃ v, Built v ∧ Shows v ((List.range 300).drop 100 ++ List.range 7000) := by
  obtain ⟨v, -, b, s⟩ := exists_built (List.range 300) (by rw [List.length_range]; decide)
  obtain ⟨w, -, b', s'⟩ := exists_built (List.range 7000) (by rw [List.length_range]; decide)
  obtain ⟨h, i⟩ := b.inv
  obtain ⟨h', i'⟩ := b'.inv
  obtain ⟨x, y, hx, hy, e, ix, iy, tx, ty, -⟩ := splitOff_ok i 100
  have tv := (shows_iff i).1 s
  have tw := (shows_iff i').1 s'
  obtain ⟨z, hz, e2, iz, tz, -⟩ := append_ok iy i' (by rw [ty, tw, tv]; simp)
  exact ⟨z, .append (.splitOffRight b e) b' e2, (shows_iff iz).2 (by rw [tz, ty, tw, tv])⟩

/-! ### C01 -/

/-- C01: `push_back` adds one item at the end. -/
theorem C01_push_back {v : RVec α} {l : List α} (b : Built v) (h : Shows v l) (x : α)
    (hl : l.length + 1 < USIZE_LIMIT) :
    ∃ v', v.pushBack x = .ok v' ∧ Built v' ∧ Shows v' (l ++ [x]) := by
  obtain ⟨k, i⟩ := b.inv
  obtain rfl := (shows_iff i).1 h
  obtain ⟨v', h', e, i', t, -⟩ := pushSide_ok i .back x hl
  exact ⟨v', e, .pushBack b e, (shows_iff i').2 t⟩

example : ∃ v v', Built v ∧ Shows v (List.range 5000) ∧ v.pushBack 7 = .ok v' ∧
    Shows v' (List.range 5000 ++ [7]) := by
  obtain ⟨v, b, s⟩ := sample
  obtain ⟨v', e, -, s'⟩ := C01_push_back b s 7 (by rw [List.length_range]; decide)
  exact ⟨v, v', b, s, e, s'⟩

/-- C01, the exception: at the largest length the call panics (the addition overflows). -/
theorem C01_push_back_full {v : RVec α} {l : List α} (b : Built v) (h : Shows v l) (x : α)
    (hl : ¬ l.length + 1 < USIZE_LIMIT) : v.pushBack x = .error .overflow ∧ v.pushFront x = .error .overflow := by
  obtain ⟨k, i⟩ := b.inv
  obtain rfl := (shows_iff i).1 h
  exact ⟨pushSide_full i _ _ hl, pushSide_full i _ _ hl⟩

/-! ### C02 -/

/-- C02: `push_front` adds one item at the start. -/
theorem C02_push_front {v : RVec α} {l : List α} (b : Built v) (h : Shows v l) (x : α)
    (hl : l.length + 1 < USIZE_LIMIT) :
    ∃ v', v.pushFront x = .ok v' ∧ Built v' ∧ Shows v' (x :: l) := by
  obtain ⟨k, i⟩ := b.inv
  obtain rfl := (shows_iff i).1 h
  obtain ⟨v', h', e, i', t, -⟩ := pushSide_ok i .front x hl
  exact ⟨v', e, .pushFront b e, (shows_iff i').2 t⟩

example : ∃ v v', Built v ∧ v.pushFront 7 = .ok v' ∧ Shows v' (7 :: List.range 5000) := by
  obtain ⟨v, b, s⟩ := sample
  obtain ⟨v', e, -, s'⟩ := C02_push_front b s 7 (by rw [List.length_range]; decide)
  exact ⟨v, v', b, e, s'⟩

/-! ### C03, C04 -/

/-- C03: `pop_back` returns the last item and leaves the others. -/
theorem C03_pop_back {v : RVec α} {l : List α} (b : Built v) (h : Shows v l) :
    ∃ v', v.popBack = .ok (l.getLast?, v') ∧ Built v' ∧ Shows v' l.dropLast := by
  obtain ⟨k, i⟩ := b.inv
  obtain rfl := (shows_iff i).1 h
  by_cases hn : v.toList = []
  · have e := popSide_empty i .back hn
    exact ⟨v, by rw [hn]; exact e, b, (shows_iff i).2 (by simp [hn])⟩
  · obtain ⟨x, l, hx⟩ := Side.exists_cons .back hn
    obtain ⟨v', h', e, i', t, -⟩ := popSide_ok i .back hx
    simp only [Side.cons] at hx
    have hx' : v.toList.getLast? = some x := by simp [hx]
    exact ⟨v', by rw [hx']; exact e, .popBack b e, (shows_iff i').2 (by simp [t, hx])⟩

example : ∃ v v', Built v ∧ v.popBack = .ok (some 4999, v') ∧ Shows v' (List.range 4999) := by
  obtain ⟨v, b, s⟩ := sample
  obtain ⟨v', e, -, s'⟩ := C03_pop_back b s
  rw [List.range_succ] at e s'
  exact ⟨v, v', b, by simpa using e, by simpa using s'⟩

/-- C04: `pop_front` returns the first item and leaves the others. -/
theorem C04_pop_front {v : RVec α} {l : List α} (b : Built v) (h : Shows v l) :
    ∃ v', v.popFront = .ok (l.head?, v') ∧ Built v' ∧ Shows v' l.tail := by
  obtain ⟨k, i⟩ := b.inv
  obtain rfl := (shows_iff i).1 h
  by_cases hn : v.toList = []
  · have e := popSide_empty i .front hn
    exact ⟨v, by rw [hn]; exact e, b, (shows_iff i).2 (by simp [hn])⟩
  · obtain ⟨x, l, hx⟩ := Side.exists_cons .front hn
    obtain ⟨v', h', e, i', t, -⟩ := popSide_ok i .front hx
    simp only [Side.cons] at hx
    have hx' : v.toList.head? = some x := by simp [hx]
    exact ⟨v', by rw [hx']; exact e, .popFront b e, (shows_iff i').2 (by simp [t, hx])⟩

example : ∃ v v', Built v ∧ v.popFront = .ok (some 100, v') ∧
    Shows v' ((List.range 300).drop 101 ++ List.range 7000) := by
  obtain ⟨v, b, s⟩ := sample'
  obtain ⟨v', e, -, s'⟩ := C04_pop_front b s
  rw [List.drop_eq_getElem_cons (by simp)] at e s'
  exact ⟨v, v', b, by simpa using e, by simpa using s'⟩

/-! ### C05, C06 -/

/-- C05: `len` and `is_empty` agree with what `get` shows. -/
theorem C05_len_is_empty {v : RVec α} (b : Built v) :
    ∃ l, Shows v l ∧ v.len = l.length ∧ (v.isEmpty = true ↔ l = []) ∧
      ∀ i, (∃ x, v.get i = .ok (some x)) ↔ i < v.len := by
  obtain ⟨k, i⟩ := b.inv
  refine ⟨v.toList, (shows_iff i).2 rfl, i.len, by rw [i.isEmpty]; simp, fun j => ?_⟩
  rw [get_ok i, i.len]
  constructor
  · rintro ⟨x, e⟩
    have := Except.ok.inj e
    exact (List.getElem?_eq_some_iff.1 this).1
  · intro hj
    exact ⟨v.toList[j], by rw [List.getElem?_eq_getElem hj]⟩

example : ∃ v : RVec Nat, Built v ∧ v.len = 5000 ∧ v.isEmpty = false := by
  obtain ⟨v, b, s⟩ := sample
  refine ⟨v, b, by simpa using s.1, ?_⟩
  have h := s.1
  rw [List.length_range] at h
  simp [RVec.isEmpty, h]

/-- C06: `get` reads the items in the order in which they lie in the tree (`RVec.toList`: left spine
upwards, root, right spine downwards); indexing panics exactly beyond the end. -/
theorem C06_get {v : RVec α} (b : Built v) (i : Nat) :
    v.get i = .ok v.toList[i]? ∧ (∀ hi : i < v.len, ∃ x, v.get i = .ok (some x) ∧ v.index i = .ok x) ∧
      (v.len ≤ i → v.get i = .ok none ∧ v.index i = .error .panic) := by
  obtain ⟨k, iv⟩ := b.inv
  rw [iv.len]
  refine ⟨get_ok iv i, fun hi => ?_, fun hi => ?_⟩
  · exact ⟨v.toList[i], by simp [get_ok iv, hi], by simp [RVec.index, get_ok iv, hi]⟩
  · simp [RVec.index, get_ok iv, hi, unwrap]

/-- C06, without mentioning what the vector holds: pushing an item makes it readable at the old length and nothing else. -/
theorem C06_get_push {v : RVec α} (b : Built v) (x : α) (hl : v.len + 1 < USIZE_LIMIT) :
    ∃ v', v.pushBack x = .ok v' ∧ v'.get v.len = .ok (some x) ∧
      ∀ i, i ≠ v.len → v'.get i = v.get i := by
  obtain ⟨l, s, -⟩ := built_shows b
  obtain ⟨v', e, -, s'⟩ := C01_push_back b s x (by rw [← s.1]; exact hl)
  refine ⟨v', e, by rw [s'.2, s.1]; simp, fun i hi => ?_⟩
  rw [s'.2, s.2]
  rw [s.1] at hi
  rcases Nat.lt_or_gt_of_ne hi with h | h
  · rw [List.getElem?_append_left h]
  · rw [List.getElem?_eq_none (by simp; omega), List.getElem?_eq_none (by omega)]

example : ∃ v : RVec Nat, Built v ∧ v.get 4321 = .ok (some 4321) ∧ v.get 5000 = .ok none := by
  obtain ⟨v, b, s⟩ := sample
  refine ⟨v, b, ?_, ?_⟩
  · rw [s.2]; simp
  · exact ((C06_get b 5000).2.2 (by rw [s.1]; simp)).1

/-! ### C07, C08 -/

/-- C07: writing through `get_mut` changes exactly one position. -/
theorem C07_get_mut {v : RVec α} {l : List α} (b : Built v) (h : Shows v l) (i : Nat) (x : α) :
    (i < l.length → ∃ v', v.set i x = .ok (some v') ∧ Built v' ∧ Shows v' (l.set i x)) ∧
      (l.length ≤ i → v.set i x = .ok none) := by
  obtain ⟨k, iv⟩ := b.inv
  obtain rfl := (shows_iff iv).1 h
  refine ⟨fun hi => ?_, fun hi => set_none iv x hi⟩
  obtain ⟨v', e, i', t⟩ := set_ok iv x hi
  exact ⟨v', e, .set b e, (shows_iff i').2 t⟩

example : ∃ v v', Built v ∧ v.set 77 1000 = .ok (some v') ∧ Shows v' ((List.range 5000).set 77 1000) := by
  obtain ⟨v, b, s⟩ := sample
  obtain ⟨v', e, -, s'⟩ := (C07_get_mut b s 77 1000).1 (by rw [List.length_range]; decide)
  exact ⟨v, v', b, e, s'⟩

/-- C08: `front`, `back`. -/
theorem C08_front_back {v : RVec α} {l : List α} (b : Built v) (h : Shows v l) :
    v.frontBack .front = .ok l.head? ∧ v.frontBack .back = .ok l.getLast? := by
  obtain ⟨k, i⟩ := b.inv
  obtain rfl := (shows_iff i).1 h
  exact ⟨frontBack_ok i .front, frontBack_ok i .back⟩

/-- C08: writing through `front_mut` and `back_mut`. -/
theorem C08_front_back_mut {v : RVec α} {l : List α} (b : Built v) (h : Shows v l) (x : α) :
    (l = [] → v.setFrontBack .front x = .ok none ∧ v.setFrontBack .back x = .ok none) ∧
    (l ≠ [] → (∃ v', v.setFrontBack .front x = .ok (some v') ∧ Built v' ∧ Shows v' (l.set 0 x)) ∧
      ∃ v', v.setFrontBack .back x = .ok (some v') ∧ Built v' ∧ Shows v' (l.set (l.length - 1) x)) := by
  obtain ⟨k, i⟩ := b.inv
  obtain rfl := (shows_iff i).1 h
  refine ⟨fun hn => ⟨setFrontBack_none i _ x hn, setFrontBack_none i _ x hn⟩, fun hn => ⟨?_, ?_⟩⟩
  · obtain ⟨y, l, hx⟩ := Side.exists_cons .front hn
    obtain ⟨v', e, i', t⟩ := setFrontBack_ok i .front x hx
    exact ⟨v', e, .setEnd b e, (shows_iff i').2 (by rw [t, hx]; simp [Side.cons])⟩
  · obtain ⟨y, l, hx⟩ := Side.exists_cons .back hn
    obtain ⟨v', e, i', t⟩ := setFrontBack_ok i .back x hx
    exact ⟨v', e, .setEnd b e, (shows_iff i').2 (by rw [t, hx]; simp [Side.cons])⟩

example : ∃ v v' : RVec Nat, Built v ∧ v.frontBack .front = .ok (some 100) ∧
    v.setFrontBack .front 5 = .ok (some v') ∧
    Shows v' (((List.range 300).drop 100 ++ List.range 7000).set 0 5) := by
  obtain ⟨v, b, s⟩ := sample'
  obtain ⟨⟨v', e, -, s'⟩, -⟩ := (C08_front_back_mut b s 5).2 (by
    intro h; have := congrArg List.length h; simp at this)
  refine ⟨v, v', b, ?_, e, s'⟩
  rw [(C08_front_back b s).1, List.drop_eq_getElem_cons (by simp)]
  simp

/-! ### C09, C10 -/

/-- C09: `append` concatenates. -/
theorem C09_append {v w : RVec α} {l m : List α} (bv : Built v) (bw : Built w) (hv : Shows v l)
    (hw : Shows w m) (hl : l.length + m.length < USIZE_LIMIT) :
    ∃ v', v.append w = .ok v' ∧ Built v' ∧ Shows v' (l ++ m) := by
  obtain ⟨_, iv⟩ := bv.inv
  obtain ⟨_, iw⟩ := bw.inv
  obtain rfl := (shows_iff iv).1 hv
  obtain rfl := (shows_iff iw).1 hw
  obtain ⟨v', h', e, i', t, -⟩ := append_ok iv iw hl
  exact ⟨v', e, .append bv bw e, (shows_iff i').2 t⟩

/-- C10: `prepend` concatenates the other way round. -/
theorem C10_prepend {v w : RVec α} {l m : List α} (bv : Built v) (bw : Built w) (hv : Shows v l)
    (hw : Shows w m) (hl : l.length + m.length < USIZE_LIMIT) :
    ∃ v', v.prepend w = .ok v' ∧ Built v' ∧ Shows v' (m ++ l) := by
  obtain ⟨_, iv⟩ := bv.inv
  obtain ⟨_, iw⟩ := bw.inv
  obtain rfl := (shows_iff iv).1 hv
  obtain rfl := (shows_iff iw).1 hw
  obtain ⟨v', h', e, i', t, -⟩ := prepend_ok iv iw hl
  exact ⟨v', e, .prepend bv bw e, (shows_iff i').2 t⟩

example : ∃ v w v' w', Built v ∧ Built w ∧ v.append w = .ok v' ∧ v.prepend w = .ok w' ∧
    Shows v' (List.range 5000 ++ ((List.range 300).drop 100 ++ List.range 7000)) ∧
    Shows w' (((List.range 300).drop 100 ++ List.range 7000) ++ List.range 5000) := by
  obtain ⟨v, bv, sv⟩ := sample
  obtain ⟨w, bw, sw⟩ := sample'
  obtain ⟨v', e, -, s⟩ := C09_append bv bw sv sw (by simp)
  obtain ⟨w', e', -, s'⟩ := C10_prepend bv bw sv sw (by simp)
  exact ⟨v, w, v', w', bv, bw, e, e', s, s'⟩

/-- C09 and C10, the exception: when the lengths do not fit together into a `usize`, both panic. -/
theorem C09_append_full {v w : RVec α} {l m : List α} (bv : Built v) (bw : Built w) (hv : Shows v l)
    (hw : Shows w m) (hl : ¬ l.length + m.length < USIZE_LIMIT) :
    v.append w = .error .overflow ∧ v.prepend w = .error .overflow := by
  obtain ⟨_, iv⟩ := bv.inv
  obtain ⟨_, iw⟩ := bw.inv
  obtain rfl := (shows_iff iv).1 hv
  obtain rfl := (shows_iff iw).1 hw
  exact ⟨append_full iv iw hl, append_full iw iv (by omega)⟩

/-! ### C11–C13 -/

/-- C11: `split_off` partitions. -/
theorem C11_split_off {v : RVec α} {l : List α} (b : Built v) (h : Shows v l) (k : Nat) :
    ∃ x y, v.splitOff k = .ok (x, y) ∧ Built x ∧ Built y ∧ Shows x (l.take k) ∧ Shows y (l.drop k) := by
  obtain ⟨_, i⟩ := b.inv
  obtain rfl := (shows_iff i).1 h
  obtain ⟨x, y, _, _, e, ix, iy, tx, ty, -⟩ := splitOff_ok i k
  exact ⟨x, y, e, .splitOffLeft b e, .splitOffRight b e, (shows_iff ix).2 tx, (shows_iff iy).2 ty⟩

example : ∃ v x y, Built v ∧ v.splitOff 2345 = .ok (x, y) ∧ Shows x ((List.range 5000).take 2345) ∧
    Shows y ((List.range 5000).drop 2345) := by
  obtain ⟨v, b, s⟩ := sample
  obtain ⟨x, y, e, -, -, sx, sy⟩ := C11_split_off b s 2345
  exact ⟨v, x, y, b, e, sx, sy⟩

/-- C12: `append` undoes `split_off`. -/
theorem C12_split_append {v : RVec α} {l : List α} (b : Built v) (h : Shows v l) (k : Nat) :
    ∃ x y z, v.splitOff k = .ok (x, y) ∧ x.append y = .ok z ∧ Built z ∧ Shows z l := by
  obtain ⟨x, y, e, bx, by', sx, sy⟩ := C11_split_off b h k
  obtain ⟨_, i⟩ := b.inv
  have hlt := i.lt
  have hl := h.1
  obtain ⟨z, e', bz, sz⟩ := C09_append bx by' sx sy (by simp; omega)
  exact ⟨x, y, z, e, e', bz, by simpa using sz⟩

example : ∃ v x y z : RVec Nat, Built v ∧ v.splitOff 4000 = .ok (x, y) ∧ x.append y = .ok z ∧
    Shows z ((List.range 300).drop 100 ++ List.range 7000) := by
  obtain ⟨v, b, s⟩ := sample'
  obtain ⟨x, y, z, e, e', -, sz⟩ := C12_split_append b s 4000
  exact ⟨v, x, y, z, b, e, e', sz⟩

/-- C13: `slice_from_start` and `slice_to_end`. -/
theorem C13_slices {v : RVec α} {l : List α} (b : Built v) (h : Shows v l) (k : Nat) :
    (∃ v', v.sliceFromStart k = .ok v' ∧ Built v' ∧ Shows v' (l.take k)) ∧
      ∃ v', v.sliceToEnd k = .ok v' ∧ Built v' ∧ Shows v' (l.drop k) := by
  obtain ⟨x, y, e, bx, by', sx, sy⟩ := C11_split_off b h k
  exact ⟨⟨x, by simp [sliceFromStart, e], bx, sx⟩, y, by simp [sliceToEnd, e], by', sy⟩

example : ∃ v v' v'' : RVec Nat, Built v ∧ v.sliceFromStart 70 = .ok v' ∧ Shows v' (List.range 70) ∧
    v.sliceToEnd 6000 = .ok v'' ∧ Shows v'' [] := by
  obtain ⟨v, b, s⟩ := sample
  obtain ⟨v', e, -, s'⟩ := (C13_slices b s 70).1
  obtain ⟨v'', e', -, s''⟩ := (C13_slices b s 6000).2
  exact ⟨v, v', v'', b, e, by simpa [List.take_range] using s', e',
    by rwa [List.drop_of_length_le (by simp)] at s''⟩

/-! ### C14–C16 -/

/-- C14: `extract_slice` cuts out a range. When the range ends before it starts nothing is cut out. -/
theorem C14_extract_slice {v : RVec α} {l : List α} (b : Built v) (h : Shows v l) (sb eb : Bound)
    (hs : sb.first < USIZE_LIMIT) (he : eb.afterLast l.length < USIZE_LIMIT) :
    ∃ w r, v.extractSlice sb eb = .ok (w, r) ∧ Built w ∧ Built r ∧
      (sb.first ≤ eb.afterLast l.length →
        Shows w (l.take sb.first ++ l.drop (eb.afterLast l.length)) ∧
        Shows r ((l.take (eb.afterLast l.length)).drop sb.first)) ∧
      (eb.afterLast l.length ≤ sb.first → Shows w l ∧ Shows r []) := by
  obtain ⟨_, i⟩ := b.inv
  obtain rfl := (shows_iff i).1 h
  have e1 : rangeStart sb = .ok sb.first := by
    cases sb with
    | excluded x => exact uadd_ok hs
    | _ => rfl
  have e2 : rangeEnd v.len eb = .ok (eb.afterLast v.toList.length) := by
    rw [i.len]
    cases eb with
    | included x => exact uadd_ok he
    | _ => rfl
  obtain ⟨w, r, _, _, e, iw, ir, tw, tr, -⟩ := extractSlice_ok i e1 e2
  refine ⟨w, r, e, .extractRest b e, .extractSlice b e, fun hle => ⟨?_, (shows_iff ir).2 tr⟩, fun hle => ⟨?_, ?_⟩⟩
  · refine (shows_iff iw).2 ?_
    rw [tw, List.take_take, Nat.min_eq_left hle]
  · refine (shows_iff iw).2 ?_
    rw [tw, List.take_take, Nat.min_eq_right hle, List.take_append_drop]
  · refine (shows_iff ir).2 ?_
    rw [tr]
    apply List.drop_of_length_le
    simp; omega

example : ∃ v w r : RVec Nat, Built v ∧ v.extractSlice (.included 100) (.included 2999) = .ok (w, r) ∧
    Shows w ((List.range 5000).take 100 ++ (List.range 5000).drop 3000) ∧
    Shows r (((List.range 5000).take 3000).drop 100) := by
  obtain ⟨v, b, s⟩ := sample
  obtain ⟨w, r, e, -, -, h, -⟩ := C14_extract_slice b s (.included 100) (.included 2999)
    (by decide) (by decide)
  exact ⟨v, w, r, b, e, h (by decide)⟩

/-- C15: `insert`. -/
theorem C15_insert {v : RVec α} {l : List α} (b : Built v) (h : Shows v l) (k : Nat) (x : α)
    (hl : l.length + 1 < USIZE_LIMIT) :
    ∃ v', v.insert k x = .ok v' ∧ Built v' ∧ Shows v' (l.take k ++ x :: l.drop k) := by
  obtain ⟨_, i⟩ := b.inv
  obtain rfl := (shows_iff i).1 h
  obtain ⟨v', _, e, i', t, -⟩ := insert_ok i k x hl
  exact ⟨v', e, .insert b e, (shows_iff i').2 t⟩

example : ∃ v v' : RVec Nat, Built v ∧ v.insert 64 9 = .ok v' ∧
    Shows v' ((List.range 5000).take 64 ++ 9 :: (List.range 5000).drop 64) := by
  obtain ⟨v, b, s⟩ := sample
  obtain ⟨v', e, -, s'⟩ := C15_insert b s 64 9 (by rw [List.length_range]; decide)
  exact ⟨v, v', b, e, s'⟩

/-- C15, the exception: at the largest length the call panics. -/
theorem C15_insert_full {v : RVec α} {l : List α} (b : Built v) (h : Shows v l) (k : Nat) (x : α)
    (hl : ¬ l.length + 1 < USIZE_LIMIT) : v.insert k x = .error .overflow := by
  obtain ⟨_, i⟩ := b.inv
  obtain rfl := (shows_iff i).1 h
  exact insert_full i k x hl

/-- C16: `remove`. Beyond the end nothing happens. -/
theorem C16_remove {v : RVec α} {l : List α} (b : Built v) (h : Shows v l) (k : Nat) :
    ∃ v', v.remove k = .ok (l[k]?, v') ∧ Built v' ∧ Shows v' (l.eraseIdx k) := by
  obtain ⟨_, i⟩ := b.inv
  obtain rfl := (shows_iff i).1 h
  by_cases hk : k < v.toList.length
  · obtain ⟨v', _, e, i', t, -⟩ := remove_ok i hk
    refine ⟨v', by rw [List.getElem?_eq_getElem hk]; exact e, .remove b e, (shows_iff i').2 ?_⟩
    rw [t, List.eraseIdx_eq_take_drop_succ]
  · refine ⟨v, by rw [List.getElem?_eq_none (by omega)]; exact remove_none i (by omega), b,
      (shows_iff i).2 ?_⟩
    rw [List.eraseIdx_of_length_le (by omega)]

example : ∃ v v' : RVec Nat, Built v ∧ v.remove 4000 = .ok (some 4000, v') ∧
    Shows v' ((List.range 5000).eraseIdx 4000) := by
  obtain ⟨v, b, s⟩ := sample
  obtain ⟨v', e, -, s'⟩ := C16_remove b s 4000
  exact ⟨v, v', b, by simpa using e, s'⟩

/-! ### C18 -/

/-- C18: on every reachable vector `assert_invariants` succeeds. -/
theorem C18_invariants {v : RVec α} (b : Built v) : v.assertInvariants = .ok true := by
  obtain ⟨_, i⟩ := b.inv
  exact assertInvariants_ok i

example : ∃ v : RVec Nat, Built v ∧ v.len = 5000 ∧ v.assertInvariants = .ok true := by
  obtain ⟨v, b, s⟩ := sample
  exact ⟨v, b, by simpa using s.1, C18_invariants b⟩

/-- C18: the check is not empty, it does fail on a damaged vector (here: a wrong `len`). -/
example : (match (RVec.fromIter [1, 2, 3]).bind fun v => { v with len := 4 }.assertInvariants with
    | .error .panic => true | _ => false) = true := by decide +kernel

/-! ### C27 -/

/-- C27, for lengths below `2^63`. Missing: lengths from `2^63` on, where the claim is false, see
`C27_constant_overflow`. -/
theorem C27_constant_partial (x : α) (n : Nat) (hn : n < 2 ^ 63) :
    ∃ v, constantVecOfLength x n = .ok v ∧ Built v ∧ Shows v (List.replicate n x) := by
  obtain ⟨v, h, e, i, t⟩ := constantVec_ok x hn
  exact ⟨v, e, .constant e, (shows_iff i).2 t⟩

example : ∃ v : RVec Bool, constantVecOfLength true 1000000 = .ok v ∧
    Shows v (List.replicate 1000000 true) := by
  obtain ⟨v, e, -, s⟩ := C27_constant_partial true 1000000 (by decide)
  exact ⟨v, e, s⟩

/-- C27 fails for lengths from `2^63` on: the accumulator would grow to `2^64` items and its length
overflows, although a vector of the wanted length exists in the type. -/
theorem C27_constant_overflow (x : α) (n : Nat) (hn : 2 ^ 63 ≤ n) (hn' : n < USIZE_LIMIT) :
    constantVecOfLength x n = .error .overflow :=
  have _ := hn'
  constantVec_overflow x hn

example : constantVecOfLength () (2 ^ 63) = .error .overflow :=
  C27_constant_overflow () _ (Nat.le_refl _) (by decide)

/-- There is a vector of the largest length: the exceptions at this length are reachable. -/
theorem exists_full : ∃ (v : RVec Unit) (l : List Unit), Built v ∧ Shows v l ∧ l.length = USIZE_LIMIT - 1 := by
  obtain ⟨v, -, b, s⟩ := C27_constant_partial () (2 ^ 63 - 1) (by decide)
  obtain ⟨w, -, b1, s1⟩ := C09_append b b s s (by rw [List.length_replicate]; decide)
  obtain ⟨u, -, b2, s2⟩ := C01_push_back b1 s1 () (by rw [List.length_append, List.length_replicate]; decide)
  exact ⟨u, _, b2, s2, by rw [List.length_append, List.length_append, List.length_replicate]; decide⟩

example : ∃ (v : RVec Unit), Built v ∧ v.pushBack () = .error .overflow ∧ v.append v = .error .overflow ∧
    v.insert 5 () = .error .overflow := by
  obtain ⟨v, l, b, s, hl⟩ := exists_full
  exact ⟨v, b, (C01_push_back_full b s () (by omega)).1, (C09_append_full b b s s (by omega)).1,
    C15_insert_full b s 5 () (by omega)⟩

end Librrb
