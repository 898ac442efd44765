import Verif.Proof.CloneUnwindCut
import Verif.Proof.Tall
import Verif.Proof.DenseSplit
import Verif.Props.CloneUnwind
import Verif.Props.Height

/-! # Cutting and joining when cloning an item panics

The property theorems of C58. It is C55 for the calls that cut and join vectors and for those that borrow an item. For
these last ones, and for vectors that are single leaves, it holds; for the others it does not. -/
namespace Librrb
open RVec

/-- C58: if no clone panics, the calls do what they do otherwise, whatever leaves are cloned. -/
theorem C58_quiet {v other : RVec α} {l m : List α} (b : Built v) (bo : Built other) (h : Shows v l) (ho : Shows other m)
    (cp : Copier γ α) (hq : ∀ g l, (cp g l).1 = false) (g : γ) (hlt : l.length + m.length < USIZE_LIMIT) (k : Nat) (x : α)
    (hl : l.length + 1 < USIZE_LIMIT) :
    (∃ a c g', v.splitOffC cp k g = (.ok (a, c), g') ∧ Shows a (l.take k) ∧ Shows c (l.drop k)) ∧
    (∃ v' g', v.appendC cp other g = (.ok v', g') ∧ Shows v' (l ++ m)) ∧
    (∃ v' g', v.insertC cp k x g = (.ok v', g') ∧ Shows v' (l.take k ++ x :: l.drop k)) ∧
    (∃ v' g', v.removeC cp k g = (.ok (l[k]?, v'), g') ∧ Shows v' (l.eraseIdx k)) := by
  have no : ¬ ∃ g l, (cp g l).1 = true := by
    rintro ⟨g, l, e⟩
    rw [hq] at e
    cases e
  refine ⟨?_, ?_, ?_, ?_⟩
  · obtain ⟨a, c, e, -, -, s1, s2⟩ := C11_split_off b h k
    rcases (splitOff_any (cp := cp) v k).out e g with ⟨g', r⟩ | ⟨_, _, _, _, f⟩
    · exact ⟨a, c, g', r, s1, s2⟩
    · exact absurd f no
  · obtain ⟨v', e, -, s⟩ := C09_append b bo h ho hlt
    rcases (append_any (cp := cp) v other).out e g with ⟨g', r⟩ | ⟨_, _, _, _, f⟩
    · exact ⟨v', g', r, s⟩
    · exact absurd f no
  · obtain ⟨v', e, -, s⟩ := C15_insert b h k x hl
    rcases (insert_any (cp := cp) v k x).out e g with ⟨g', r⟩ | ⟨_, _, _, _, f⟩
    · exact ⟨v', g', r, s⟩
    · exact absurd f no
  · obtain ⟨v', e, -, s⟩ := C16_remove b h k
    rcases (remove_any (cp := cp) v k).out e g with ⟨g', r⟩ | ⟨_, _, _, _, f⟩
    · exact ⟨v', g', r, s⟩
    · exact absurd f no

/-- C58: so do the slices, `extract_slice` and `prepend`. -/
theorem C58_quiet_slices {v other : RVec α} {l m : List α} (b : Built v) (bo : Built other) (h : Shows v l) (ho : Shows other m)
    (cp : Copier γ α) (hq : ∀ g l, (cp g l).1 = false) (g : γ) (hlt : l.length + m.length < USIZE_LIMIT) (k : Nat) (sb eb : Bound)
    (hs : sb.first < USIZE_LIMIT) (he : eb.afterLast l.length < USIZE_LIMIT) :
    (∃ v' g', v.prependC cp other g = (.ok v', g') ∧ Shows v' (m ++ l)) ∧
    (∃ v' g', v.sliceFromStartC cp k g = (.ok v', g') ∧ Shows v' (l.take k)) ∧
    (∃ v' g', v.sliceToEndC cp k g = (.ok v', g') ∧ Shows v' (l.drop k)) ∧
    (∃ w r g', v.extractSliceC cp sb eb g = (.ok (w, r), g') ∧
      (sb.first ≤ eb.afterLast l.length → Shows w (l.take sb.first ++ l.drop (eb.afterLast l.length)) ∧
        Shows r ((l.take (eb.afterLast l.length)).drop sb.first)) ∧
      (eb.afterLast l.length ≤ sb.first → Shows w l ∧ Shows r [])) := by
  have no : ¬ ∃ g l, (cp g l).1 = true := by
    rintro ⟨g, l, e⟩
    rw [hq] at e
    cases e
  obtain ⟨⟨x, ex, -, sx⟩, y, ey, -, sy⟩ := C13_slices b h k
  refine ⟨?_, ?_, ?_, ?_⟩
  · obtain ⟨v', e, -, s⟩ := C10_prepend b bo h ho hlt
    rcases (append_any (cp := cp) other v).out e g with ⟨g', r⟩ | ⟨_, _, _, _, f⟩
    · exact ⟨v', g', r, s⟩
    · exact absurd f no
  · have t : Tracks cp (fun _ => True) (v.sliceFromStartC cp k) (v.sliceFromStart k) := .bind (splitOff_any _ _) fun _ _ => .pure
    rcases t.out ex g with ⟨g', r⟩ | ⟨_, _, _, _, f⟩
    · exact ⟨x, g', r, sx⟩
    · exact absurd f no
  · have t : Tracks cp (fun _ => True) (v.sliceToEndC cp k) (v.sliceToEnd k) := .bind (splitOff_any _ _) fun _ _ => .pure
    rcases t.out ey g with ⟨g', r⟩ | ⟨_, _, _, _, f⟩
    · exact ⟨y, g', r, sy⟩
    · exact absurd f no
  · obtain ⟨w, r, e, -, -, s1, s2⟩ := C14_extract_slice b h sb eb hs he
    rcases (extractSlice_any (cp := cp) v sb eb).out e g with ⟨g', e'⟩ | ⟨_, _, _, _, f⟩
    · exact ⟨w, r, g', e', s1, s2⟩
    · exact absurd f no

/-- Of 100 items 80 are taken out from the middle, and leaves may be cloned eight times on the way. -/
example : ((fromIter (List.range 100)).bind fun v => .ok
      ((v.extractSliceC ⟨fun n _ => (false, n + 1), 0⟩ (.included 10) (.excluded 90) 0).2,
        (Stop.left (v.extractSliceC ⟨fun n _ => (false, n + 1), 0⟩ (.included 10) (.excluded 90) 0)).isNone)) =
    (.ok (8, true) : M (Nat × Bool)) := by
  decide +kernel

/-- A copier that counts the leaves that may be cloned: of 100 items split at 70, and of what is then removed. -/
example : ((fromIter (List.range 100)).bind fun v => .ok
      ((v.splitOffC ⟨fun n _ => (false, n + 1), 0⟩ 70 0).2, (v.removeC ⟨fun n _ => (false, n + 1), 0⟩ 50 0).2)) =
    (.ok (3, 4) : M (Nat × Nat)) := by
  decide +kernel

/-- C58: whatever items panic when they are cloned, to assign through `get_mut` does what it does otherwise, or unwinds
and leaves the vector as it was. -/
theorem C58_get_mut {v : RVec α} {l : List α} (b : Built v) (h : Shows v l) (k : Nat) (x : α) (hk : k < l.length)
    (cp : Copier γ α) (g : γ) :
    (∃ v' g', v.setC cp k x g = (.ok (some v'), g') ∧ Built v' ∧ Shows v' (l.set k x)) ∨
    (∃ g', v.setC cp k x g = (.error (.unwound v), g') ∧ ∃ g l, (cp g l).1 = true) := by
  obtain ⟨n, i⟩ := b.inv
  obtain ⟨v', e, b', s'⟩ := (C07_get_mut b h k x).1 hk
  rcases (set_tracks (cp := cp) i k x).out e g with ⟨g', r⟩ | ⟨w, g', r, q, f⟩
  · exact .inl ⟨v', g', r, b', s'⟩
  · subst q
    exact .inr ⟨g', r, f⟩

/-- C58: the same for `front_mut` and `back_mut`. -/
theorem C58_front_back_mut {v : RVec α} {l : List α} (b : Built v) (h : Shows v l) (x : α) (hl : l ≠ [])
    (cp : Copier γ α) (g : γ) (s : Side) :
    (∃ v' g', v.setFrontBackC cp s x g = (.ok (some v'), g') ∧ Built v' ∧
      Shows v' (l.set (match s with | .front => 0 | .back => l.length - 1) x)) ∨
    (∃ g', v.setFrontBackC cp s x g = (.error (.unwound v), g') ∧ ∃ g l, (cp g l).1 = true) := by
  obtain ⟨h1, h2⟩ := (C08_front_back_mut b h x).2 hl
  cases s with
  | front =>
    obtain ⟨v', e, b', s'⟩ := h1
    rcases (setFrontBack_tracks (cp := cp) v .front x).out e g with ⟨g', r⟩ | ⟨w, g', r, q, f⟩
    · exact .inl ⟨v', g', r, b', s'⟩
    · subst q
      exact .inr ⟨g', r, f⟩
  | back =>
    obtain ⟨v', e, b', s'⟩ := h2
    rcases (setFrontBack_tracks (cp := cp) v .back x).out e g with ⟨g', r⟩ | ⟨w, g', r, q, f⟩
    · exact .inl ⟨v', g', r, b', s'⟩
    · subst q
      exact .inr ⟨g', r, f⟩

/-- A copier that lets every clone of a leaf that holds `x` panic. -/
def holding (x : Nat) : Copier Unit Nat where
  ask _ l := (l.contains x, ())

/-- Of 200 items the one at 150 cannot be cloned: the one at 151 cannot be assigned then, while the one at 10 can. -/
example : ((fromIter (List.range 200)).bind fun v => .ok ([10, 151].map fun k =>
      (Stop.left (v.setC (holding 150) k 7 ())).map fun w => (w.len, w.toList))) =
    (.ok [none, some (200, List.range 200)] : M (List (Option (Nat × List Nat)))) := by
  decide +kernel

/-- What is known of a vector whose `height` is that of a leaf. -/
theorem inv_leaf {v : RVec α} (b : Built v) (hh : v.height = .ok 0) : InvH v 0 := by
  obtain ⟨n, i⟩ := b.inv
  rw [height_ok i] at hh
  cases hh
  exact i

/-- C58 (partial): `split_off` of a vector that is a single leaf does what it does otherwise, or unwinds and leaves
the vector as it was. Missing: taller vectors, see `C58_split_tall`. -/
theorem C58_split_short_partial {v : RVec α} {l : List α} (b : Built v) (h : Shows v l) (hh : v.height = .ok 0) (k : Nat)
    (cp : Copier γ α) (g : γ) :
    (∃ a c g', v.splitOffC cp k g = (.ok (a, c), g') ∧ Shows a (l.take k) ∧ Shows c (l.drop k)) ∨
    (∃ g', v.splitOffC cp k g = (.error (.unwound v), g') ∧ ∃ g l, (cp g l).1 = true) := by
  obtain ⟨a, c, e, -, -, s1, s2⟩ := C11_split_off b h k
  rcases (splitOff_leaf (cp := cp) (inv_leaf b hh) k).out e g with ⟨g', r⟩ | ⟨w, g', r, q, f⟩
  · exact .inl ⟨a, c, g', r, s1, s2⟩
  · subst q
    exact .inr ⟨g', r, f⟩

/-- The items of a vector of forty, of which one cannot be cloned. -/
example : ((fromIter (List.range 40)).bind fun v => .ok (v.height, [0, 10, 40].map fun k =>
      (Stop.left (v.splitOffC (holding 15) k ())).map fun w => (w.len, w.toList))) =
    (.ok (.ok 0, [none, some (40, List.range 40), none]) : M (M Nat × List (Option (Nat × List Nat)))) := by
  decide +kernel

/-- C58 is false for `split_off` of any other vector: whenever it unwinds, items are lost. Either `len` is what it was, and to
read some of the items panics, or there are only as many items as the first part was to have. So it is for
`slice_from_start` and `slice_to_end`. -/
theorem C58_split_tall {v : RVec α} {l : List α} (b : Built v) (h : Shows v l) (hh : v.height ≠ .ok 0) (k : Nat)
    (cp : Copier γ α) (g : γ) :
    (∃ a c g', v.splitOffC cp k g = (.ok (a, c), g') ∧ v.sliceFromStartC cp k g = (.ok a, g') ∧
      v.sliceToEndC cp k g = (.ok c, g') ∧ Shows a (l.take k) ∧ Shows c (l.drop k)) ∨
    (∃ w g', v.splitOffC cp k g = (.error (.unwound w), g') ∧ v.sliceFromStartC cp k g = (.error (.unwound w), g') ∧
      v.sliceToEndC cp k g = (.error (.unwound w), g') ∧ (∃ g l, (cp g l).1 = true) ∧ ¬ Shows w l ∧
      (w.len = l.length ∧ (∃ i, i < l.length ∧ w.get i = .error .panic) ∨ w.len = k ∧ k < l.length)) := by
  obtain ⟨n, i⟩ := b.inv
  obtain ⟨a, c, e, -, -, s1, s2⟩ := C11_split_off b h k
  cases n with
  | zero => exact absurd (height_ok i) hh
  | succ n =>
    rcases (splitOff_tall (cp := cp) i k).out e g with ⟨g', r⟩ | ⟨w, g', r, q, f⟩
    · refine .inl ⟨a, c, g', r, ?_, ?_, s1, s2⟩
      · unfold sliceFromStartC
        rw [CM.bind_apply, r]
        rfl
      · unfold sliceToEndC
        rw [CM.bind_apply, r]
        rfl
    · refine .inr ⟨w, g', r, CM.bind_unwound r, CM.bind_unwound r, f, ?_⟩
      rw [h.1] at q
      rcases q with ⟨hl, j, hj, hp⟩ | q
      · rw [h.1] at hl
        rw [hl] at hj
        refine ⟨fun s => ?_, .inl ⟨hl, j, hj, hp⟩⟩
        have := s.2 j
        rw [hp] at this
        cases this
      · refine ⟨fun s => ?_, .inr q⟩
        have := s.1
        omega

/-- Both happen to 200 items that are split at 100: when the leaf with that item is cloned, only the 63 at the front are left
of them, and when later the leaf at the front is cloned, the second part is lost. -/
example : ((fromIter (List.range 200)).bind fun v => .ok (v.height, [0, 1].map fun k =>
      (Stop.left (v.splitOffC (failing k) 100 0)).map fun w => (w.len, w.toList.length))) =
    (.ok (.ok 1, [some (200, 63), some (100, 100)]) : M (M Nat × List (Option (Nat × Nat)))) := by
  decide +kernel

/-- A vector whose `len` is zero shows nothing. -/
theorem shows_nil {w : RVec α} (h : w.len = 0) : Shows w [] := by
  refine ⟨h, fun j => ?_⟩
  unfold RVec.get findNodeInfoForIndex
  rw [if_pos (by omega)]
  rfl

/-- C58 is false for `remove`: to remove the first item loses all items whenever it unwinds, and it unwinds whenever
`pop_front` would. -/
theorem C58_remove_first {v : RVec α} {l : List α} (b : Built v) (h : Shows v l) (hl : l ≠ []) (cp : Copier γ α) (g : γ) :
    ((∃ v' g', v.removeC cp 0 g = (.ok (l.head?, v'), g') ∧ Shows v' l.tail) ∨
      (∃ g', v.removeC cp 0 g = (.error (.unwound RVec.new), g'))) ∧
    (∀ u g', v.popFrontC cp g = (.error (.unwound u), g') → v.removeC cp 0 g = (.error (.unwound RVec.new), g')) ∧
    Shows (RVec.new : RVec α) [] := by
  have hlen : 0 < v.len := by rw [h.1]; exact List.length_pos_of_ne_nil hl
  obtain ⟨v', e, -, s'⟩ := C04_pop_front b h
  have key : v.removeC cp 0 g = (leaving RVec.new (v.popFrontC cp) >>= fun q => do
      let v ← (RVec.new : RVec α).appendC cp q.2
      pure (q.1, v)) g := by
    unfold removeC
    rw [if_pos hlen]
    rfl
  refine ⟨?_, fun u g' r => ?_, shows_nil rfl⟩
  · rcases (popSide_any (cp := cp) v .front).out e g with ⟨g', r⟩ | ⟨w, g', r, -, -⟩
    · refine .inl ⟨v', g', ?_, s'⟩
      have : v.popFrontC cp g = (.ok (l.head?, v'), g') := r
      rw [key, CM.bind_apply]
      unfold leaving
      rw [this]
      rfl
    · refine .inr ⟨g', ?_⟩
      rw [key]
      exact CM.bind_unwound (leaving_unwound r)
  · rw [key]
    exact CM.bind_unwound (leaving_unwound r)

/-- Three items, of which the second cannot be cloned. -/
example : ((fromIter [1, 2, 3]).bind fun v => .ok ((Stop.left (v.removeC (holding 2) 0 ())).map fun w => (w.len, w.toList))) =
    (.ok (some (0, [])) : M (Option (Nat × List Nat))) := by
  decide +kernel

/-- What is left of a vector when a call on it unwinds is the vector, which is a single leaf, or a vector
from which items are lost: there are fewer, or to read some of them panics. -/
theorem keptLeafOrLost {v w : RVec α} {l : List α} {n : Nat} (i : InvH v n) (h : Shows v l)
    (q : w = v ∧ n = 0 ∨ Lost v w ∨ w.len < v.len) : w = v ∧ v.height = .ok 0 ∨
      w.len = l.length ∧ (∃ i, i < l.length ∧ w.get i = .error .panic) ∨ w.len < l.length := by
  have hl := h.1
  rcases q with ⟨rfl, rfl⟩ | ⟨e, j, hj, hp⟩ | q
  · exact .inl ⟨rfl, height_ok i⟩
  · exact .inr (.inl ⟨e.trans hl, j, by omega, hp⟩)
  · exact .inr (.inr (by omega))

/-- C58 is false for `remove` from every vector that is not a single leaf: whenever it unwinds, items are lost. -/
theorem C58_remove {v : RVec α} {l : List α} (b : Built v) (h : Shows v l) (k : Nat) (cp : Copier γ α) (g : γ) :
    (∃ v' g', v.removeC cp k g = (.ok (l[k]?, v'), g') ∧ Shows v' (l.eraseIdx k)) ∨
    (∃ w g', v.removeC cp k g = (.error (.unwound w), g') ∧ (∃ g l, (cp g l).1 = true) ∧
      (w = v ∧ v.height = .ok 0 ∨ w.len = l.length ∧ (∃ i, i < l.length ∧ w.get i = .error .panic) ∨
        w.len < l.length)) := by
  obtain ⟨n, i⟩ := b.inv
  obtain ⟨v', e, -, s'⟩ := C16_remove b h k
  rcases (remove_tracks (cp := cp) i k).out e g with ⟨g', r⟩ | ⟨w, g', r, q, f⟩
  · exact .inl ⟨v', g', r, s'⟩
  · exact .inr ⟨w, g', r, f, keptLeafOrLost i h q⟩

/-- C58 is false for `insert` into every vector that is not a single leaf, before the last item but one or earlier: whenever it
unwinds, items are lost. -/
theorem C58_insert {v : RVec α} {l : List α} (b : Built v) (h : Shows v l) (k : Nat) (x : α) (hk : k + 1 < l.length)
    (hlt : l.length + 1 < USIZE_LIMIT) (cp : Copier γ α) (g : γ) :
    (∃ v' g', v.insertC cp k x g = (.ok v', g') ∧ Shows v' (l.take k ++ x :: l.drop k)) ∨
    (∃ w g', v.insertC cp k x g = (.error (.unwound w), g') ∧ (∃ g l, (cp g l).1 = true) ∧
      (w = v ∧ v.height = .ok 0 ∨ w.len = l.length ∧ (∃ i, i < l.length ∧ w.get i = .error .panic) ∨
        w.len < l.length)) := by
  obtain ⟨n, i⟩ := b.inv
  obtain ⟨v', e, -, s'⟩ := C15_insert b h k x hlt
  have hl := h.1
  rcases (insert_tracks (cp := cp) i k x (by omega) (by omega)).out e g with ⟨g', r⟩ | ⟨w, g', r, q, f⟩
  · exact .inl ⟨v', g', r, s'⟩
  · exact .inr ⟨w, g', r, f, keptLeafOrLost i h q⟩

/-- C58 is false for `extract_slice` of a slice that is not empty from every vector that is not a single leaf: whenever it
unwinds, items are lost. -/
theorem C58_extract_slice {v : RVec α} {l : List α} (b : Built v) (h : Shows v l) (sb eb : Bound)
    (hs : sb.first < USIZE_LIMIT) (hse : sb.first < eb.afterLast l.length) (he : eb.afterLast l.length ≤ l.length)
    (hlt : l.length < USIZE_LIMIT) (cp : Copier γ α) (g : γ) :
    (∃ w r g', v.extractSliceC cp sb eb g = (.ok (w, r), g') ∧ Shows w (l.take sb.first ++ l.drop (eb.afterLast l.length)) ∧
      Shows r ((l.take (eb.afterLast l.length)).drop sb.first)) ∨
    (∃ w g', v.extractSliceC cp sb eb g = (.error (.unwound w), g') ∧ (∃ g l, (cp g l).1 = true) ∧
      (w = v ∧ v.height = .ok 0 ∨ w.len = l.length ∧ (∃ i, i < l.length ∧ w.get i = .error .panic) ∨
        w.len < l.length)) := by
  obtain ⟨n, i⟩ := b.inv
  obtain ⟨w, r, e, -, -, s', -⟩ := C14_extract_slice b h sb eb hs (by omega)
  have hl := h.1
  have hr : rangeEnd v.len eb = .ok (eb.afterLast l.length) := by rw [hl]; exact rangeEnd_afterLast (by omega)
  rcases (extractSlice_tracks (cp := cp) i (rangeStart_first hs) hr hse (by omega)).out e g with
    ⟨g', q⟩ | ⟨u, g', q, q', f⟩
  · exact .inl ⟨w, r, g', q, (s' (by omega)).1, (s' (by omega)).2⟩
  · exact .inr ⟨u, g', q, f, keptLeafOrLost i h q'⟩

/-- C58 is false for `extract_slice` of an empty slice as well, although there is nothing to do: whenever it unwinds, items are
lost. (Before the last item it may also leave all items.) -/
theorem C58_extract_empty {v : RVec α} {l : List α} (b : Built v) (h : Shows v l) (sb eb : Bound)
    (hs : sb.first < USIZE_LIMIT) (hse : eb.afterLast l.length ≤ sb.first) (hn : eb.afterLast l.length + 1 ≠ l.length)
    (cp : Copier γ α) (g : γ) :
    (∃ w r g', v.extractSliceC cp sb eb g = (.ok (w, r), g') ∧ Shows w l ∧ Shows r []) ∨
    (∃ w g', v.extractSliceC cp sb eb g = (.error (.unwound w), g') ∧ (∃ g l, (cp g l).1 = true) ∧
      (w = v ∧ v.height = .ok 0 ∨ w.len = l.length ∧ (∃ i, i < l.length ∧ w.get i = .error .panic) ∨
        w.len < l.length)) := by
  obtain ⟨n, i⟩ := b.inv
  obtain ⟨w, r, e, -, -, -, s'⟩ := C14_extract_slice b h sb eb hs (by omega)
  have hl := h.1
  have hr : rangeEnd v.len eb = .ok (eb.afterLast l.length) := by rw [hl]; exact rangeEnd_afterLast (by omega)
  rcases (extractSlice_empty_tracks (cp := cp) i (rangeStart_first hs) hr hse (by omega)).out e g with
    ⟨g', q⟩ | ⟨u, g', q, q', f⟩
  · exact .inl ⟨w, r, g', q, (s' hse).1, (s' hse).2⟩
  · exact .inr ⟨u, g', q, f, keptLeafOrLost i h q'⟩

/-- The empty slice at 100 of two hundred items: what is left has a hundred items, or cannot be read. -/
example : ((fromIter (List.range 200)).bind fun v => .ok ([0, 1, 2, 3].map fun k =>
      (Stop.left (v.extractSliceC (failing k) (.included 100) (.excluded 100) 0)).map fun w => (w.len, (w.get 150).isOk))) =
    (.ok [some (200, false), some (100, true), some (100, true), none] : M (List (Option (Nat × Bool)))) := by
  decide +kernel

/-- C58: to insert after the last item does what `push_back` does, also if a clone panics; see `C55_push_back_partial`. -/
theorem C58_insert_end {v : RVec α} {l : List α} (b : Built v) (h : Shows v l) (k : Nat) (x : α) (hk : l.length ≤ k) (hk0 : k ≠ 0)
    (hlt : l.length + 1 < USIZE_LIMIT) (cp : Copier γ α) (g : γ) : v.insertC cp k x g = v.pushBackC cp x g := by
  have hl := h.1
  have key : v.insertC cp k x g = (v.pushBackC cp x >>= fun u => u.appendC cp RVec.new) g := by
    unfold insertC splitOffC
    rw [if_neg (by simpa using hk0), if_pos (by omega)]
    rfl
  rw [key]
  obtain ⟨u, e, -, s⟩ := C01_push_back b h x hlt
  rcases (pushSide_any (cp := cp) v .back x).out e g with ⟨g', r⟩ | ⟨w, g', r, -, -⟩
  · have r' : v.pushBackC cp x g = (.ok u, g') := r
    have hu : u.isEmpty = false := by
      have := s.1
      simp at this
      simp [isEmpty, this]
    rw [CM.bind_apply, r']
    simp only [appendC, hu]
    rfl
  · have r' : v.pushBackC cp x g = (.error (.unwound w), g') := r
    rw [CM.bind_unwound r', r']

/-- Three items, of which the first cannot be cloned: they are left. -/
example : ((fromIter [1, 2, 3]).bind fun v => .ok ((Stop.left (v.insertC (failing 0) 3 7 0)).map fun w => w.toList)) =
    (.ok (some [1, 2, 3]) : M (Option (List Nat))) := by
  decide +kernel

/-- Two hundred items, of which the first ones cloned, or the next, cannot be cloned. -/
example : ((fromIter (List.range 200)).bind fun v => .ok (v.height, [0, 1].map fun k =>
      [Stop.left (v.removeC (failing k) 100 0), Stop.left (v.insertC (failing k) 100 7 0),
        Stop.left (v.extractSliceC (failing k) (.included 50) (.excluded 100) 0)].map fun o => o.map fun w => w.len)) =
    (.ok (.ok 1, [[some 200, some 200, some 200], [some 100, some 100, some 100]]) : M (M Nat × List (List (Option Nat)))) := by
  decide +kernel

/-- C58 is false for `append`: if there is one item in the first vector, it is lost whenever the call unwinds. -/
theorem C58_append_one {v other : RVec α} {x : α} {m : List α} (b : Built v) (bo : Built other) (h : Shows v [x])
    (ho : Shows other m) (hm : 1 + m.length < USIZE_LIMIT) (cp : Copier γ α) (g : γ) :
    (∃ v' g', v.appendC cp other g = (.ok v', g') ∧ Shows v' (x :: m)) ∨
    (∃ w g', v.appendC cp other g = (.error (.unwound w), g') ∧ Shows w [] ∧ ∃ g l, (cp g l).1 = true) := by
  obtain ⟨n, i⟩ := b.inv
  obtain ⟨v', e, -, s'⟩ := C09_append b bo h ho (by simpa [Nat.add_comm] using hm)
  rcases (append_one (cp := cp) i h.1 other).out e g with ⟨g', r⟩ | ⟨w, g', r, q, f⟩
  · exact .inl ⟨v', g', r, s'⟩
  · exact .inr ⟨w, g', r, shows_nil q, f⟩

/-- C58 is false for `insert`: to insert before the first item loses all items, and the new one, whenever it unwinds. -/
theorem C58_insert_first {v : RVec α} {l : List α} (b : Built v) (h : Shows v l) (x : α)
    (hlt : l.length + 1 < USIZE_LIMIT) (cp : Copier γ α) (g : γ) :
    (∃ v' g', v.insertC cp 0 x g = (.ok v', g') ∧ Shows v' (x :: l)) ∨
    (∃ w g', v.insertC cp 0 x g = (.error (.unwound w), g') ∧ Shows w [] ∧ ∃ g l, (cp g l).1 = true) := by
  obtain ⟨v', e, -, s'⟩ := C15_insert b h 0 x hlt
  rcases (insert_first (cp := cp) v x).out e g with ⟨g', r⟩ | ⟨w, g', r, q, f⟩
  · exact .inl ⟨v', g', r, s'⟩
  · exact .inr ⟨w, g', r, shows_nil q, f⟩

/-- Both unwind: three items, of which the second cannot be cloned, after one. -/
example : ((fromIter [1, 2, 3]).bind fun v => (fromIter [7]).bind fun u => .ok
      ((Stop.left (u.appendC (holding 2) v ())).map fun w => (w.len, w.toList),
       (Stop.left (v.insertC (holding 2) 0 7 ())).map fun w => (w.len, w.toList))) =
    (.ok (some (0, []), some (0, [])) : M (Option (Nat × List Nat) × Option (Nat × List Nat))) := by
  decide +kernel

/-- C58 (partial): if both vectors are single leaves, and none has one item, `append` does what it does otherwise, or
unwinds and leaves the vector as it was. Missing: the vectors of `C58_append_one`, `C58_append_taller` and
`C58_append_tall`. -/
theorem C58_append_short_partial {v other : RVec α} {l m : List α} (b : Built v) (bo : Built other) (h : Shows v l)
    (ho : Shows other m) (hh : v.height = .ok 0) (hho : other.height = .ok 0) (h1 : l.length ≠ 1) (h2 : m.length ≠ 1)
    (hlt : l.length + m.length < USIZE_LIMIT) (cp : Copier γ α) (g : γ) :
    (∃ v' g', v.appendC cp other g = (.ok v', g') ∧ Shows v' (l ++ m)) ∨
    (∃ g', v.appendC cp other g = (.error (.unwound v), g') ∧ ∃ g l, (cp g l).1 = true) := by
  obtain ⟨v', e, -, s'⟩ := C09_append b bo h ho hlt
  rcases (append_leaves (cp := cp) (inv_leaf b hh) (inv_leaf bo hho) (by rwa [h.1]) (by rwa [ho.1])).out e g with
    ⟨g', r⟩ | ⟨w, g', r, q, f⟩
  · exact .inl ⟨v', g', r, s'⟩
  · subst q
    exact .inr ⟨g', r, f⟩

/-- Fifty items after forty, of which one cannot be cloned. -/
example : ((fromIter (List.range 40)).bind fun v => (fromIter (List.range 50)).bind fun u => .ok
      ((v.height, u.height), (Stop.left (v.appendC (holding 45) u ())).map fun w => (w.len, w.toList))) =
    (.ok ((.ok 0, .ok 0), some (40, List.range 40)) : M ((M Nat × M Nat) × Option (Nat × List Nat))) := by
  decide +kernel

/-- C58 is false for `append` of a taller vector: if the first vector is a single leaf and cloning one of its items
panics, all its items are gone, and `len` is what it was. -/
theorem C58_append_taller {v other : RVec α} {l : List α} (b : Built v) (bo : Built other) (h : Shows v l)
    (hh : v.height = .ok 0) (hho : other.height ≠ .ok 0) (h1 : 2 ≤ l.length) (hlt : l.length + other.len < USIZE_LIMIT)
    (cp : Copier γ α) (g : γ) (hp : (cp g l).1 = true) :
    ∃ w, v.appendC cp other g = (.error (.unwound w), (cp g l).2) ∧ w.len = l.length ∧ w.toList = [] ∧
      ∀ i, i < l.length → w.get i = .error .panic := by
  have i := inv_leaf b hh
  obtain ⟨n, j⟩ := bo.inv
  cases n with
  | zero => exact absurd (height_ok j) hho
  | succ n =>
    have e := (RVec.shows_iff i).1 h
    subst e
    have ho2 : 2 ≤ other.len := by rw [j.len]; exact InvH.two_le j (by omega)
    obtain ⟨left, right, root, len⟩ := v
    have hl' := List.eq_nil_of_length_eq_zero (i.length .front)
    have hr' := List.eq_nil_of_length_eq_zero (i.length .back)
    simp only [spine_front, spine_back] at hl' hr'
    subst hl' hr'
    have ht : (⟨[], [], root, len⟩ : RVec α).toList = root.toList := by simp [RVec.toList]
    have hlen : len = root.toList.length := by rw [← ht]; exact i.len
    rw [ht] at hp h1 hlt ⊢
    have wr : root.Wf 0 := i.root
    have hs : root.slots ≠ 0 := fun e => by
      have := wr.slots_eq_zero.1 e
      rw [this] at h1
      simp at h1
    have hol := j.length .front
    simp only [spine_front] at hol
    obtain ⟨nr, e1, w1, t1, s1⟩ := emptyInternal_wf (α := α) 0
    refine ⟨⟨[], [], nr, len⟩, ?_, hlen, by simp [RVec.toList, t1], fun k hk => ?_⟩
    · obtain ⟨y, buf, hbuf, -⟩ := Node.wf_zero.1 wr
      have hlv := wr.level
      have ht1 : cp.touch (⟨[], [], nr, len⟩ : RVec α) root.newEmpty g = (.ok (), g) := by subst hbuf; rfl
      have ht2 : cp.touch (⟨[], [], nr, len⟩ : RVec α) root g =
          (.error (.unwound ⟨[], [], nr, len⟩), (cp g root.toList).2) := by
        subst hbuf
        simp only [Copier.touch]
        rw [if_neg (by simpa [Node.slots] using hs)]
        rcases hc : cp g (Node.leaf buf).toList with ⟨c, g'⟩
        rw [hc] at hp
        simp only at hp
        subst hp
        rfl
      unfold appendC
      have c1 : (⟨[], [], root, len⟩ : RVec α).isEmpty = false := by simp [RVec.isEmpty]; omega
      have c2 : other.isEmpty = false := by simp [RVec.isEmpty]; omega
      have c3 : (len == 1) = false := by simp; omega
      have c4 : (other.len == 1) = false := by simp; omega
      simp only [c1, c2, c3, c4, Bool.false_eq_true, if_false]
      unfold appendMainC
      rw [hol]
      unfold raiseSelfC
      simp only [List.length_nil, CM.bind_apply, steady, uadd_ok (show len + other.len < USIZE_LIMIT by omega), hlv, e1,
        Nat.zero_lt_succ, if_true, Copier.share, ht1, ht2]
    · unfold RVec.get findNodeInfoForIndex
      rw [if_neg (by simp; omega)]
      simp only [findLoop]
      rw [massert_ok (by simp; omega), usub_ok (by omega)]
      simp only [ok_bind, nodeAt, Node.get_ok w1, t1]
      rfl

/-- A hundred items after three. -/
example : ∃ v u : RVec Nat, Built v ∧ Built u ∧ Shows v [1, 2, 3] ∧ v.height = .ok 0 ∧ u.height ≠ .ok 0 ∧
    (holding 2 () [1, 2, 3]).1 = true := by
  obtain ⟨v, e, b, s⟩ := exists_built [1, 2, 3] (by decide)
  obtain ⟨u, e', b', s'⟩ := exists_built (List.range 100) (by rw [List.length_range]; decide)
  have h1 : ((fromIter [1, 2, 3]).bind fun v => v.height) = .ok 0 := by decide +kernel
  have h2 : ((fromIter (List.range 100)).bind fun v => v.height) = .ok 1 := by decide +kernel
  rw [e] at h1
  rw [e'] at h2
  exact ⟨v, u, b, b', s, h1, (fun e => by rw [show u.height = .ok 1 from h2] at e; cases e), by decide⟩

/-- What `append` to a vector that is not a single leaf leaves behind when it unwinds. If the other vector is a single leaf, it may
be the vector as it was. Otherwise one of the two is at least two levels above its leaves, and C58 is false: one spine of what is left is
shorter than the other, and to pop panics. -/
theorem C58_append_tall {v other : RVec α} {l m : List α} (b : Built v) (bo : Built other) (h : Shows v l)
    (ho : Shows other m) {n k : Nat} (hh : v.height = .ok (n + 1)) (hho : other.height = .ok k) (h2 : m.length ≠ 1)
    (hlt : l.length + m.length < USIZE_LIMIT) (cp : Copier γ α) (g : γ) :
    (∃ v' g', v.appendC cp other g = (.ok v', g') ∧ Shows v' (l ++ m)) ∨
    (∃ w g', v.appendC cp other g = (.error (.unwound w), g') ∧ (∃ g l, (cp g l).1 = true) ∧
      (w = v ∧ k = 0 ∨
        (2 ≤ n + 1 ∨ 2 ≤ k) ∧ w.height = .error .panic ∧ w.popBack = .error .panic ∧ w.popFront = .error .panic)) := by
  obtain ⟨n', i⟩ := b.inv
  have := height_ok i
  rw [hh] at this
  cases this
  obtain ⟨k', j⟩ := bo.inv
  have := height_ok j
  rw [hho] at this
  cases this
  obtain ⟨v', e, -, s'⟩ := C09_append b bo h ho hlt
  rcases (append_tall_left (cp := cp) i j (by rwa [ho.1])).out e g with ⟨g', r⟩ | ⟨w, g', r, q, f⟩
  · exact .inl ⟨v', g', r, s'⟩
  · refine .inr ⟨w, g', r, f, ?_⟩
    rcases q with q | ⟨q1, q2⟩
    · exact .inl q
    · have hm : massert (w.left.length == w.right.length) = .error .panic := by
        have : (w.left.length == w.right.length) = false := by simp; omega
        rw [this]
        rfl
      refine .inr ⟨by omega, ?_, ?_, ?_⟩
      · unfold RVec.height
        rw [hm]
        rfl
      · unfold popBack popSide
        rw [hm]
        rfl
      · unfold popFront popSide
        rw [hm]
        rfl

/-- C58 (partial): so, if both vectors are at most one level above their leaves, and the first is not a single leaf, and the
other one has not one item, `append` does what it does otherwise, or unwinds and leaves the vector as it was. -/
theorem C58_append_low_partial {v other : RVec α} {l m : List α} (b : Built v) (bo : Built other) (h : Shows v l)
    (ho : Shows other m) {k : Nat} (hh : v.height = .ok 1) (hho : other.height = .ok k) (hk : k ≤ 1) (h2 : m.length ≠ 1)
    (hlt : l.length + m.length < USIZE_LIMIT) (cp : Copier γ α) (g : γ) :
    (∃ v' g', v.appendC cp other g = (.ok v', g') ∧ Shows v' (l ++ m)) ∨
    (∃ g', v.appendC cp other g = (.error (.unwound v), g') ∧ ∃ g l, (cp g l).1 = true) := by
  rcases C58_append_tall b bo h ho (n := 0) hh hho h2 hlt cp g with r | ⟨w, g', r, f, ⟨rfl, -⟩ | ⟨q, -⟩⟩
  · exact .inl r
  · exact .inr ⟨g', r, f⟩
  · omega

/-- Three items after a hundred: a panic leaves the hundred. A hundred items after a hundred: no item is cloned. -/
example : ((fromIter (List.range 100)).bind fun v => (fromIter [1, 2, 3]).bind fun u => .ok
      ((v.height, u.height), [Stop.left (v.appendC (failing 0) u 0), Stop.left (v.appendC (failing 0) v 0)].map fun o =>
        o.map fun w => (w.len, w.toList))) =
    (.ok ((.ok 1, .ok 0), [some (100, List.range 100), none]) : M ((M Nat × M Nat) × List (Option (Nat × List Nat)))) := by
  decide +kernel

/-- A vector of seventy items after which sixty-three times two were appended is two levels above its leaves. To append it to
itself clones leaves, and if the first clone panics, there is no right spine. -/
example : ((fromIter (List.range 70)).bind fun v => (fromIter [0, 1]).bind fun w =>
      (appendEach (List.replicate 63 w) v).bind fun v => .ok (v.height, (Stop.left (v.appendC (failing 0) v 0)).map fun w =>
        (v.len, w.len, w.left.length, w.right.length))) =
    (.ok (.ok 2, some (196, 196, 2, 0)) : M (M Nat × Option (Nat × Nat × Nat × Nat))) := by
  decide +kernel

end Librrb
