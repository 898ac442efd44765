import Verif.Proof.CloneUnwind
import Verif.Props.Vector
import Verif.Model.HeapVec

/-! # Pushing and popping when cloning an item panics

The property theorems of C55. A vector shares its leaves with its clones. To change a shared leaf its items are
cloned, and `Clone::clone` of an item may panic. Whoever catches the panic still has the vector. The property that the vector then
is as it was, or the call has had its effect, is false for vectors of up to 129 items. -/
namespace Librrb
open RVec

/-- What `Tracks` says about a call that succeeds when nothing panics. -/
theorem Tracks.out {cp : Copier γ α} {Q : RVec α → Prop} {m : CM γ α τ} {r : M τ} (t : Tracks cp Q m r) {a : τ}
    (e : r = .ok a) (g : γ) : (∃ g', m g = (.ok a, g')) ∨
      (∃ w g', m g = (.error (.unwound w), g') ∧ Q w ∧ ∃ g l, (cp g l).1 = true) := by
  have k := t (by rw [e]; nofun) g
  rcases h : m g with ⟨((f | w) | b), g'⟩
  · rw [h, e] at k
    simp at k
  · rw [h] at k
    exact .inr ⟨w, g', rfl, k.1, k.2⟩
  · rw [h, e] at k
    simp only at k
    exact .inl ⟨g', by rw [Except.ok.inj k]⟩

/-- C55 (partial): whatever items panic when they are cloned, `push_back` on a vector that does not have exactly 64
items returns what it returns otherwise, or unwinds and leaves a vector that shows the items there were, or, if there were less than
128, these and the new one. Missing: vectors of 64 items, see `C55_push_full`. -/
theorem C55_push_back_partial {v : RVec α} {l : List α} (b : Built v) (h : Shows v l) (x : α)
    (hn : l.length ≠ 64) (hlt : l.length + 1 < USIZE_LIMIT) (cp : Copier γ α) (g : γ) :
    (∃ v' g', v.pushBackC cp x g = (.ok v', g') ∧ v.pushBack x = .ok v' ∧ Built v' ∧ Shows v' (l ++ [x])) ∨
    (∃ w g', v.pushBackC cp x g = (.error (.unwound w), g') ∧ (∃ g l, (cp g l).1 = true) ∧
      (Shows w l ∨ l.length < 128 ∧ Shows w (l ++ [x]))) := by
  obtain ⟨k, i⟩ := b.inv
  have e := (RVec.shows_iff i).1 h
  subst e
  obtain ⟨v', k', e', i', t', -⟩ := pushSide_ok i .back x hlt
  rcases (pushSide_left (cp := cp) (Q := fun w => Shows w v.toList ∨ v.toList.length < 128 ∧ Shows w (v.toList ++ [x]))
    i .back x hlt hn (fun _ => .inl) (fun h _ hw => .inr ⟨h, hw⟩)).out e' g with ⟨g', r⟩ | ⟨w, g', r, q, f⟩
  · exact .inl ⟨v', g', r, e', .pushBack b e', (RVec.shows_iff i').2 t'⟩
  · exact .inr ⟨w, g', r, f, q⟩

/-- The same for `push_front`. -/
theorem C55_push_front_partial {v : RVec α} {l : List α} (b : Built v) (h : Shows v l) (x : α)
    (hn : l.length ≠ 64) (hlt : l.length + 1 < USIZE_LIMIT) (cp : Copier γ α) (g : γ) :
    (∃ v' g', v.pushFrontC cp x g = (.ok v', g') ∧ v.pushFront x = .ok v' ∧ Built v' ∧ Shows v' (x :: l)) ∨
    (∃ w g', v.pushFrontC cp x g = (.error (.unwound w), g') ∧ (∃ g l, (cp g l).1 = true) ∧
      (Shows w l ∨ l.length < 128 ∧ Shows w (x :: l))) := by
  obtain ⟨k, i⟩ := b.inv
  have e := (RVec.shows_iff i).1 h
  subst e
  obtain ⟨v', k', e', i', t', -⟩ := pushSide_ok i .front x hlt
  rcases (pushSide_left (cp := cp) (Q := fun w => Shows w v.toList ∨ v.toList.length < 128 ∧ Shows w (x :: v.toList))
    i .front x hlt hn (fun _ => .inl) (fun h _ hw => .inr ⟨h, hw⟩)).out e' g with ⟨g', r⟩ | ⟨w, g', r, q, f⟩
  · exact .inl ⟨v', g', r, e', .pushFront b e', (RVec.shows_iff i').2 t'⟩
  · exact .inr ⟨w, g', r, f, q⟩

/-- A copier that lets the clone number `k` of a leaf panic. -/
def failing (k : Nat) : Copier Nat Nat where
  ask n _ := (n == k, n + 1)

/-- What a call leaves behind when it unwinds. -/
def Stop.left : Except (Stop α) τ × γ → Option (RVec α)
  | (.error (.unwound w), _) => some w
  | _ => none

/-- Both outcomes of a panic happen: on a vector of 67 items, clones of the leaf at the back and, later, of the one at
the front. And without a panic the item is there. -/
example : ((fromIter (List.range 67)).bind fun v => .ok ([0, 1, 2, 3].map fun k =>
      (Stop.left (v.pushBackC (failing k) 7 0)).map fun w => (w.len, w.toList))) =
    (.ok [some (67, List.range 67), some (68, List.range 67 ++ [7]), some (68, List.range 67 ++ [7]), none] :
      M (List (Option (Nat × List Nat)))) := by
  decide +kernel

/-- C55 (partial): on a vector of more than 129 items, `pop_back` returns what it returns otherwise, or
unwinds and leaves the vector as it was. Missing: shorter vectors, see `C55_pop_short` and `C55_pop_merge`. -/
theorem C55_pop_back_partial {v : RVec α} {l : List α} (b : Built v) (h : Shows v l)
    (hn : 129 < l.length) (cp : Copier γ α) (g : γ) :
    (∃ v' g', v.popBackC cp g = (.ok (l.getLast?, v'), g') ∧ v.popBack = .ok (l.getLast?, v') ∧ Built v' ∧
      Shows v' l.dropLast) ∨
    (∃ g', v.popBackC cp g = (.error (.unwound v), g') ∧ ∃ g l, (cp g l).1 = true) := by
  obtain ⟨k, i⟩ := b.inv
  have e := (RVec.shows_iff i).1 h
  subst e
  rcases List.eq_nil_or_concat v.toList with hv | ⟨m, x, hv⟩
  · rw [hv] at hn; simp at hn
  · rw [List.concat_eq_append] at hv
    obtain ⟨v', k', e', i', t', -⟩ := popSide_ok i .back (x := x) (l := m) hv
    rw [hv, List.getLast?_concat, List.dropLast_concat]
    rcases (popSide_left (cp := cp) (Q := fun w => w = v) i .back hn rfl).out e' g with ⟨g', r⟩ | ⟨w, g', r, q, f⟩
    · exact .inl ⟨v', g', r, e', .popBack b e', (RVec.shows_iff i').2 t'⟩
    · subst q
      exact .inr ⟨g', r, f⟩

/-- The same for `pop_front`. -/
theorem C55_pop_front_partial {v : RVec α} {l : List α} (b : Built v) (h : Shows v l)
    (hn : 129 < l.length) (cp : Copier γ α) (g : γ) :
    (∃ v' g', v.popFrontC cp g = (.ok (l.head?, v'), g') ∧ v.popFront = .ok (l.head?, v') ∧ Built v' ∧
      Shows v' l.tail) ∨
    (∃ g', v.popFrontC cp g = (.error (.unwound v), g') ∧ ∃ g l, (cp g l).1 = true) := by
  obtain ⟨k, i⟩ := b.inv
  have e := (RVec.shows_iff i).1 h
  subst e
  cases hv : v.toList with
  | nil => rw [hv] at hn; simp at hn
  | cons x m =>
    obtain ⟨v', k', e', i', t', -⟩ := popSide_ok i .front (x := x) (l := m) hv
    rcases (popSide_left (cp := cp) (Q := fun w => w = v) i .front hn rfl).out e' g with ⟨g', r⟩ | ⟨w, g', r, q, f⟩
    · exact .inl ⟨v', g', r, e', .popFront b e', (RVec.shows_iff i').2 t'⟩
    · subst q
      exact .inr ⟨g', r, f⟩

/-- A vector of 200 items: a panic leaves all of them, and a second one cannot happen. -/
example : ((fromIter (List.range 200)).bind fun v => .ok ([0, 1].map fun k =>
      (Stop.left (v.popBackC (failing k) 0)).map fun w => (w.len, w.toList))) =
    (.ok [some (200, List.range 200), none] : M (List (Option (Nat × List Nat)))) := by
  decide +kernel

/-- C55 is false for `push_back` and `push_front`: if a vector is a single leaf of 64 items, and cloning one of them
panics, all items are gone, and `len` still is 64. -/
theorem C55_push_full {v : RVec α} {l : List α} (b : Built v) (h : Shows v l) (hh : v.height = .ok 0)
    (hn : l.length = 64) (s : Side) (x : α) (cp : Copier γ α) (g : γ) (hp : (cp g l).1 = true) :
    ∃ w, v.pushSideC cp s x g = (.error (.unwound w), (cp g l).2) ∧ w.len = 64 ∧ w.toList = [] ∧
      (∀ i, i < 64 → w.get i = .error .panic) ∧ ∀ t, w.frontBack t = .error .panic := by
  obtain ⟨k, i⟩ := b.inv
  have e := (RVec.shows_iff i).1 h
  subst e
  have hl := i.length .front
  have hr := i.length .back
  simp only [spine_front, spine_back] at hl hr
  have hk : k = 0 := by
    unfold RVec.height at hh
    rw [massert_ok (by simp [hl, hr])] at hh
    have := Except.ok.inj hh
    omega
  subst hk
  obtain ⟨left, right, root, len⟩ := v
  have hl' : left = [] := List.eq_nil_of_length_eq_zero hl
  have hr' : right = [] := List.eq_nil_of_length_eq_zero hr
  subst hl' hr'
  have ht : (⟨[], [], root, len⟩ : RVec α).toList = root.toList := by simp [RVec.toList]
  rw [ht] at hn hp ⊢
  have hlen : len = 64 := by rw [← hn, ← ht]; exact i.len
  subst hlen
  obtain ⟨y, hy⟩ := Node.wf_zero.1 i.root
  have hs := hy.slots
  rw [← hy.toList] at hs
  simp only at hs
  rw [hn] at hs
  obtain ⟨buf, hbuf, -⟩ := hy
  simp only at hbuf
  have hfs : leafFreeSpace root = .ok 0 := by
    rw [leafFreeSpace_ok (show root.Wf 0 from i.root), hs]
  have hsp : ∀ t, (⟨[], [], root, 64⟩ : RVec α).spine t = [] := by intro t; cases t <;> rfl
  have hln : (⟨[], [], root, 64⟩ : RVec α).leafNode s = root := by simp [leafNode, hsp]
  have hlv : root.level = 0 := (show root.Wf 0 from i.root).level
  have hemp : ∀ n : Node α, n.newEmpty.slots = 0 := by intro n; cases n <;> rfl
  obtain ⟨nr, e1, w1, t1, s1⟩ := emptyInternal_wf (α := α) 0
  have hnr : nr = .internal (SizeTable.new 1) .leaves CB.new := (Except.ok.inj e1).symm
  refine ⟨⟨[], [], nr, 64⟩, ?_, rfl, by simp [RVec.toList, t1], ?_, fun t => by subst hnr; cases t <;> rfl⟩
  · subst hbuf
    have ht1 : cp.touch (⟨[], [], nr, 64⟩ : RVec α) (Node.leaf buf).newEmpty g = (.ok (), g) := rfl
    have ht2 : cp.touch (⟨[], [], nr, 64⟩ : RVec α) (Node.leaf buf) g =
        (.error (.unwound ⟨[], [], nr, 64⟩), (cp g (Node.leaf buf).toList).2) := by
      simp only [Copier.touch]
      rw [if_neg (by simp only [Node.slots] at hs; simp [hs])]
      rcases hc : cp g (Node.leaf buf).toList with ⟨c, g'⟩
      rw [hc] at hp
      simp only at hp
      subst hp
      rfl
    have hw : (⟨[], [], nr, 64⟩ : RVec α).withSpine s [] = ⟨[], [], nr, 64⟩ := by cases s <;> rfl
    unfold pushSideC completeLeafC
    rw [hln, hfs]
    simp only [hsp, List.length_nil, completeLoop, hs, hlv, e1, CM.bind_apply, steady, beq_self_eq_true, if_true,
      massert_true, Copier.share, hw, ht1, ht2, ge_iff_le, Nat.sub_le]
  · intro j hj
    unfold RVec.get findNodeInfoForIndex
    rw [if_neg (by simpa using hj)]
    simp only [findLoop]
    rw [massert_ok (by simpa using hj), usub_ok (by omega)]
    simp only [ok_bind, nodeAt, Node.get_ok w1, t1]
    rfl

/-- The hypotheses are met by 64 collected items, whose leaf has two owners when the vector is cloned. -/
example : ((fromIter (List.range 64)).bind fun v => v.height) = .ok 0 ∧
    (((do
      let v ← HVec.fromIter (List.range 64)
      let w ← HVec.clone v
      let one ← isOne v.root
      pure (one, v.left.length, decide (w.root = v.root)) : HM Nat (Bool × Nat × Bool)).run { cells := [] }).map Prod.fst) =
      .ok (false, 0, true) := by
  decide +kernel

/-- A vector that is a single leaf shows as many of its items as `len` says. -/
theorem leaf_shows {root : Node α} {n : Nat} (w : root.Wf 0) (hn : n ≤ root.toList.length) :
    Shows (⟨[], [], root, n⟩ : RVec α) (root.toList.take n) := by
  refine ⟨by simp; omega, fun j => ?_⟩
  unfold RVec.get findNodeInfoForIndex
  by_cases hj : j < n
  · rw [if_neg (by simpa using hj)]
    simp only [findLoop]
    rw [massert_ok (by simpa using hj), usub_ok (by omega)]
    simp only [ok_bind, nodeAt, Node.get_ok w]
    rw [List.getElem?_take_of_lt hj, Nat.sub_zero, List.getElem?_eq_getElem (by omega)]
    rfl
  · rw [if_pos (by simpa using hj), List.getElem?_eq_none (by simp; omega)]
    rfl

/-- C55 is false for `pop_back` and `pop_front`: if a vector is a single leaf, and cloning one of its items panics,
`len` is one less, and all items are still there. So the vector does not show its last item, even if it was the first that was to be
popped; an item that is pushed afterwards is not shown, and the old last item is back; and if there was one item,
the vector is empty and to pop panics. -/
theorem C55_pop_short {v : RVec α} {l : List α} (b : Built v) (h : Shows v l) (hh : v.height = .ok 0)
    (hn : l ≠ []) (s : Side) (cp : Copier γ α) (g : γ) (hp : (cp g l).1 = true) :
    ∃ w, v.popSideC cp s g = (.error (.unwound w), (cp g l).2) ∧ Shows w l.dropLast ∧
      (l.length < 64 → ∀ x, ∃ w', w.pushBack x = .ok w' ∧ Shows w' l) ∧
      (l.length = 1 → ∀ t, w.isEmpty = true ∧ w.popSide t = .error .overflow) := by
  obtain ⟨k, i⟩ := b.inv
  have e := (RVec.shows_iff i).1 h
  subst e
  have hl := i.length .front
  have hr := i.length .back
  simp only [spine_front, spine_back] at hl hr
  have hk : k = 0 := by
    unfold RVec.height at hh
    rw [massert_ok (by simp [hl, hr])] at hh
    have := Except.ok.inj hh
    omega
  subst hk
  obtain ⟨left, right, root, len⟩ := v
  have hl' : left = [] := List.eq_nil_of_length_eq_zero hl
  have hr' : right = [] := List.eq_nil_of_length_eq_zero hr
  subst hl' hr'
  have ht : (⟨[], [], root, len⟩ : RVec α).toList = root.toList := by simp [RVec.toList]
  have hlen : len = root.toList.length := by rw [← ht]; exact i.len
  have hlim : len < USIZE_LIMIT := i.lt
  rw [ht] at hn hp ⊢
  have wr : root.Wf 0 := i.root
  have hpos : 1 ≤ len := by
    have := List.length_pos_of_ne_nil hn
    omega
  have hs : root.slots ≠ 0 := fun e => hn (wr.slots_eq_zero.1 e)
  obtain ⟨y, hy⟩ := Node.wf_zero.1 wr
  have hsl := hy.slots
  rw [← hy.toList] at hsl
  obtain ⟨buf, hbuf, -⟩ := hy
  have hsp : ∀ t n, (⟨[], [], root, n⟩ : RVec α).spine t = [] := by intro t n; cases t <;> rfl
  have hem : root.isEmpty = .ok false := by rw [wr.isEmpty]; simp [hn]
  refine ⟨⟨[], [], root, len - 1⟩, ?_, ?_, ?_, ?_⟩
  · have ht2 : cp.touch (⟨[], [], root, len - 1⟩ : RVec α) root g =
        (.error (.unwound ⟨[], [], root, len - 1⟩), (cp g root.toList).2) := by
      subst hbuf
      simp only [Copier.touch]
      rw [if_neg (by simpa [Node.slots] using hs)]
      rcases hc : cp g (Node.leaf buf).toList with ⟨c, g'⟩
      rw [hc] at hp
      simp only at hp
      subst hp
      rfl
    unfold popSideC
    simp only [hsp, List.isEmpty_nil, if_true, CM.bind_apply, hem, steady, List.length_nil, beq_self_eq_true,
      massert_true, Bool.not_false, usub_ok hpos, ht2]
  · rw [List.dropLast_eq_take, ← hlen]
    exact leaf_shows wr (by omega)
  · intro h64 x
    obtain ⟨nd, e2, w2, s2, t2⟩ := Node.leafPush_ok wr .back x (by omega)
    have hln : (⟨[], [], root, len - 1⟩ : RVec α).leafNode .back = root := rfl
    refine ⟨⟨[], [], nd, len⟩, ?_, ?_⟩
    · unfold pushBack pushSide
      rw [hln, leafFreeSpace_ok wr]
      simp only [ok_bind]
      rw [if_neg (by simp; omega)]
      simp only [ok_bind, hln, e2]
      rw [uadd_ok (by omega)]
      simp only [ok_bind, withLeafNode, hsp]
      rw [show len - 1 + 1 = len by omega]
      rfl
    · have := leaf_shows (n := len) w2 (by rw [t2]; simp; omega)
      rw [t2] at this
      simpa [Side.cons, hlen] using this
  · intro h1 t
    have : len = 1 := by omega
    subst this
    refine ⟨rfl, ?_⟩
    unfold popSide
    simp only [hsp, List.isEmpty_nil, if_true, hem, ok_bind, List.length_nil, beq_self_eq_true, massert_true, Bool.not_false]
    rfl

/-- Three items, of which none can be cloned: `pop_front` leaves the first two. -/
example : ∃ v : RVec Nat, Built v ∧ Shows v [1, 2, 3] ∧ v.height = .ok 0 ∧
    (fun (_ : Unit) (_ : List Nat) => (true, ())) () [1, 2, 3] = (true, ()) := by
  obtain ⟨v, e, b, s⟩ := exists_built [1, 2, 3] (by decide)
  refine ⟨v, b, s, ?_, rfl⟩
  have : ((fromIter [1, 2, 3]).bind fun v => v.height) = .ok 0 := by decide +kernel
  rw [e] at this
  exact this

/-- C55 is false for `pop_back` on longer vectors, too: there is a vector of 64 items that are in two leaves, where
the clone of the second one panics after the item is popped from the first, and all items are gone then, while `len` is 64. -/
theorem C55_pop_merge : ∃ v : RVec Nat, Built v ∧ Shows v (List.range 64) ∧
    ∃ w, Stop.left (v.popBackC (failing 2) 0) = some w ∧ w.len = 64 ∧ w.toList = [] ∧ w.get 0 = .error .panic := by
  obtain ⟨u, e, b, s⟩ := exists_built (List.range 65) (by rw [List.length_range]; decide)
  have h : ((fromIter (List.range 65)).bind fun u => u.popBack.bind fun r => .ok (r.1, r.2.toList,
      (Stop.left (r.2.popBackC (failing 2) 0)).map fun w => (w.len, w.toList,
        match w.get 0 with
        | .error .panic => true
        | _ => false))) =
      (.ok (some 64, List.range 64, some (64, [], true)) : M (Option Nat × List Nat × Option (Nat × List Nat × Bool))) := by
    decide +kernel
  rw [e] at h
  simp only [Except.bind] at h
  rcases hp : u.popBack with f | ⟨x, v⟩
  · rw [hp] at h; simp at h
  · rw [hp] at h
    simp only at h
    have h := Except.ok.inj h
    simp only [Prod.mk.injEq] at h
    obtain ⟨-, h2, h3⟩ := h
    have bv : Built v := .popBack b hp
    obtain ⟨k, i⟩ := bv.inv
    refine ⟨v, bv, (RVec.shows_iff i).2 h2, ?_⟩
    rcases hw : Stop.left (v.popBackC (failing 2) 0) with _ | w
    · rw [hw] at h3; simp at h3
    · rw [hw] at h3
      simp only [Option.map_some, Option.some.injEq, Prod.mk.injEq] at h3
      refine ⟨w, rfl, h3.1, h3.2.1, ?_⟩
      have h4 := h3.2.2
      split at h4
      · assumption
      · cases h4

end Librrb
