import Verif.Props.Sort
import Verif.Props.Search
import Verif.Props.FocusMut
import Verif.Proof.Pieces

/-!
# Programs over several vectors
-/
namespace Librrb
open RVec

/-- The variables hold vectors of the API that present the given sequences. -/
def Holding (vs : List (RVec α)) (ls : List (List α)) : Prop :=
  vs.length = ls.length ∧ ∀ (i : Nat) (v : RVec α), vs[i]? = some v → Built v ∧ ∃ l, ls[i]? = some l ∧ Shows v l

/-- The result `r` on vectors is the result `q` on sequences. -/
def SameResult (r : M (β × List (RVec α))) (q : M (β × List (List α))) : Prop :=
  match q with
  | .error e => r = .error e
  | .ok (a, ls) => ∃ vs, r = .ok (a, vs) ∧ Holding vs ls

theorem Holding.nil : Holding ([] : List (RVec α)) [] := ⟨rfl, by simp⟩

theorem Holding.get {vs : List (RVec α)} {ls : List (List α)} (h : Holding vs ls) {i : Nat} {v : RVec α}
    (e : vs[i]? = some v) : ∃ l, ls[i]? = some l ∧ Built v ∧ Shows v l := by
  obtain ⟨b, l, e', s⟩ := h.2 i v e
  exact ⟨l, e', b, s⟩

theorem Holding.none {vs : List (RVec α)} {ls : List (List α)} (h : Holding vs ls) {i : Nat}
    (e : vs[i]? = none) : ls[i]? = none := by
  have := h.1
  rw [List.getElem?_eq_none_iff] at e ⊢
  omega

theorem Holding.append {vs : List (RVec α)} {ls : List (List α)} (h : Holding vs ls) {ws : List (RVec α)}
    {ms : List (List α)} (h' : Holding ws ms) : Holding (vs ++ ws) (ls ++ ms) := by
  refine ⟨by simp [h.1, h'.1], fun i v e => ?_⟩
  rw [List.getElem?_append] at e ⊢
  rw [← h.1]
  by_cases hi : i < vs.length
  · rw [if_pos hi] at e ⊢
    exact h.2 i v e
  · rw [if_neg hi] at e ⊢
    exact h'.2 _ v e

theorem Holding.one {v : RVec α} {l : List α} (b : Built v) (s : Shows v l) : Holding [v] [l] := by
  refine ⟨rfl, fun i w e => ?_⟩
  cases i with
  | zero => cases e; exact ⟨b, l, rfl, s⟩
  | succ i => simp at e

theorem Holding.set {vs : List (RVec α)} {ls : List (List α)} (h : Holding vs ls) (i : Nat) {v : RVec α} {l : List α}
    (b : Built v) (s : Shows v l) : Holding (vs.set i v) (ls.set i l) := by
  refine ⟨by simp [h.1], fun j w e => ?_⟩
  rw [List.getElem?_set] at e ⊢
  rw [← h.1]
  by_cases hij : i = j
  · rw [if_pos hij] at e ⊢
    by_cases hj : i < vs.length
    · rw [if_pos hj] at e ⊢; cases e; exact ⟨b, l, rfl, s⟩
    · rw [if_neg hj] at e; cases e
  · rw [if_neg hij] at e ⊢
    exact h.2 j w e

theorem Holding.eraseIdx {vs : List (RVec α)} {ls : List (List α)} (h : Holding vs ls) (i : Nat) :
    Holding (vs.eraseIdx i) (ls.eraseIdx i) := by
  refine ⟨by simp [List.length_eraseIdx, h.1], fun j w e => ?_⟩
  rw [List.getElem?_eraseIdx] at e ⊢
  split at e
  next hj => rw [if_pos hj]; exact h.2 _ w e
  next hj => rw [if_neg hj]; exact h.2 _ w e

theorem shows_new : Shows (RVec.new : RVec α) [] := (shows_iff new_inv).2 new_toList

/-- The result of a call on one vector, as one on sequences. -/
def SameAct (r : M (Answer α × RVec α × List (RVec α))) (q : M (Answer α × List α × List (List α))) : Prop :=
  match q with
  | .error e => r = .error e
  | .ok (a, l, ls) => ∃ v vs, r = .ok (a, v, vs) ∧ Built v ∧ Shows v l ∧ Holding vs ls

theorem looseRange_cases {n : Nat} {sb eb : Bound} (h1 : sb.Fits) (h2 : eb.Fits) (hn : n < USIZE_LIMIT) :
    (looseRange n sb eb = .ok (sb.first, eb.afterLast n) ∧ sb.first < USIZE_LIMIT ∧ eb.afterLast n < USIZE_LIMIT) ∨
    (looseRange n sb eb = .error .overflow ∧ (rangeStart sb = .error .overflow ∨
      (rangeStart sb = .ok sb.first ∧ rangeEnd n eb = .error .overflow))) := by
  by_cases h : sb.first < USIZE_LIMIT ∧ eb.afterLast n < USIZE_LIMIT
  · left
    exact ⟨if_pos h, h⟩
  · right
    refine ⟨if_neg h, ?_⟩
    by_cases hs : sb.first < USIZE_LIMIT
    · right
      refine ⟨rangeStart_first hs, ?_⟩
      cases eb with
      | unbounded => simp only [Bound.afterLast] at h; omega
      | included x => simp only [Bound.afterLast] at h; exact if_neg (by omega)
      | excluded x => simp only [Bound.afterLast, Bound.Fits] at h h2; omega
    · left
      cases sb with
      | unbounded => simp [Bound.first] at hs
      | included x => simp only [Bound.first, Bound.Fits] at hs h1; omega
      | excluded x => simp only [Bound.first] at hs; exact if_neg hs

theorem act_ok {v : RVec α} {l : List α} (b : Built v) (h : Shows v l) (a : Act α) (hf : a.Fits) :
    ∃ q, a.Means l q ∧ SameAct (a.run v) q := by
  have hlt := b.length_lt h
  have hlen := h.1
  have one : ∀ {r : M (Answer α × RVec α × List (RVec α))} {a : Answer α} {v' : RVec α} {l' : List α},
      r = .ok (a, v', []) → Built v' → Shows v' l' → SameAct r (.ok (a, l', [])) :=
    fun e b s => ⟨_, _, e, b, s, Holding.nil⟩
  cases a with
  | len => exact ⟨_, rfl, one (by rw [← hlen]; rfl) b h⟩
  | isEmpty => exact ⟨_, rfl, one (by rw [← hlen]; rfl) b h⟩
  | get i => exact ⟨_, rfl, one (by simp only [Act.run, h.2 i, ok_bind]) b h⟩
  | front => exact ⟨_, rfl, one (by simp only [Act.run, (C08_front_back b h).1, ok_bind]) b h⟩
  | back => exact ⟨_, rfl, one (by simp only [Act.run, (C08_front_back b h).2, ok_bind]) b h⟩
  | iterate script =>
    obtain ⟨it, it', e1, -, e2, -⟩ := C23_iter b h script
    exact ⟨_, rfl, one (by simp only [Act.run, e1, e2, ok_bind]) b h⟩
  | set i x =>
    refine ⟨_, rfl, ?_⟩
    by_cases hi : i < l.length
    · obtain ⟨v', e, b', s'⟩ := (C07_get_mut b h i x).1 hi
      exact one (by simp only [Act.run, e, ok_bind, assigned, hi, decide_true]) b' s'
    · rw [List.set_eq_of_length_le (by omega)]
      exact one (by simp only [Act.run, (C07_get_mut b h i x).2 (by omega), ok_bind, assigned, hi, decide_false]) b h
  | setEnd s x =>
    by_cases hn : l = []
    · subst hn
      refine ⟨.ok (.flag false, [], []), by cases s <;> simp [Act.Means], ?_⟩
      have := (C08_front_back_mut b h x).1 rfl
      cases s
      · exact one (by simp only [Act.run, this.1, ok_bind, assigned]) b h
      · exact one (by simp only [Act.run, this.2, ok_bind, assigned]) b h
    · obtain ⟨⟨v1, e1, b1, s1⟩, v2, e2, b2, s2⟩ := (C08_front_back_mut b h x).2 hn
      cases s
      · exact ⟨_, rfl, one (by simp only [Act.run, e1, ok_bind, assigned]; simp [hn]) b1 s1⟩
      · exact ⟨_, rfl, one (by simp only [Act.run, e2, ok_bind, assigned]; simp [hn]) b2 s2⟩
  | pushBack x =>
    refine ⟨_, rfl, ?_⟩
    by_cases hl : l.length + 1 < USIZE_LIMIT
    · obtain ⟨v', e, b', s'⟩ := C01_push_back b h x hl
      rw [fitting, if_pos (by simpa using hl)]
      exact one (by simp only [Act.run, e, ok_bind]) b' s'
    · rw [fitting, if_neg (by simpa using hl)]
      show _ = _
      simp only [Act.run, (C01_push_back_full b h x hl).1]
      rfl
  | pushFront x =>
    refine ⟨_, rfl, ?_⟩
    by_cases hl : l.length + 1 < USIZE_LIMIT
    · obtain ⟨v', e, b', s'⟩ := C02_push_front b h x hl
      rw [fitting, if_pos (by simpa using hl)]
      exact one (by simp only [Act.run, e, ok_bind]) b' s'
    · rw [fitting, if_neg (by simpa using hl)]
      show _ = _
      simp only [Act.run, (C01_push_back_full b h x hl).2]
      rfl
  | popBack =>
    obtain ⟨v', e, b', s'⟩ := C03_pop_back b h
    exact ⟨_, rfl, one (by simp only [Act.run, e, ok_bind]) b' s'⟩
  | popFront =>
    obtain ⟨v', e, b', s'⟩ := C04_pop_front b h
    exact ⟨_, rfl, one (by simp only [Act.run, e, ok_bind]) b' s'⟩
  | splitOff i =>
    obtain ⟨x, y, e, b1, b2, s1, s2⟩ := C11_split_off b h i
    exact ⟨_, rfl, x, [y], by simp only [Act.run, e, ok_bind], b1, s1, .one b2 s2⟩
  | sliceFromStart n =>
    obtain ⟨v', e, b', s'⟩ := (C13_slices b h n).1
    exact ⟨_, rfl, one (by simp only [Act.run, e, ok_bind]) b' s'⟩
  | sliceToEnd n =>
    obtain ⟨v', e, b', s'⟩ := (C13_slices b h n).2
    exact ⟨_, rfl, one (by simp only [Act.run, e, ok_bind]) b' s'⟩
  | extractSlice sb eb =>
    refine ⟨_, rfl, ?_⟩
    rcases looseRange_cases (n := l.length) hf.1 hf.2 hlt with ⟨e, h1, h2⟩ | ⟨e, h1⟩
    · obtain ⟨w, r, e', b1, b2, g1, g2⟩ := C14_extract_slice b h sb eb h1 h2
      simp only [e, ok_bind]
      split
      next hle =>
        exact ⟨w, [r], by simp only [Act.run, e', ok_bind], b1, (g1 hle).1, .one b2 (g1 hle).2⟩
      next hle =>
        have hle' : eb.afterLast l.length ≤ sb.first := by omega
        exact ⟨w, [r], by simp only [Act.run, e', ok_bind], b1, (g2 hle').1, .one b2 (g2 hle').2⟩
    · simp only [e]
      show _ = _
      rw [← hlen] at h1
      rcases h1 with h1 | ⟨h1, h2⟩
      · simp only [Act.run, extractSlice, h1]; rfl
      · simp only [Act.run, extractSlice, h1, ok_bind, h2]; rfl
  | insert i x =>
    refine ⟨_, rfl, ?_⟩
    by_cases hl : l.length + 1 < USIZE_LIMIT
    · obtain ⟨v', e, b', s'⟩ := C15_insert b h i x hl
      rw [fitting, if_pos (by simpa using hl)]
      exact one (by simp only [Act.run, e, ok_bind]) b' s'
    · rw [fitting, if_neg (by simpa using hl)]
      show _ = _
      simp only [Act.run, C15_insert_full b h i x hl]
      rfl
  | remove i =>
    obtain ⟨v', e, b', s'⟩ := C16_remove b h i
    exact ⟨_, rfl, one (by simp only [Act.run, e, ok_bind]) b' s'⟩
  | reverseRange sb eb =>
    refine ⟨_, rfl, ?_⟩
    rcases looseRange_cases (n := l.length) hf.1 hf.2 hlt with ⟨e, h1, h2⟩ | ⟨e, h1⟩
    · simp only [strictRange, e, ok_bind]
      by_cases hr : sb.first ≤ eb.afterLast l.length ∧ eb.afterLast l.length ≤ l.length
      · obtain ⟨v', e', b', s'⟩ := (C38_reverse_range b h sb eb h1 h2).1 hr.1 hr.2
        rw [if_pos hr]
        exact one (by simp only [Act.run, e', ok_bind]) b' s'
      · rw [if_neg hr]
        show _ = _
        simp only [Act.run, (C38_reverse_range b h sb eb h1 h2).2 (by omega)]
        rfl
    · simp only [strictRange, e]
      show _ = _
      rw [← hlen] at h1
      rcases h1 with h1 | ⟨h1, h2⟩
      · simp only [Act.run, reverseRange, h1]; rfl
      · simp only [Act.run, reverseRange, h1, ok_bind, h2]; rfl
  | sortRange cmp total draws sb eb =>
    rcases looseRange_cases (n := l.length) hf.1 hf.2 hlt with ⟨e, h1, h2⟩ | ⟨e, h1⟩
    · by_cases hr : sb.first ≤ eb.afterLast l.length ∧ eb.afterLast l.length ≤ l.length
      · obtain ⟨v', m, e', b', s', p, q⟩ := C36_sort_range b h cmp sb eb hr.1 hr.2 (fun n : Nat => (draws n, n + 1)) 0
        have es : strictRange l.length sb eb = .ok (sb.first, eb.afterLast l.length) := by
          simp only [strictRange, e, ok_bind]
          rw [if_pos hr]
        refine ⟨_, ⟨fun _ => m, fun p' hp => ?_, rfl⟩, ?_⟩
        · rw [es] at hp
          cases hp
          exact ⟨p, q⟩
        · rw [es]
          exact one (by simp only [Act.run, e', ok_bind]) b' s'
      · have es : strictRange l.length sb eb = .error .panic := by
          simp only [strictRange, e, ok_bind]
          rw [if_neg hr]
        refine ⟨_, ⟨fun _ => [], fun p' hp => ?_, rfl⟩, ?_⟩
        · rw [es] at hp
          cases hp
        · rw [es]
          show _ = _
          simp only [Act.run, C36_sort_range_refused b h cmp sb eb h1 h2 (by omega) (fun n : Nat => (draws n, n + 1)) 0]
          rfl
    · have es : strictRange l.length sb eb = .error .overflow := by
        simp only [strictRange, e]
        rfl
      refine ⟨_, ⟨fun _ => [], fun p' hp => ?_, rfl⟩, ?_⟩
      · rw [es] at hp
        cases hp
      · rw [es]
        show _ = _
        rw [← hlen] at h1
        rcases h1 with h1 | ⟨h1, h2⟩
        · simp only [Act.run, sortRangeBy, h1]; rfl
        · simp only [Act.run, sortRangeBy, h1, ok_bind, h2]; rfl
  | focusRead is =>
    obtain ⟨f, e1, r, -⟩ := C29_focus b h
    obtain ⟨f', e2⟩ := r is hf
    exact ⟨_, rfl, one (by simp only [Act.run, e1, e2, ok_bind]) b h⟩
  | mapEnds g script =>
    obtain ⟨it, v', it', e1, e2, b', s'⟩ := C24_iter_mut_part b h g script
    exact ⟨_, rfl, one (by simp only [Act.run, e1, e2, ok_bind]) b' s'⟩
  | editFocus ops =>
    by_cases hin : ∃ o ∈ ops, l.length ≤ o.index
    · obtain ⟨f, e1, e2 | ⟨v', f', e2, b', s'⟩⟩ := C32_focus_mut_any b h ops
      · refine ⟨_, .inr ⟨rfl, hin⟩, ?_⟩
        show _ = _
        simp only [Act.run, e1, e2, ok_bind]
        rfl
      · exact ⟨_, .inl rfl, one (by simp only [Act.run, e1, e2, ok_bind]) b' s'⟩
    · obtain ⟨f, v', f', e1, -, e2, b', s', -⟩ := C32_focus_mut_partial b h ops
        (fun o ho => Nat.lt_of_not_le fun hle => hin ⟨o, ho, hle⟩)
      exact ⟨_, .inl rfl, one (by simp only [Act.run, e1, e2, ok_bind]) b' s'⟩
  | shareFocus ops =>
    obtain ⟨f, e1, o1, f1⟩ := focusMut_pieces b h
    rcases TOp.runAll_ok ops (ls := [l]) (tame := True) b (by simpa using h) (css := [v.cells.toList]) (by simp) ⟨o1, f1⟩ with
      ⟨e, hx⟩ | ⟨as, ls', v', fs', e3, e4, b', s'⟩
    · rcases hx with hx | hx | hx
      · refine ⟨_, .inl rfl, ?_⟩
        rw [hx]
        show _ = _
        simp only [Act.run, e1, e, ok_bind]
        rfl
      · exact absurd trivial hx
      · refine ⟨_, .inr ⟨rfl, hx⟩, ?_⟩
        show _ = _
        simp only [Act.run, e1, e, ok_bind]
        rfl
    · refine ⟨_, .inl rfl, ?_⟩
      rw [e3]
      exact one (by simp only [Act.run, e1, e4, ok_bind]) b' s'

theorem call_ok {vs : List (RVec α)} {ls : List (List α)} (h : Holding vs ls) (c : Call α) (hf : c.Fits) :
    ∃ q, c.Means ls q ∧ SameResult (c.run vs) q := by
  cases c with
  | new => exact ⟨_, rfl, _, rfl, h.append (.one .new shows_new)⟩
  | singleton x =>
    obtain ⟨v, k, e, i, t, -⟩ := singleton_ok x
    exact ⟨_, rfl, vs ++ [v], by simp only [Call.run, e, ok_bind], h.append (.one (.singleton e) ((shows_iff i).2 t))⟩
  | collect items =>
    refine ⟨_, rfl, ?_⟩
    by_cases hl : items.length < USIZE_LIMIT
    · obtain ⟨v, e, b, s⟩ := exists_built items hl
      rw [fitting, if_pos hl]
      exact ⟨vs ++ [v], by simp only [Call.run, e, ok_bind], h.append (.one b s)⟩
    · rw [fitting, if_neg hl]
      show _ = _
      simp only [Call.run, fromIter, pushAll_full items (v := RVec.new) new_inv (by simpa [new_toList] using hl)]
      rfl
  | clone v =>
    refine ⟨_, rfl, _, rfl, h.append ?_⟩
    cases e : vs[v]? with
    | none => rw [h.none e]; exact .nil
    | some x =>
      obtain ⟨l, e', b, s⟩ := h.get e
      rw [e']
      exact .one b s
  | act v a =>
    simp only [Call.Means, Call.run]
    cases e : vs[v]? with
    | none => rw [h.none e]; exact ⟨_, rfl, vs, rfl, h⟩
    | some x =>
      obtain ⟨l, e', b, s⟩ := h.get e
      obtain ⟨q, m, r⟩ := act_ok b s a hf
      rw [e']
      refine ⟨_, ⟨q, m, rfl⟩, ?_⟩
      dsimp only
      cases q with
      | error f => rw [SameAct] at r; rw [r]; exact rfl
      | ok q =>
        obtain ⟨w, ws, er, bw, sw, hw⟩ := r
        exact ⟨vs.set v w ++ ws, by rw [er]; rfl, (h.set v bw sw).append hw⟩
  | append v w =>
    simp only [Call.Means, Call.run]
    have h' := h.set w .new shows_new
    cases e1 : (vs.set w RVec.new)[v]? with
    | none => rw [h'.none e1]; exact ⟨_, rfl, vs, rfl, h⟩
    | some x =>
      obtain ⟨l, e1', b1, s1⟩ := h'.get e1
      rw [e1']
      cases e2 : vs[w]? with
      | none => rw [h.none e2]; exact ⟨_, rfl, vs, rfl, h⟩
      | some y =>
        obtain ⟨m, e2', b2, s2⟩ := h.get e2
        rw [e2']
        refine ⟨_, rfl, ?_⟩
        by_cases hl : l.length + m.length < USIZE_LIMIT
        · obtain ⟨z, e, b, s⟩ := C09_append b1 b2 s1 s2 hl
          rw [fitting, if_pos (by simpa using hl)]
          exact ⟨_, by simp only [e, ok_bind], h'.set v b s⟩
        · rw [fitting, if_neg (by simpa using hl)]
          show _ = _
          simp only [(C09_append_full b1 b2 s1 s2 hl).1]
          rfl
  | prepend v w =>
    simp only [Call.Means, Call.run]
    have h' := h.set w .new shows_new
    cases e1 : (vs.set w RVec.new)[v]? with
    | none => rw [h'.none e1]; exact ⟨_, rfl, vs, rfl, h⟩
    | some x =>
      obtain ⟨l, e1', b1, s1⟩ := h'.get e1
      rw [e1']
      cases e2 : vs[w]? with
      | none => rw [h.none e2]; exact ⟨_, rfl, vs, rfl, h⟩
      | some y =>
        obtain ⟨m, e2', b2, s2⟩ := h.get e2
        rw [e2']
        refine ⟨_, rfl, ?_⟩
        by_cases hl : l.length + m.length < USIZE_LIMIT
        · obtain ⟨z, e, b, s⟩ := C10_prepend b1 b2 s1 s2 hl
          rw [fitting, if_pos (by simp; omega)]
          exact ⟨_, by simp only [e, ok_bind], h'.set v b s⟩
        · rw [fitting, if_neg (by simp; omega)]
          show _ = _
          simp only [(C09_append_full b1 b2 s1 s2 hl).2]
          rfl
  | compare cmp v w =>
    simp only [Call.Means, Call.run]
    cases e1 : vs[v]? with
    | none => rw [h.none e1]; exact ⟨_, rfl, vs, rfl, h⟩
    | some x =>
      obtain ⟨l, e1', b1, s1⟩ := h.get e1
      rw [e1']
      cases e2 : vs[w]? with
      | none => rw [h.none e2]; exact ⟨_, rfl, vs, rfl, h⟩
      | some y =>
        obtain ⟨m, e2', b2, s2⟩ := h.get e2
        rw [e2']
        exact ⟨_, rfl, vs, by simp only [C43_cmp cmp b1 s1 b2 s2, ok_bind], h⟩
  | drop v => exact ⟨_, rfl, _, rfl, h.eraseIdx v⟩
  | intoIter v script =>
    simp only [Call.Means, Call.run]
    cases e1 : vs[v]? with
    | none => rw [h.none e1]; exact ⟨_, rfl, vs, rfl, h⟩
    | some x =>
      obtain ⟨l, e1', b1, s1⟩ := h.get e1
      rw [e1']
      obtain ⟨v', e, -⟩ := C25_into_iter b1 s1 script
      exact ⟨_, rfl, _, by simp only [e, ok_bind], h.eraseIdx v⟩
  | constant x n =>
    refine ⟨_, rfl, ?_⟩
    by_cases hn : n < 2 ^ 63
    · obtain ⟨v, e, b, s⟩ := C27_constant_partial x n hn
      rw [if_pos hn]
      exact ⟨vs ++ [v], by simp only [Call.run, e, ok_bind], h.append (.one b s)⟩
    · rw [if_neg hn]
      show _ = _
      simp only [Call.run, constantVec_overflow x (Nat.le_of_not_lt hn)]
      rfl
  | dualSort cmp total draws sb eb v w =>
    simp only [Call.Means, Call.run]
    by_cases hvw : v = w
    · simp only [hvw, if_true]
      exact ⟨_, rfl, vs, rfl, h⟩
    simp only [if_neg hvw]
    cases e1 : vs[v]? with
    | none => rw [h.none e1]; exact ⟨_, rfl, vs, rfl, h⟩
    | some x =>
      obtain ⟨l, e1', b1, s1⟩ := h.get e1
      rw [e1']
      cases e2 : vs[w]? with
      | none => rw [h.none e2]; exact ⟨_, rfl, vs, rfl, h⟩
      | some y =>
        obtain ⟨m, e2', b2, s2⟩ := h.get e2
        rw [e2']
        rcases looseRange_cases (n := l.length) hf.1 hf.2 (b1.length_lt s1) with ⟨e, h1, h2⟩ | ⟨e, h1⟩
        · by_cases hr : sb.first ≤ eb.afterLast l.length ∧ eb.afterLast l.length ≤ l.length
          · have es : strictRange l.length sb eb = .ok (sb.first, eb.afterLast l.length) := by
              simp only [strictRange, e, ok_bind]
              rw [if_pos hr]
            by_cases hm : eb.afterLast l.length ≤ m.length
            · obtain ⟨v', w', L, e', b', b'', s', s'', p, q⟩ := C37_dual_sort_range b1 s1 b2 s2 cmp sb eb hr.1 hr.2 hm
                (fun n : Nat => (draws n, n + 1)) 0
              refine ⟨_, ⟨fun _ => L, fun p' hp _ => ?_, rfl⟩, ?_⟩
              · rw [es] at hp
                cases hp
                exact ⟨p, q⟩
              · simp only [es, ok_bind, if_pos hm]
                exact ⟨_, by simp only [e', ok_bind], (h.set v b' s').set w b'' s''⟩
            · refine ⟨_, ⟨fun _ => [], fun p' hp hle => ?_, rfl⟩, ?_⟩
              · rw [es] at hp
                cases hp
                exact absurd hle hm
              · simp only [es, ok_bind, if_neg hm]
                show _ = _
                simp only [C37_dual_sort_refused b1 s1 b2 s2 cmp sb eb h1 h2 (by omega) (fun n : Nat => (draws n, n + 1)) 0]
                rfl
          · have es : strictRange l.length sb eb = .error .panic := by
              simp only [strictRange, e, ok_bind]
              rw [if_neg hr]
            refine ⟨_, ⟨fun _ => [], fun p' hp => ?_, rfl⟩, ?_⟩
            · rw [es] at hp
              cases hp
            · rw [es]
              show _ = _
              simp only [C37_dual_sort_refused b1 s1 b2 s2 cmp sb eb h1 h2 (by omega) (fun n : Nat => (draws n, n + 1)) 0]
              rfl
        · have es : strictRange l.length sb eb = .error .overflow := by
            simp only [strictRange, e]
            rfl
          refine ⟨_, ⟨fun _ => [], fun p' hp => ?_, rfl⟩, ?_⟩
          · rw [es] at hp
            cases hp
          · rw [es]
            show _ = _
            rw [← s1.1] at h1
            rcases h1 with h1 | ⟨h1, h2⟩
            · simp only [dualSortRangeBy, h1]; rfl
            · simp only [dualSortRangeBy, h1, ok_bind, h2]; rfl

/-- C17: a program gives the answers, and leaves the contents, that the same program has on plain sequences;
and it panics just where the program on sequences does (out of range, or at the largest length). -/
theorem C17_history {vs : List (RVec α)} {ls : List (List α)} (h : Holding vs ls) (prog : List (Call α))
    (hf : ∀ c ∈ prog, c.Fits) : ∃ q, ProgramMeans prog ls q ∧ SameResult (runProgram prog vs) q := by
  induction prog generalizing vs ls with
  | nil => exact ⟨_, rfl, vs, rfl, h⟩
  | cons c cs ih =>
    obtain ⟨q, m, r⟩ := call_ok h c (hf c (by simp))
    simp only [runProgram, runAll]
    cases q with
    | error e =>
      rw [SameResult] at r
      exact ⟨.error e, ⟨_, m, rfl⟩, by rw [r]; rfl⟩
    | ok q =>
      obtain ⟨ws, er, hw⟩ := r
      obtain ⟨q', m', r'⟩ := ih hw (fun c hc => hf c (by simp [hc]))
      refine ⟨_, ⟨_, m, q', m', rfl⟩, ?_⟩
      rw [er]
      simp only [ok_bind]
      cases q' with
      | error e =>
        rw [SameResult] at r'
        show _ = _
        simp only [runProgram] at r'
        rw [r']
        rfl
      | ok q' =>
        obtain ⟨us, er', hu⟩ := r'
        simp only [runProgram] at er'
        exact ⟨us, by rw [er']; rfl, hu⟩

/-- C17: the vectors of a program stay in a usable state. -/
theorem C17_usable {prog : List (Call α)} (hf : ∀ c ∈ prog, c.Fits) {answers : List (Answer α)} {vs : List (RVec α)}
    (e : runProgram prog [] = .ok (answers, vs)) : ∀ v ∈ vs, Built v ∧ v.assertInvariants = .ok true := by
  obtain ⟨q, -, r⟩ := C17_history (α := α) Holding.nil prog hf
  intro v hv
  cases q with
  | error f => rw [SameResult, e] at r; cases r
  | ok q =>
    obtain ⟨us, er, hu⟩ := r
    rw [e] at er
    cases er
    obtain ⟨i, hi, rfl⟩ := List.getElem_of_mem hv
    have b := (hu.2 i _ (List.getElem?_eq_getElem hi)).1
    exact ⟨b, C18_invariants b⟩

/-- A program that the theorem speaks about, with the answers of the modelled code. -/
def sampleProgram : List (Call Nat) :=
  [.collect (List.range 200), .clone 0, .act 0 (.splitOff 123), .append 1 2, .act 1 (.insert 7 8),
    .act 1 (.extractSlice (.included 3) (.included 4)), .prepend 0 1, .act 0 (.get 5), .act 0 .len, .act 1 .len,
    .act 0 (.reverseRange .unbounded (.excluded 3)), .act 0 (.iterate [.front, .back]), .act 3 .popFront,
    .act 0 (.mapEnds (· + 1) [.back, .front]), .act 0 (.editFocus [.read 398, .write 1 77]), .act 0 (.focusRead [0, 1, 999]),
    .act 0 (.shareFocus [.split 0 200, .use 1 (.write 0 55), .use 0 (.read 199), .split 1 9, .use 1 (.read 0)]),
    .constant 9 3, .drop 2, .intoIter 3 [.back, .front, .front, .front]]

example : (∀ c ∈ sampleProgram, c.Fits) ∧
    (runProgram sampleProgram []).map (fun r => (r.1, r.2.length)) =
      .ok ([.none, .none, .none, .none, .none, .none, .none, .item (some 8), .size 399, .size 0, .none,
        .items [some 2, some 122], .item (some 3),
        .items [some 122, some 2], .items [some 123, some 1], .items [some 3, some 77, none],
        .items [none, some 124, some 123, none, some 55],
        .none, .none, .items [some 9, some 9, some 9, none]], 3) :=
  ⟨by simp [sampleProgram, Call.Fits, Act.Fits, Bound.Fits], by decide +kernel⟩

end Librrb
