import Verif.Props.Focus
import Verif.Proof.Places
import Verif.Proof.FocusMutExact

/-!
# Properties of the mutable focus and of `iter_mut`

A mutable focus of `v` hands out places of `v`; the code of the focus runs on `v.cells`, the vector
with each item replaced by the place where it is.
-/
namespace Librrb
open RVec

/-! ### C24 -/

theorem drain_map (f : α → β) (script : List Side) (l : List α) :
    drain script (l.map f) = ((drain script l).1.map (Option.map f), (drain script l).2.map f) := by
  induction script generalizing l with
  | nil => rfl
  | cons s ss ih =>
    have : takeEnd s (l.map f) = ((takeEnd s l).1.map f, (takeEnd s l).2.map f) := by
      cases s <;> simp [takeEnd]
    rw [drain, this]
    simp only [ih]
    rfl

theorem drain_length (script : List Side) (l : List α) :
    (drain script l).2.length = l.length - script.length := by
  induction script generalizing l with
  | nil => rfl
  | cons s ss ih =>
    have : (takeEnd s l).2.length = l.length - 1 := by cases s <;> simp [takeEnd]
    rw [drain, ih, this, List.length_cons]
    omega

/-- C24: `iter_mut` hands out the places of the items. There is a list of places, one for each
position and no two the same, and under every interleaving of `next` and `next_back` the answers are
those of taking these places off the two ends, with `None` when nothing is left; `size_hint` is
exactly what is left. -/
theorem C24_iter_mut {v : RVec α} {l : List α} (b : Built v) (h : Shows v l) (script : List Side) :
    ∃ (cs : List Cell) (it it' : VIterMut Cell), cs.length = l.length ∧ cs.Nodup ∧
      (∀ (i : Nat) (c : Cell), cs[i]? = some c → PlaceOf v l i c) ∧
      VIterMut.new v.cells = .ok it ∧ it.sizeHint = .ok l.length ∧
      runScript VIterMut.step script it = .ok ((drain script cs).1, it') ∧
      it'.sizeHint = .ok (drain script cs).2.length := by
  have hcl := b.cells_length h
  have hnd := b.cells_nodup
  obtain ⟨k, iv⟩ := b.inv
  obtain ⟨it, e, hi, h0, h1⟩ := VIterMut.new_ok iv
  have hint : ∀ (it : VIterMut Cell) m, (VIterMut.Has v.cells.toList it ∧
      (v.cells.toList.take it.back).drop it.front = m) → it.sizeHint = .ok m.length := by
    rintro it m ⟨⟨h1, h2, -⟩, rfl⟩
    rw [VIterMut.sizeHint, usub_ok h1]
    simp
    omega
  have hst : VIterMut.Has v.cells.toList it ∧ (v.cells.toList.take it.back).drop it.front = v.cells.toList :=
    ⟨hi, by rw [h0, h1]; simp⟩
  obtain ⟨it', e', hi'⟩ := runScript_ok (fun it m => VIterMut.Has v.cells.toList it ∧
      (v.cells.toList.take it.back).drop it.front = m)
    (by
      rintro s it _ ⟨hi, rfl⟩
      obtain ⟨it', e, hi', e', -⟩ := VIterMut.step_ok s it hi
      exact ⟨it', e, hi', e'⟩) script hst
  refine ⟨v.cells.toList, it, it', hcl, hnd, ?_, e, ?_, e', hint _ _ hi'⟩
  · intro i c hc
    obtain ⟨hlt, -⟩ := List.getElem?_eq_some_iff.1 hc
    obtain ⟨c', e1, e2⟩ := b.place h (i := i) (by omega)
    rw [hc] at e1
    cases e1
    exact e2
  · rw [hint _ _ hst, hcl]

/-- C24: a loop over `iter_mut`, from either end at each step, that replaces every item by its image
sees the items of the vector in the order in which they are taken off the ends, and leaves the mapped
sequence once it has made as many steps as there are items. -/
theorem C24_iter_mut_map {v : RVec α} {l : List α} (b : Built v) (h : Shows v l) (g : α → α) (script : List Side)
    (hs : l.length ≤ script.length) :
    ∃ it v' it', VIterMut.new v.cells = .ok it ∧
      runScript (mapStep g) script (v, it) = .ok ((drain script l).1, (v', it')) ∧ Built v' ∧ Shows v' (l.map g) := by
  have hcl := b.cells_length h
  obtain ⟨k, iv⟩ := b.inv
  obtain ⟨it, e, hi, h0, h1⟩ := VIterMut.new_ok iv
  have hend : ∀ n, n ≤ l.length → halfMapped g l n n = l.map g := by
    intro n hn
    conv => rhs; rw [← List.take_append_drop n l, List.map_append]
    rw [halfMapped, List.drop_of_length_le (i := n) (l := l.take n) (by simp; omega)]
    simp
  have hbeg : halfMapped g l 0 l.length = l := by simp [halfMapped]
  obtain ⟨⟨v', it'⟩, e', b', hi', s', t'⟩ := runScript_ok
    (fun (st : RVec α × VIterMut Cell) m => Built st.1 ∧ VIterMut.Has v.cells.toList st.2 ∧
      (Shows st.1 (halfMapped g l st.2.front st.2.back) ∧ st.1.cells.toList = v.cells.toList) ∧
      (l.take st.2.back).drop st.2.front = m)
    (by
      rintro s ⟨w, it⟩ _ ⟨b, hi, ⟨s1, s2⟩, rfl⟩
      obtain ⟨w', it', e, b', s', c', hi', e', -⟩ := mapStep_ok g s hcl b s1 s2 hi
      exact ⟨(w', it'), e, b', hi', ⟨s', c'⟩, e'⟩) script (st := (v, it)) (l := l)
    ⟨b, hi, ⟨by simp only [h0, h1, hcl, hbeg]; exact h, rfl⟩, by simp [h0, h1, hcl]⟩
  refine ⟨it, v', it', e, e', b', ?_⟩
  have hlen := congrArg List.length t'
  rw [drain_length] at hlen
  obtain ⟨g1, g2, -⟩ := hi'
  simp only [List.length_drop, List.length_take] at hlen g1 g2
  have hf : it'.front = it'.back := by omega
  have s1 := s'.1
  simp only [hf] at s1
  rwa [hend _ (by omega)] at s1

example : ∃ (v : RVec Nat) (it : VIterMut Cell) (v' : RVec Nat) (it' : VIterMut Cell), Built v ∧
    VIterMut.new v.cells = .ok it ∧
    runScript (mapStep (· * 2)) (List.replicate 2500 .back ++ List.replicate 2600 .front) (v, it) =
      .ok ((drain (List.replicate 2500 .back ++ List.replicate 2600 .front) (List.range 5000)).1, (v', it')) ∧
    Shows v' ((List.range 5000).map (· * 2)) := by
  obtain ⟨v, b, s⟩ := sample
  obtain ⟨it, v', it', e, e', -, s'⟩ := C24_iter_mut_map b s (· * 2)
    (List.replicate 2500 .back ++ List.replicate 2600 .front)
    (by simp only [List.length_append, List.length_replicate, List.length_range]; omega)
  exact ⟨v, it, v', it', b, e, e', s'⟩

/-- C24: if the loop stops early, exactly the items that it took off the ends are replaced. -/
theorem C24_iter_mut_part {v : RVec α} {l : List α} (b : Built v) (h : Shows v l) (g : α → α) (script : List Side) :
    ∃ it v' it', VIterMut.new v.cells = .ok it ∧
      runScript (mapStep g) script (v, it) = .ok ((drain script l).1, (v', it')) ∧ Built v' ∧
      Shows v' (mapEnds g script l) := by
  have hcl := b.cells_length h
  obtain ⟨k, iv⟩ := b.inv
  obtain ⟨it, e, hi, h0, h1⟩ := VIterMut.new_ok iv
  have hbeg : halfMapped g l it.front it.back = l := by simp [halfMapped, h0, h1, hcl]
  obtain ⟨v', it', e', b', s'⟩ := mapScript_ok g script hcl b (by rw [hbeg]; exact h) rfl hi
  refine ⟨it, v', it', e, ?_, b', ?_⟩
  · simpa [h0, h1, hcl] using e'
  · simpa [h0, h1, hcl] using s'

example : ∃ (v : RVec Nat) (it : VIterMut Cell) (v' : RVec Nat) (it' : VIterMut Cell), Built v ∧
    VIterMut.new v.cells = .ok it ∧
    runScript (mapStep (· + 7)) [.front, .back, .front] (v, it) =
      .ok ([some 0, some 200, some 1], (v', it')) ∧
    Shows v' (7 :: 8 :: ((List.range' 2 198) ++ [207])) := by
  obtain ⟨v, -, b, s⟩ := exists_built (List.range 201) (by decide +kernel)
  obtain ⟨it, v', it', e, e', -, s'⟩ := C24_iter_mut_part b s (· + 7) [.front, .back, .front]
  have hd : (drain [.front, .back, .front] (List.range 201)).1 = [some 0, some 200, some 1] := by decide +kernel
  refine ⟨v, it, v', it', b, e, hd ▸ e', ?_⟩
  have : mapEnds (· + 7) [.front, .back, .front] (List.range 201) = 7 :: 8 :: (List.range' 2 198 ++ [207]) := by
    decide +kernel
  rwa [this] at s'

example : ∃ (v : RVec Nat) (it it' : VIterMut Cell) (a c d : Cell), Built v ∧ VIterMut.new v.cells = .ok it ∧
    runScript VIterMut.step [.front, .back, .front] it = .ok ([some a, some c, some d], it') ∧ a ≠ c ∧ a ≠ d ∧
    c ≠ d ∧ it'.sizeHint = .ok 4997 := by
  obtain ⟨v, b, s⟩ := sample
  obtain ⟨cs, it, it', hl, hnd, -, e, -, e', e''⟩ := C24_iter_mut b s [.front, .back, .front]
  have hl : cs.length = 5000 := by rw [hl, List.length_range]
  refine ⟨v, it, it', cs[0], cs[4999], cs[1], b, e, ?_, ?_, ?_, ?_, ?_⟩
  · rw [e']
    simp [drain, takeEnd, List.getLast?_eq_getElem?, List.head?_eq_getElem?, hl]
  · rw [Ne, hnd.getElem_inj_iff]; omega
  · rw [Ne, hnd.getElem_inj_iff]; omega
  · rw [Ne, hnd.getElem_inj_iff]; omega
  · rw [e'']; simp [drain, takeEnd, hl]

/-! ### C32 -/

/-- C32, what holds of it: a mutable focus reads and writes the sequence, as long as all indices that
were asked for before are in range. The indices may come in any order. The operations answer with
the items and leave the sequence that the same operations leave on a plain sequence; then an index
out of range gives `None`, changing nothing. What is missing: after an index out of range the next
access may panic, see `C32_focus_mut_panics`. -/
theorem C32_focus_mut_partial {v : RVec α} {l : List α} (b : Built v) (h : Shows v l) (ops : List (FOp α))
    (hin : ∀ o ∈ ops, o.index < l.length) :
    ∃ f v' f', v.cells.focusMut = .ok f ∧ f.len = l.length ∧
      runAll FOp.run ops (v, f) = .ok ((FOp.specAll ops l).1, (v', f')) ∧ Built v' ∧ Shows v' (FOp.specAll ops l).2 ∧
      ∀ o : FOp α, l.length ≤ o.index → ∃ f'', o.run (v', f') = .ok (none, (v', f'')) := by
  have hcl := b.cells_length h
  obtain ⟨k, iv⟩ := b.inv
  obtain ⟨f, e, ho, hfr⟩ := focusMut_ok (iv.mapAddr fun c _ => c)
  rw [show v.mapAddr (fun c _ => c) = v.cells from rfl] at e ho
  have hs0 : ∀ {β : Type} (m : List β), m.length = l.length → (m.take l.length).drop 0 = m := by
    intro β m hm; rw [← hm]; simp
  obtain ⟨v', f', e1, b', s', c', o', -⟩ := FOp.runAll_ok (lo := 0) (hi := l.length) (cs := v.cells.toList) ops b h rfl
    (Nat.le_refl _) (by rw [hs0 _ hcl]; exact ho) hfr (by simpa using hin)
  rw [hs0 l rfl] at e1 s'
  simp only [List.take_zero, List.nil_append, Nat.zero_max, List.drop_length, List.append_nil] at s'
  refine ⟨f, v', f', e, by rw [ho.len, hcl], e1, b', s', ?_⟩
  intro o hoi
  have hlen : (FOp.specAll ops l).2.length = l.length := by
    have h1 := b'.cells_length s'
    rw [c', hcl] at h1
    exact h1.symm
  have := (FOp.run_ok b' s' (lo := 0) (hi := l.length) (by omega) (by rw [c']; exact o') o).2.1 (by simpa using hoi)
  obtain ⟨f'', e2, -⟩ := this
  exact ⟨f'', e2⟩

/-- C32: `focus[i]` of a fresh focus, or of one that was asked for items before, panics just when the
index is out of range; otherwise it is the place of the `i`-th item. -/
theorem C32_focus_mut_index {v : RVec α} {l : List α} (b : Built v) (h : Shows v l) {f : FMut Cell} {hi : Nat}
    (hf : MBuilt v True f 0 hi) (hhi : hi = l.length) (i : Nat) :
    (i < l.length → ∃ c f', f.index i = .ok (c, f') ∧ PlaceOf v l i c) ∧
      (l.length ≤ i → f.index i = .error .panic) := by
  subst hhi
  obtain ⟨-, -, ho, hfr⟩ := hf.ok b h
  have hcl := b.cells_length h
  have hs0 : (v.cells.toList.take l.length).drop 0 = v.cells.toList := by rw [← hcl]; simp
  rw [hs0] at ho
  constructor
  · intro hi
    obtain ⟨c, e1, e2⟩ := b.place h hi
    obtain ⟨f', e, -⟩ := FMut.get_ok ho (by omega) ((hfr trivial).not_stale i)
    rw [List.getElem?_eq_getElem (by omega)] at e1
    cases e1
    exact ⟨_, f', by simp [FMut.index, e], e2⟩
  · intro hi
    obtain ⟨f', e, -⟩ := FMut.get_out ho (idx := i) (by omega)
    rw [FMut.index, e]; rfl

/-- C32: whatever indices are asked for, in or out of range, the focus either answers every time as
the sequence does or panics; there is never a wrong answer and no undefined behaviour. -/
theorem C32_focus_mut_any {v : RVec α} {l : List α} (b : Built v) (h : Shows v l) (ops : List (FOp α)) :
    ∃ f, v.cells.focusMut = .ok f ∧
      (runAll FOp.run ops (v, f) = .error .panic ∨
        ∃ v' f', runAll FOp.run ops (v, f) = .ok ((FOp.specAll ops l).1, (v', f')) ∧ Built v' ∧
          Shows v' (FOp.specAll ops l).2) := by
  have hcl := b.cells_length h
  obtain ⟨k, iv⟩ := b.inv
  obtain ⟨f, e, ho, -⟩ := focusMut_ok (iv.mapAddr fun c _ => c)
  rw [show v.mapAddr (fun c _ => c) = v.cells from rfl] at e ho
  refine ⟨f, e, ?_⟩
  clear e iv k
  generalize hcs : v.cells.toList = cs at *
  induction ops generalizing v l f with
  | nil => exact .inr ⟨v, f, rfl, b, h⟩
  | cons o os ih =>
    have hs0 : (cs.take l.length).drop 0 = cs := by rw [← hcl]; simp
    have ho' : FMut.Ok f ((v.cells.toList.take l.length).drop 0) := by rw [hcs, hs0]; exact ho
    obtain ⟨-, r2, r3⟩ := FOp.run_ok b h (lo := 0) (Nat.le_refl _) ho' o
    by_cases hi : o.index < l.length
    · cases er : o.run (v, f) with
      | error x =>
        left
        have : x = .panic := by
          by_cases hst : f.root = none → inRange f.llo f.lhi o.index = false
          · obtain ⟨f1, e1, -, hr⟩ := FMut.get_ok ho (idx := o.index) (by omega) hst
            obtain ⟨c, c1, ⟨y, c2, c3⟩, c4⟩ := b.place h hi
            rw [hcs, List.getElem?_eq_getElem (by omega)] at c1
            cases c1
            rw [FOp.run] at er
            simp only at er
            rw [e1, ok_bind] at er
            simp only [FOp.access] at er
            rw [c3, ok_bind] at er
            cases o with
            | read i => cases er
            | write i y' =>
              obtain ⟨v', c5, -⟩ := c4 y'
              simp only at er
              rw [c5] at er
              cases er
          · simp only [not_forall, Bool.not_eq_false] at hst
            obtain ⟨s1, s2⟩ := hst
            rw [FOp.run, FMut.get_stale ho s1 s2] at er
            cases er; rfl
        rw [runAll, er, this]; rfl
      | ok r =>
        obtain ⟨f1, e1, b1, s1, c1, o1⟩ := r3 r er (by simpa using hi)
        rw [hcs] at c1 o1
        rw [hs0] at o1
        have hl1 := shiftedSpec_length 0 o l
        have hsp : shiftedSpec 0 o l = (o.spec l).2 := by cases o <;> simp [shiftedSpec, FOp.spec]
        have hans : l[0 + o.index]? = (o.spec l).1 := by cases o <;> simp [FOp.spec, FOp.index]
        rw [hsp] at s1
        rcases ih b1 s1 f1 c1 (by rw [← hsp, hl1]; exact hcl) o1 with e2 | ⟨v2, f2, e2, b2, s2⟩
        · left
          rw [runAll, er, e1, ok_bind]
          simp only
          rw [e2]; rfl
        · right
          refine ⟨v2, f2, ?_, b2, s2⟩
          rw [runAll, er, e1, ok_bind]
          simp only
          rw [e2, ok_bind, hans]
          rfl
    · obtain ⟨f1, e1, o1⟩ := r2 (by simpa using hi)
      rw [hcs, hs0] at o1
      have hsp : o.spec l = (none, l) := by
        cases o with
        | read i => simp only [FOp.spec, FOp.index] at *; rw [List.getElem?_eq_none (by omega)]
        | write i x =>
          simp only [FOp.spec, FOp.index] at *
          rw [List.getElem?_eq_none (by omega), List.set_eq_of_length_le (by omega)]
      rcases ih b h f1 hcs hcl o1 with e2 | ⟨v2, f2, e2, b2, s2⟩
      · left
        rw [runAll, e1, ok_bind]
        simp only
        rw [e2]; rfl
      · right
        refine ⟨v2, f2, ?_, b2, by rw [FOp.specAll, hsp]; exact s2⟩
        rw [runAll, e1, ok_bind]
        simp only
        rw [e2, ok_bind, FOp.specAll, hsp]

/-- The code against C32: after asking a mutable focus on three items for the first item and then for
one out of range, asking for the first item panics. The range of the leaf that was left is kept when
that leaf is itself a node of the spine, so the next `get` believes it is already there. -/
theorem C32_focus_mut_panics : ∃ (v : RVec Nat) (f f' f'' : FMut Cell) (c : Cell), fromIter [1, 2, 3] = .ok v ∧
    v.cells.focusMut = .ok f ∧ f.get 0 = .ok (some c, f') ∧ f'.get 3 = .ok (none, f'') ∧
    f''.get 0 = .error .panic := by
  have h : ((fromIter [1, 2, 3]).bind fun v => (v.cells.focusMut).bind fun f => (f.get 0).bind fun r =>
      (r.2.get 3).bind fun r' => .ok (r.1 == some (none, [0]), r'.1 == none, (r'.2.get 0).map fun _ => ())) =
      .ok (true, true, .error .panic) := by decide +kernel
  obtain ⟨v, e1, h⟩ := bind_ok h
  obtain ⟨f, e2, h⟩ := bind_ok h
  obtain ⟨⟨x, f'⟩, e3, h⟩ := bind_ok h
  obtain ⟨⟨y, f''⟩, e4, h⟩ := bind_ok h
  simp only [Except.ok.injEq, Prod.mk.injEq, beq_iff_eq] at h
  obtain ⟨rfl, rfl, h⟩ := h
  refine ⟨v, f, f', f'', _, e1, e2, e3, e4, ?_⟩
  cases e : f''.get 0 with
  | error x => rw [e] at h; simpa [Except.map] using h
  | ok r => rw [e] at h; simp [Except.map] at h

/-- C32: exactly when a mutable focus panics. Every vector has two numbers `a` and `c`, the sizes of
its first and its last leaf, such that for every script of reads and writes: if the script is careful,
the focus answers every operation as the sequence does and leaves the sequence that the operations
leave; if it is not, the focus panics. A script is careless just when some index in range comes right
after indices out of range while it shares the first `a` or the last `c` positions with the index in
range asked for before these. -/
theorem C32_focus_mut_exact {v : RVec α} {l : List α} (b : Built v) (h : Shows v l) :
    ∃ f a c, v.cells.focusMut = .ok f ∧
      (l ≠ [] → 0 < a ∧ a ≤ 64 ∧ 0 < c ∧ c ≤ 64 ∧ (a = l.length ∧ c = l.length ∨ a + c ≤ l.length)) ∧
      ∀ ops : List (FOp α),
        (Careful (InEnd a c l.length) l.length none false (ops.map FOp.index) →
          ∃ v' f', runAll FOp.run ops (v, f) = .ok ((FOp.specAll ops l).1, (v', f')) ∧ Built v' ∧
            Shows v' (FOp.specAll ops l).2) ∧
        (¬ Careful (InEnd a c l.length) l.length none false (ops.map FOp.index) →
          runAll FOp.run ops (v, f) = .error .panic) := by
  have hcl := b.cells_length h
  obtain ⟨k, iv⟩ := b.inv
  have iv' := iv.mapAddr fun c _ => c
  obtain ⟨f, e, ho, hfr⟩ := focusMut_ok iv'
  obtain ⟨a, c, ht, hac⟩ := RVec.focusMut_tops iv' e
  rw [show v.mapAddr (fun c _ => c) = v.cells from rfl] at e ho hac
  obtain ⟨h1, h2, h3, h4⟩ : f.root = none ∧ f.llo = 0 ∧ f.lhi = 0 ∧ True := by
    rw [RVec.focusMut] at e
    obtain ⟨ns, -, e⟩ := bind_ok e
    rw [FMut.fromNodes] at e
    obtain ⟨n, -, e⟩ := bind_ok e
    cases e
    exact ⟨rfl, rfl, rfl, trivial⟩
  refine ⟨f, a, c, e, ?_, fun ops => ?_⟩
  · intro hl
    rw [← hcl]
    apply hac
    intro h0
    rw [h0] at hcl
    exact hl (List.eq_nil_of_length_eq_zero hcl.symm)
  · rw [← hcl]
    exact FOp.runAll_exact ops b h rfl ho ⟨ht, by simp [h1], by
      intro i hi
      rw [h2, h3]
      simp [inRange]⟩

/-- C32, what holds of it, for indices in and out of range and without looking at the leaves: a script
is answered right if an index in range that comes right after indices out of range is 64 or more away
from the index in range before these, or one of the two is not among the first or last 64. What is
missing: scripts without this, see `C32_focus_mut_end_panics`. -/
theorem C32_focus_mut_careful_partial {v : RVec α} {l : List α} (b : Built v) (h : Shows v l) (ops : List (FOp α))
    (hc : Careful (fun i j => i < j + 64 ∧ j < i + 64 ∧ InEnd 64 64 l.length i j) l.length none false (ops.map FOp.index)) :
    ∃ f v' f', v.cells.focusMut = .ok f ∧
      runAll FOp.run ops (v, f) = .ok ((FOp.specAll ops l).1, (v', f')) ∧ Built v' ∧ Shows v' (FOp.specAll ops l).2 := by
  obtain ⟨f, a, c, e, hac, hx⟩ := C32_focus_mut_exact b h
  obtain ⟨v', f', e', b', s'⟩ := (hx ops).1 (Careful.mono (by
    intro i j hi hj hs
    have := hac (by rintro rfl; simp at hi)
    unfold InEnd at *
    omega) (by simp) hc)
  exact ⟨f, v', f', e, e', b', s'⟩

/-- The code against C32, for every vector with items: asking a mutable focus for the first or the last
item, then for anything out of range, then for the same item again, panics. -/
theorem C32_focus_mut_end_panics {v : RVec α} {l : List α} (b : Built v) (h : Shows v l) {i out : Nat}
    (hi : i < l.length) (hend : i = 0 ∨ i + 1 = l.length) (hout : l.length ≤ out) :
    ∃ f, v.cells.focusMut = .ok f ∧ runAll FOp.run [.read i, .read out, .read i] (v, f) = .error .panic ∧
      (FOp.specAll [.read i, .read out, .read i] l).1 = [l[i]?, none, l[i]?] := by
  obtain ⟨f, a, c, e, hac, hx⟩ := C32_focus_mut_exact b h
  refine ⟨f, e, (hx _).2 ?_, ?_⟩
  · intro hc
    have := hac (by rintro rfl; simp at hi)
    have h1 := ((((hc.1 hi).2).2 hout).1 hi).1 rfl i rfl
    apply h1
    simp only [FOp.index, InEnd]
    omega
  · simp [FOp.specAll, FOp.spec, List.getElem?_eq_none hout]

example : ∃ (v : RVec Nat) (f : FMut Cell) (v' : RVec Nat) (f' : FMut Cell), Built v ∧ v.cells.focusMut = .ok f ∧
    runAll FOp.run [.read 4999, .write 17 0, .write 2500 1, .read 17, .write 17 5, .read 2500] (v, f) =
      .ok ([some 4999, some 17, some 2500, some 0, some 0, some 1], (v', f')) ∧
    Shows v' (((List.range 5000).set 2500 1).set 17 5) := by
  obtain ⟨v, b, s⟩ := sample
  obtain ⟨f, v', f', e, -, e', -, s', -⟩ := C32_focus_mut_partial b s
    [.read 4999, .write 17 0, .write 2500 1, .read 17, .write 17 5, .read 2500] (by simp [FOp.index])
  refine ⟨v, f, v', f', b, e, ?_, ?_⟩
  · rw [e']; simp [FOp.specAll, FOp.spec]
  · convert s' using 1
    simp only [FOp.specAll, FOp.spec]
    rw [List.set_comm _ _ (show (17 : Nat) ≠ 2500 by omega), List.set_set]

example : ∃ (v : RVec Nat) (f : FMut Cell) (v' : RVec Nat) (f' : FMut Cell), Built v ∧ v.cells.focusMut = .ok f ∧
    runAll FOp.run [.read 4999, .write 5000 7, .write 17 0, .read 9000, .read 2500, .read 5000, .read 2500, .read 6000, .read 17] (v, f) =
      .ok ([some 4999, none, some 17, none, some 2500, none, some 2500, none, some 0], (v', f')) ∧
    Shows v' ((List.range 5000).set 17 0) := by
  obtain ⟨v, b, s⟩ := sample
  obtain ⟨f, v', f', e, e', -, s'⟩ := C32_focus_mut_careful_partial b s
    [.read 4999, .write 5000 7, .write 17 0, .read 9000, .read 2500, .read 5000, .read 2500, .read 6000, .read 17]
    (by simp [Careful, FOp.index, InEnd])
  refine ⟨v, f, v', f', b, e, ?_, ?_⟩
  · rw [e']; simp [FOp.specAll, FOp.spec]
  · have : ((List.range 5000).set 5000 7) = List.range 5000 := List.set_eq_of_length_le (by simp)
    simpa [FOp.specAll, FOp.spec, this] using s'

example : ∃ (v : RVec Nat) (f : FMut Cell) (a c : Nat), Built v ∧ v.cells.focusMut = .ok f ∧ 0 < a ∧ 0 < c ∧
    ∀ i, i < 5000 → (runAll FOp.run [.read 3, .read 5000, .write i 8] (v, f) = .error .panic ↔ i < a ∧ 3 < a) := by
  obtain ⟨v, b, s⟩ := sample
  obtain ⟨f, a, c, e, hac, hx⟩ := C32_focus_mut_exact b s
  have h1 := hac (by decide +kernel)
  rw [List.length_range] at h1 hx
  refine ⟨v, f, a, c, b, e, h1.1, h1.2.2.1, fun i hi => ?_⟩
  have hca : Careful (InEnd a c 5000) 5000 none false ([.read 3, .read 5000, .write i 8].map (FOp.index (α := Nat))) ↔
      ¬ (i < a ∧ 3 < a) := by
    simp [Careful, FOp.index, InEnd]
    omega
  obtain ⟨x1, x2⟩ := hx [.read 3, .read 5000, .write i 8]
  rw [hca] at x1 x2
  constructor
  · intro hp
    by_contra hn
    obtain ⟨v', f', e', -⟩ := x1 hn
    rw [hp] at e'; cases e'
  · intro hp
    exact x2 (by simpa using hp)

example : ∃ (v : RVec Nat) (f : FMut Cell), Built v ∧ v.cells.focusMut = .ok f ∧
    runAll FOp.run [.read 4999, .read 123456, .read 4999] (v, f) = .error .panic := by
  obtain ⟨v, b, s⟩ := sample
  obtain ⟨f, e, e', -⟩ := C32_focus_mut_end_panics b s (i := 4999) (out := 123456) (by simp) (by simp) (by simp)
  exact ⟨v, f, b, e, e'⟩

example : ∃ (v : RVec Nat) (f : FMut Cell), Built v ∧ MBuilt v True f 0 5000 ∧ f.index 5000 = .error .panic := by
  obtain ⟨v, b, s⟩ := sample
  obtain ⟨f, -, -, e, -⟩ := C32_focus_mut_partial b s [] (by simp)
  have hb : MBuilt v True f 0 v.len := .new e
  rw [s.1, List.length_range] at hb
  exact ⟨v, f, b, hb, (C32_focus_mut_index b s hb (by simp) 5000).2 (by simp)⟩

/-! ### C33 -/

/-- C33: a mutable focus over the positions `lo..hi`, however it was split off before, gives for
`i < hi - lo` the place of the item at `lo + i`, and `None` beyond. -/
theorem C33_range {v : RVec α} {l : List α} (b : Built v) (h : Shows v l) {f : FMut Cell} {lo hi : Nat}
    (hf : MBuilt v True f lo hi) : lo ≤ hi ∧ hi ≤ l.length ∧ f.len = hi - lo ∧
      (∀ i, i < hi - lo → ∃ c f', f.get i = .ok (some c, f') ∧ PlaceOf v l (lo + i) c) ∧
      (∀ i, hi - lo ≤ i → ∃ f', f.get i = .ok (none, f')) := by
  obtain ⟨h1, h2, ho, hfr⟩ := hf.ok b h
  have hcl := b.cells_length h
  have hsl := slice_length (lo := lo) v.cells.toList (hi := hi) (by omega)
  refine ⟨h1, h2, by rw [ho.len, hsl], ?_, ?_⟩
  · intro i hi'
    obtain ⟨c, e1, e2⟩ := b.place h (i := lo + i) (by omega)
    obtain ⟨f', e, -⟩ := FMut.get_ok ho (idx := i) (by omega) ((hfr trivial).not_stale i)
    have : ((v.cells.toList.take hi).drop lo)[i]? = some c := by rw [slice_getElem?, if_pos (by omega), e1]
    rw [List.getElem?_eq_getElem (by omega)] at this
    rw [Option.some.inj this] at e
    exact ⟨c, f', e, e2⟩
  · intro i hi'
    obtain ⟨f', e, -⟩ := FMut.get_out ho (idx := i) (by omega)
    exact ⟨f', e⟩

/-- C33: splitting a mutable focus over `lo..hi` at `i` gives a focus over `lo..lo+i` and one over
`lo+i..hi`; it panics just when `i` is beyond the end. This needs nothing about earlier accesses. -/
theorem C33_split_at {v : RVec α} {l : List α} (b : Built v) (h : Shows v l) {f : FMut Cell} {lo hi : Nat} {tame : Prop}
    (hf : MBuilt v tame f lo hi) (i : Nat) :
    (i ≤ hi - lo → ∃ f1 f2, f.splitAt i = .ok (f1, f2) ∧ MBuilt v tame f1 lo (lo + i) ∧ MBuilt v tame f2 (lo + i) hi ∧
      f1.len = i ∧ f2.len = hi - lo - i) ∧
    (hi - lo < i → f.splitAt i = .error .panic) := by
  obtain ⟨h1, h2, ho, -⟩ := hf.ok b h
  have hcl := b.cells_length h
  have hsl := slice_length (lo := lo) v.cells.toList (hi := hi) (by omega)
  constructor
  · intro hi'
    obtain ⟨f1, f2, e, o1, o2, -⟩ := FMut.splitAt_ok ho (index := i) (by omega)
    refine ⟨f1, f2, e, .splitFirst hf e, .splitSecond hf e, ?_, ?_⟩
    · rw [o1.len, List.length_take, hsl]; omega
    · rw [o2.len, List.length_drop, hsl]
  · intro hi'
    exact FMut.splitAt_panic ho (by omega)

/-- C33: no place is handed out by two mutable foci over disjoint ranges, in particular by the two
halves of a split, whatever they were asked before. -/
theorem C33_disjoint {v : RVec α} (b : Built v) {f g : FMut Cell} {a₁ b₁ a₂ b₂ : Nat} {tame : Prop}
    (hf : MBuilt v tame f a₁ b₁) (hg : MBuilt v tame g a₂ b₂) (hd : b₁ ≤ a₂) {i j : Nat} {c d : Cell} {f' g' : FMut Cell}
    (e₁ : f.get i = .ok (some c, f')) (e₂ : g.get j = .ok (some d, g')) : c ≠ d := by
  obtain ⟨k, iv⟩ := b.inv
  have h := (shows_iff iv).2 rfl
  have hcl := b.cells_length h
  have key : ∀ {f : FMut Cell} {lo hi i : Nat} {c : Cell} {f' : FMut Cell}, MBuilt v tame f lo hi →
      f.get i = .ok (some c, f') → ∃ n, lo ≤ n ∧ n < hi ∧ v.cells.toList[n]? = some c := by
    intro f lo hi i c f' hf e
    obtain ⟨h1, h2, ho, -⟩ := hf.ok b h
    have hsl := slice_length (lo := lo) v.cells.toList (hi := hi) (by omega)
    by_cases hi' : i < hi - lo
    · by_cases hst : f.root = none → inRange f.llo f.lhi i = false
      · obtain ⟨f1, e1, -⟩ := FMut.get_ok ho (idx := i) (by omega) hst
        rw [e] at e1
        simp only [Except.ok.injEq, Prod.mk.injEq, Option.some.injEq] at e1
        refine ⟨lo + i, by omega, by omega, ?_⟩
        rw [e1.1, ← List.getElem?_eq_getElem, slice_getElem?, if_pos (by omega)]
      · simp only [not_forall, Bool.not_eq_false] at hst
        obtain ⟨s1, s2⟩ := hst
        rw [FMut.get_stale ho s1 s2] at e; cases e
    · obtain ⟨f1, e1, -⟩ := FMut.get_out ho (idx := i) (by omega)
      rw [e] at e1; cases e1
  obtain ⟨n, n1, n2, n3⟩ := key hf e₁
  obtain ⟨m, m1, m2, m3⟩ := key hg e₂
  rintro rfl
  obtain ⟨hn, n4⟩ := List.getElem?_eq_some_iff.1 n3
  obtain ⟨hm, m4⟩ := List.getElem?_eq_some_iff.1 m3
  have := (b.cells_nodup.getElem_inj_iff (hi := hn) (hj := hm)).1 (n4.trans m4.symm)
  omega

example : ∃ (v : RVec Nat) (f f1 f2 f3 f4 f' : FMut Cell) (c : Cell), Built v ∧ v.cells.focusMut = .ok f ∧
    f.splitAt 3000 = .ok (f1, f2) ∧ f2.splitAt 700 = .ok (f3, f4) ∧ MBuilt v True f4 3700 5000 ∧
    f4.get 100 = .ok (some c, f') ∧ PlaceOf v (List.range 5000) 3800 c ∧ f4.splitAt 1301 = .error .panic := by
  obtain ⟨v, b, s⟩ := sample
  obtain ⟨f, -, -, e, -⟩ := C32_focus_mut_partial b s [] (by simp)
  have hb : MBuilt v True f 0 v.len := .new e
  rw [s.1, List.length_range] at hb
  obtain ⟨f1, f2, e1, -, b2, -⟩ := (C33_split_at b s hb 3000).1 (by omega)
  obtain ⟨f3, f4, e2, -, b4, -⟩ := (C33_split_at b s b2 700).1 (by omega)
  obtain ⟨-, -, -, hget, -⟩ := C33_range b s b4
  obtain ⟨c, f', e3, hp⟩ := hget 100 (by omega)
  exact ⟨v, f, f1, f2, f3, f4, f', c, b, e, e1, e2, b4, e3, hp, (C33_split_at b s b4 1301).2 (by omega)⟩

example : ∃ (v : RVec Nat) (f f1 f2 f' g' : FMut Cell) (c d : Cell), Built v ∧ v.cells.focusMut = .ok f ∧
    f.splitAt 3000 = .ok (f1, f2) ∧ f1.get 2999 = .ok (some c, f') ∧ f2.get 0 = .ok (some d, g') ∧ c ≠ d := by
  obtain ⟨v, b, s⟩ := sample
  obtain ⟨f, -, -, e, -⟩ := C32_focus_mut_partial b s [] (by simp)
  have hb : MBuilt v True f 0 v.len := .new e
  rw [s.1, List.length_range] at hb
  obtain ⟨f1, f2, e1, b1, b2, -⟩ := (C33_split_at b s hb 3000).1 (by omega)
  obtain ⟨c, f', e3, -⟩ := (C33_range b s b1).2.2.2.1 2999 (by omega)
  obtain ⟨d, g', e4, -⟩ := (C33_range b s b2).2.2.2.1 0 (by omega)
  exact ⟨v, f, f1, f2, f', g', c, d, b, e, e1, e3, e4, C33_disjoint b b1 b2 (by omega) e3 e4⟩

/-! ### C34 -/

/-- C34: any number of workers, each with a mutable focus on a range of its own and the ranges
disjoint, read and write in any order `sched`. No operation fails. Each worker gets the answers it
would get if it worked alone on its part of the sequence, and its part ends as if it had worked
alone; items outside of all ranges stay. -/
theorem C34_workers [DecidableEq ι] {v : RVec α} {l : List α} (b : Built v) (h : Shows v l) {F : ι → FMut Cell}
    {lo hi : ι → Nat} (hF : ∀ k, MBuilt v True (F k) (lo k) (hi k))
    (hdis : ∀ j k, j ≠ k → hi j ≤ lo k ∨ hi k ≤ lo j) (sched : List (ι × FOp α))
    (hin : ∀ o ∈ sched, o.2.index < hi o.1 - lo o.1) :
    ∃ (answers : List (Option α)) (l' : List α) (v' : RVec α) (F' : ι → FMut Cell),
      runAll FOp.runWorker sched (v, F) = .ok (answers, (v', F')) ∧ Built v' ∧ Shows v' l' ∧ l'.length = l.length ∧
      answers.length = sched.length ∧
      (∀ k, answersOf k sched answers = (FOp.specAll (opsOf k sched) ((l.take (hi k)).drop (lo k))).1 ∧
        (l'.take (hi k)).drop (lo k) = (FOp.specAll (opsOf k sched) ((l.take (hi k)).drop (lo k))).2) ∧
      ∀ i, (∀ k, i < lo k ∨ hi k ≤ i) → l'[i]? = l[i]? := by
  obtain ⟨v', F', e, b', s'⟩ := runWorker_ok (lo := lo) (hi := hi) (cs := v.cells.toList) sched (F := F) b h rfl
    (fun k => ((hF k).ok b h).2.1) (fun k => ⟨((hF k).ok b h).2.2.1, ((hF k).ok b h).2.2.2 trivial⟩) hin
  obtain ⟨p1, p2⟩ := flatRun_proj hdis sched l hin
  obtain ⟨q1, q2⟩ := flatRun_length lo sched l
  exact ⟨_, _, v', F', e, b', s', q2, q1, p1, p2⟩

/-- C34: the schedule does not matter. Two schedules in which each worker does the same operations in
the same order leave the same sequence, and give each worker the same answers. -/
theorem C34_schedule [DecidableEq ι] {v : RVec α} {l : List α} (b : Built v) (h : Shows v l) {F : ι → FMut Cell}
    {lo hi : ι → Nat} (hF : ∀ k, MBuilt v True (F k) (lo k) (hi k))
    (hdis : ∀ j k, j ≠ k → hi j ≤ lo k ∨ hi k ≤ lo j) (sched₁ sched₂ : List (ι × FOp α))
    (hin₁ : ∀ o ∈ sched₁, o.2.index < hi o.1 - lo o.1) (hin₂ : ∀ o ∈ sched₂, o.2.index < hi o.1 - lo o.1)
    (hsame : ∀ k, opsOf k sched₁ = opsOf k sched₂) :
    ∃ (l' : List α) (ans₁ ans₂ : List (Option α)) (v₁ v₂ : RVec α) (F₁ F₂ : ι → FMut Cell),
      runAll FOp.runWorker sched₁ (v, F) = .ok (ans₁, (v₁, F₁)) ∧ runAll FOp.runWorker sched₂ (v, F) = .ok (ans₂, (v₂, F₂)) ∧
      Shows v₁ l' ∧ Shows v₂ l' ∧ ∀ k, answersOf k sched₁ ans₁ = answersOf k sched₂ ans₂ := by
  obtain ⟨a₁, l₁, v₁, F₁, e₁, -, s₁, n₁, -, p₁, q₁⟩ := C34_workers b h hF hdis sched₁ hin₁
  obtain ⟨a₂, l₂, v₂, F₂, e₂, -, s₂, n₂, -, p₂, q₂⟩ := C34_workers b h hF hdis sched₂ hin₂
  have hl : l₂ = l₁ := by
    apply List.ext_getElem?
    intro i
    by_cases hi' : ∀ k, i < lo k ∨ hi k ≤ i
    · rw [q₁ i hi', q₂ i hi']
    · simp only [not_forall, not_or, Nat.not_lt, Nat.not_le] at hi'
      obtain ⟨k, h1, h2⟩ := hi'
      have := (p₂ k).2.trans ((congrArg (fun z => (FOp.specAll z ((l.take (hi k)).drop (lo k))).2) (hsame k)).symm.trans (p₁ k).2.symm)
      have := congrArg (fun z => z[i - lo k]?) this
      simp only [slice_getElem?] at this
      rw [if_pos (by omega), if_pos (by omega), show lo k + (i - lo k) = i by omega] at this
      exact this
  subst hl
  refine ⟨l₂, a₁, a₂, v₁, v₂, F₁, F₂, e₁, e₂, s₁, s₂, fun k => ?_⟩
  rw [(p₁ k).1, (p₂ k).1, hsame k]

/-- C34 for the two halves of a split focus: running the two scripts interleaved in any way leaves
what running the first and then the second leaves. -/
theorem C34_halves {v : RVec α} {l : List α} (b : Built v) (h : Shows v l) {f f1 f2 : FMut Cell} {i : Nat}
    (hf : v.cells.focusMut = .ok f) (hs : f.splitAt i = .ok (f1, f2)) (sched : List (Side × FOp α))
    (hin : ∀ o ∈ sched, o.2.index < match o.1 with | .front => i | .back => l.length - i) :
    ∃ (ans₁ ans₂ : List (Option α)) (l' : List α) (v₁ v₂ : RVec α) (F₁ F₂ : Side → FMut Cell),
      runAll FOp.runWorker sched (v, fun | .front => f1 | .back => f2) = .ok (ans₁, (v₁, F₁)) ∧
      runAll FOp.runWorker ((opsOf .front sched).map (Prod.mk .front) ++ (opsOf .back sched).map (Prod.mk .back))
        (v, fun | .front => f1 | .back => f2) = .ok (ans₂, (v₂, F₂)) ∧
      Shows v₁ l' ∧ Shows v₂ l' ∧
      l' = (FOp.specAll (opsOf .front sched) (l.take i)).2 ++ (FOp.specAll (opsOf .back sched) (l.drop i)).2 := by
  have hb : MBuilt v True f 0 v.len := .new hf
  rw [h.1] at hb
  have hi : i ≤ l.length := by
    by_contra hc
    rw [(C33_split_at b h hb i).2 (by omega)] at hs
    cases hs
  have b1 : MBuilt v True f1 0 i := by simpa using MBuilt.splitFirst hb hs
  have b2 : MBuilt v True f2 i l.length := by simpa using MBuilt.splitSecond hb hs
  let lo : Side → Nat := fun | .front => 0 | .back => i
  let hi' : Side → Nat := fun | .front => i | .back => l.length
  have hF : ∀ k : Side, MBuilt v True ((fun | .front => f1 | .back => f2 : Side → FMut Cell) k) (lo k) (hi' k) := by
    intro k; cases k
    · exact b1
    · exact b2
  have hdis : ∀ j k : Side, j ≠ k → hi' j ≤ lo k ∨ hi' k ≤ lo j := by
    intro j k hjk
    cases j <;> cases k <;> simp_all [lo, hi']
  have hin1 : ∀ o ∈ sched, o.2.index < hi' o.1 - lo o.1 := by
    intro o ho
    have := hin o ho
    obtain ⟨s, o⟩ := o
    cases s <;> simpa [lo, hi'] using this
  have hops : ∀ (k : Side) (s : Side) (os : List (FOp α)), opsOf k (os.map (Prod.mk s)) = if s = k then os else [] := by
    intro k s os
    induction os with
    | nil => simp [opsOf]
    | cons o os ih =>
      simp only [opsOf, List.map_cons, List.filter_cons] at ih ⊢
      by_cases hk : s = k <;> simp_all
  have happ : ∀ (k : Side) (a c : List (Side × FOp α)), opsOf k (a ++ c) = opsOf k a ++ opsOf k c := by
    intro k a c; simp [opsOf]
  have hmem : ∀ (k : Side) o, o ∈ opsOf k sched → (k, o) ∈ sched := by
    intro k o ho
    simp only [opsOf, List.mem_map, List.mem_filter, decide_eq_true_eq] at ho
    obtain ⟨⟨s, o'⟩, ⟨h1, h2⟩, rfl⟩ := ho
    simp only at h2
    subst h2
    exact h1
  obtain ⟨l', a₁, a₂, v₁, v₂, F₁, F₂, e₁, e₂, s₁, s₂, -⟩ := C34_schedule b h hF hdis sched
    ((opsOf .front sched).map (Prod.mk .front) ++ (opsOf .back sched).map (Prod.mk .back)) hin1
    (by
      intro o ho
      simp only [List.mem_append, List.mem_map] at ho
      rcases ho with ⟨o', h1, rfl⟩ | ⟨o', h1, rfl⟩
      · exact hin1 _ (hmem _ _ h1)
      · exact hin1 _ (hmem _ _ h1))
    (by intro k; rw [happ, hops, hops]; cases k <;> simp)
  refine ⟨a₁, a₂, l', v₁, v₂, F₁, F₂, e₁, e₂, s₁, s₂, ?_⟩
  obtain ⟨a, l'', v', F', e, b', s', n1, -, p, -⟩ := C34_workers b h hF hdis sched hin1
  rw [e] at e₁
  cases e₁
  obtain ⟨k', iv'⟩ := b'.inv
  have hl : l' = l'' := by rw [← (shows_iff iv').1 s₁, ← (shows_iff iv').1 s']
  subst hl
  have p1 := (p .front).2
  have p2 := (p .back).2
  simp only [lo, hi', List.drop_zero] at p1 p2
  rw [← n1] at p2
  simp only [List.take_length] at p2
  rw [n1, List.take_length] at p2
  rw [← p1, ← p2, List.take_append_drop]

example : ∃ (v : RVec Nat) (f f1 f2 : FMut Cell) (v' : RVec Nat) (F' : Side → FMut Cell) (ans : List (Option Nat)),
    Built v ∧ v.cells.focusMut = .ok f ∧ f.splitAt 2000 = .ok (f1, f2) ∧
    runAll FOp.runWorker [(.front, .write 5 0), (.back, .write 5 1), (.front, .write 5 2), (.back, .read 5)]
      (v, fun | .front => f1 | .back => f2) = .ok (ans, (v', F')) ∧
    Shows v' (((List.range 5000).take 2000).set 5 2 ++ ((List.range 5000).drop 2000).set 5 1) := by
  obtain ⟨v, b, s⟩ := sample
  have hl : (List.range 5000).length = 5000 := List.length_range
  generalize List.range 5000 = l at *
  obtain ⟨f, -, -, e, -⟩ := C32_focus_mut_partial b s [] (by simp)
  have hb : MBuilt v True f 0 v.len := .new e
  rw [s.1, hl] at hb
  obtain ⟨f1, f2, e1, -⟩ := (C33_split_at b s hb 2000).1 (by omega)
  obtain ⟨a₁, a₂, l', v₁, v₂, F₁, F₂, e₁, -, s₁, -, rfl⟩ := C34_halves b s e e1
    [(.front, .write 5 0), (.back, .write 5 1), (.front, .write 5 2), (.back, .read 5)]
    (by
      intro o ho
      simp only [List.mem_cons, List.not_mem_nil, or_false] at ho
      rcases ho with rfl | rfl | rfl | rfl <;> simp only [hl, FOp.index] <;> omega)
  refine ⟨v, f, f1, f2, v₁, F₁, a₁, b, e, e1, e₁, ?_⟩
  convert s₁ using 1
  simp only [opsOf, List.filter_cons, List.filter_nil, reduceCtorEq, decide_false, decide_true, if_true, if_false,
    Bool.false_eq_true, List.map_cons, List.map_nil, FOp.specAll, FOp.spec, List.set_set]

end Librrb
