import Verif.History
import Verif.Proof.Places

/-!
# The pieces of a mutable focus
-/
namespace Librrb
open RVec

/-- An operation through a focus on the middle of the places: as on the middle of the sequence, or, if an index out of range
came before, a panic. -/
theorem FOp.run_middle {v : RVec α} {l1 l l2 : List α} (b : Built v) (h : Shows v (l1 ++ l ++ l2)) {f : FMut Cell}
    {c1 c c2 : List Cell} (hc : v.cells.toList = c1 ++ c ++ c2) (h1 : c1.length = l1.length) (h2 : c.length = l.length)
    (hf : FMut.Ok f c) (o : FOp α) :
    (o.run (v, f) = .error .panic ∧ ¬ f.Fresh) ∨
    ∃ v' f', o.run (v, f) = .ok ((o.spec l).1, (v', f')) ∧ Built v' ∧ Shows v' (l1 ++ (o.spec l).2 ++ l2) ∧
      v'.cells.toList = c1 ++ c ++ c2 ∧ FMut.Ok f' c ∧ (o.spec l).2.length = l.length ∧ (o.index < l.length → f.Fresh → f'.Fresh) := by
  have hs : (v.cells.toList.take (l1.length + l.length)).drop l1.length = c := by
    rw [hc, ← h1, ← h2, ← List.length_append, List.take_left', List.drop_left' rfl]
    rfl
  have hll : (o.spec l).2.length = l.length := by cases o <;> simp [FOp.spec]
  obtain ⟨r1, r2, r3⟩ := FOp.run_ok (lo := l1.length) (hi := l1.length + l.length) b h (by simp) (by rw [hs]; exact hf) o
  rw [hs] at r1 r2 r3
  rw [Nat.add_sub_cancel_left] at r1 r2 r3
  have spec : o.index < l.length → (l1 ++ l ++ l2)[l1.length + o.index]? = (o.spec l).1 ∧
      shiftedSpec l1.length o (l1 ++ l ++ l2) = l1 ++ (o.spec l).2 ++ l2 := by
    intro hi
    cases o with
    | read i =>
      simp only [FOp.index] at hi ⊢
      refine ⟨?_, rfl⟩
      rw [List.append_assoc, List.getElem?_append_right (by omega), Nat.add_sub_cancel_left, List.getElem?_append_left hi]
      rfl
    | write i x =>
      simp only [FOp.index] at hi ⊢
      refine ⟨?_, ?_⟩
      · rw [List.append_assoc, List.getElem?_append_right (by omega), Nat.add_sub_cancel_left, List.getElem?_append_left hi]
        rfl
      · simp only [shiftedSpec, FOp.spec]
        rw [List.append_assoc, List.set_append_right _ _ (by omega), Nat.add_sub_cancel_left, List.set_append_left _ _ hi,
          List.append_assoc]
  by_cases hi : o.index < l.length
  · obtain ⟨s1, s2⟩ := spec hi
    by_cases hfr : f.Fresh
    · right
      obtain ⟨v', f', e, b', s', c', o', fr'⟩ := r1 hi hfr
      rw [s1] at e
      rw [s2] at s'
      exact ⟨v', f', e, b', s', c'.trans hc, o', hll, fun _ _ => fr'⟩
    · cases er : o.run (v, f) with
      | error x =>
        left
        refine ⟨?_, hfr⟩
        by_cases hst : f.root = none → inRange f.llo f.lhi o.index = false
        · exfalso
          obtain ⟨f1, e1, -, hr⟩ := FMut.get_ok hf (idx := o.index) (by omega) hst
          obtain ⟨d, d1, ⟨y, d2, d3⟩, d4⟩ := b.place h (i := l1.length + o.index) (by simp; omega)
          have hd : d = c[o.index] := by
            rw [hc, List.append_assoc, List.getElem?_append_right (by omega), h1, Nat.add_sub_cancel_left,
              List.getElem?_append_left (by omega), List.getElem?_eq_getElem (by omega)] at d1
            exact (Option.some.inj d1).symm
          subst hd
          rw [FOp.run] at er
          simp only at er
          rw [e1, ok_bind] at er
          simp only [FOp.access] at er
          rw [d3, ok_bind] at er
          cases o with
          | read i => cases er
          | write i y' =>
            obtain ⟨v', d5, -⟩ := d4 y'
            simp only at er
            rw [d5] at er
            cases er
        · simp only [not_forall, Bool.not_eq_false] at hst
          obtain ⟨t1, t2⟩ := hst
          rw [FOp.run, FMut.get_stale hf t1 t2] at er
          cases er; rfl
      | ok r =>
        right
        obtain ⟨f', e, b', s', c', o'⟩ := r3 r er hi
        rw [s1] at e
        rw [s2] at s'
        exact ⟨r.2.1, f', by rw [e], b', s', c'.trans hc, o', hll, fun _ hf => absurd hf hfr⟩
  · right
    obtain ⟨f', e, o'⟩ := r2 (by omega)
    have hsp : o.spec l = (none, l) := by
      cases o with
      | read i => simp only [FOp.spec, FOp.index] at *; rw [List.getElem?_eq_none (by omega)]
      | write i x =>
        simp only [FOp.spec, FOp.index] at *
        rw [List.getElem?_eq_none (by omega), List.set_eq_of_length_le (by omega)]
    rw [hsp]
    exact ⟨v, f', e, b, h, hc, o', rfl, fun hi' => absurd hi' hi⟩

/-- The pieces: foci on consecutive places. -/
def Pieces (tame : Prop) (fs : List (FMut Cell)) (ls : List (List α)) (css : List (List Cell)) : Prop :=
  List.Forall₂ (fun c l => c.length = l.length) css ls ∧
  List.Forall₂ (fun f c => FMut.Ok f c ∧ (tame → f.Fresh)) fs css

theorem split_at_index : ∀ {l : List γ} {k : Nat} {x : γ}, l[k]? = some x → l = l.take k ++ x :: l.drop (k + 1) ∧ k < l.length
  | [], k, x, e => by simp at e
  | y :: l, 0, x, e => by simp at e; simp [e]
  | y :: l, k + 1, x, e => by
    simp only [List.getElem?_cons_succ] at e
    obtain ⟨h1, h2⟩ := split_at_index e
    refine ⟨?_, by simpa using h2⟩
    simp only [List.take_succ_cons, List.drop_succ_cons, List.cons_append]
    rw [← h1]

theorem set_at_index {l : List γ} {k : Nat} {x : γ} (e : l[k]? = some x) (y : γ) : l.set k y = l.take k ++ y :: l.drop (k + 1) := by
  rw [List.set_eq_take_append_cons_drop, if_pos (split_at_index e).2]

theorem forall₂_at {R : γ → δ → Prop} {a : List γ} {b : List δ} (h : List.Forall₂ R a b) {k : Nat} {x : γ} (e : a[k]? = some x) :
    ∃ y, b[k]? = some y ∧ R x y ∧ List.Forall₂ R (a.take k) (b.take k) ∧ List.Forall₂ R (a.drop (k + 1)) (b.drop (k + 1)) := by
  induction h generalizing k with
  | nil => simp at e
  | @cons p q a b hr ht ih =>
    cases k with
    | zero => simp at e; subst e; exact ⟨q, rfl, hr, by simp, by simpa using ht⟩
    | succ k =>
      obtain ⟨y, h1, h2, h3, h4⟩ := ih (k := k) (by simpa using e)
      exact ⟨y, by simpa using h1, h2, by simpa using ⟨hr, h3⟩, by simpa using h4⟩

theorem forall₂_join {R : γ → δ → Prop} {a a' : List γ} {b b' : List δ} {x : γ} {y : δ} (h1 : List.Forall₂ R a b) (h2 : R x y)
    (h3 : List.Forall₂ R a' b') : List.Forall₂ R (a ++ x :: a') (b ++ y :: b') :=
  List.rel_append h1 (.cons h2 h3)

theorem flatten_length_eq {css : List (List Cell)} {ls : List (List α)} (h : List.Forall₂ (fun c l => c.length = l.length) css ls) :
    css.flatten.length = ls.flatten.length := by
  induction h with
  | nil => rfl
  | cons h _ ih => simp [h, ih]

/-- One piece. -/
theorem focusMut_pieces {v : RVec α} {l : List α} (b : Built v) (h : Shows v l) :
    ∃ f, v.cells.focusMut = .ok f ∧ List.Forall₂ (fun c l => c.length = l.length) [v.cells.toList] [l] ∧
      List.Forall₂ (fun f c => FMut.Ok f c ∧ (True → f.Fresh)) [f] [v.cells.toList] := by
  have hcl := b.cells_length h
  obtain ⟨k, iv⟩ := b.inv
  obtain ⟨f, e, ho, hf⟩ := focusMut_ok (iv.mapAddr fun c _ => c)
  rw [show v.mapAddr (fun c _ => c) = v.cells from rfl] at e ho
  exact ⟨f, e, .cons hcl .nil, .cons ⟨ho, fun _ => hf⟩ .nil⟩

/-- One step. -/
theorem TOp.run_ok {v : RVec α} {ls : List (List α)} {css : List (List Cell)} {fs : List (FMut Cell)} {tame : Prop} (b : Built v)
    (h : Shows v ls.flatten) (hc : v.cells.toList = css.flatten) (hp : Pieces tame fs ls css) (t : TOp α) :
    (t.run (v, fs) = .error .panic ∧ (t.spec ls = .error .panic ∨ ¬ tame)) ∨
    ∃ a ls' css' v' fs', t.spec ls = .ok (a, ls') ∧ t.run (v, fs) = .ok (a, (v', fs')) ∧ Built v' ∧ Shows v' ls'.flatten ∧
      v'.cells.toList = css'.flatten ∧
      Pieces (tame ∧ ¬ ∃ k o l, t = .use k o ∧ ls[k]? = .some l ∧ l.length ≤ o.index) fs' ls' css' := by
  obtain ⟨p1, p2⟩ := hp
  have weak : ∀ {fs : List (FMut Cell)} {css : List (List Cell)} {q : Prop},
      List.Forall₂ (fun f c => FMut.Ok f c ∧ (tame → f.Fresh)) fs css →
      List.Forall₂ (fun f c => FMut.Ok f c ∧ (tame ∧ q → f.Fresh)) fs css :=
    fun h => h.imp fun _ _ hx => ⟨hx.1, fun ht => hx.2 ht.1⟩
  have none_case : ∀ k : Nat, fs[k]? = none → ls[k]? = none := by
    intro k hk
    rw [List.getElem?_eq_none_iff] at hk ⊢
    rw [← p1.length_eq, ← p2.length_eq]
    exact hk
  cases t with
  | use k o =>
    cases hk : fs[k]? with
    | none =>
      right
      refine ⟨none, ls, css, v, fs, by simp only [TOp.spec, none_case k hk], by simp only [TOp.run, hk], b, h, hc, p1, weak p2⟩
    | some f =>
      obtain ⟨c, hck, ⟨ho, hfr⟩, q1, q2⟩ := forall₂_at p2 hk
      obtain ⟨l, hlk, hl, q3, q4⟩ := forall₂_at p1 hck
      have el := (split_at_index hlk).1
      have ec := (split_at_index hck).1
      have hs : Shows v ((ls.take k).flatten ++ l ++ (ls.drop (k + 1)).flatten) := by
        rw [el] at h
        simpa using h
      have hcs : v.cells.toList = (css.take k).flatten ++ c ++ (css.drop (k + 1)).flatten := by
        rw [hc]
        conv => lhs; rw [ec]
        simp
      rcases FOp.run_middle b hs hcs (flatten_length_eq q3) hl ho o with ⟨e, hn⟩ | ⟨v', f', e, b', s', c', o', l', fr'⟩
      · left
        exact ⟨by simp only [TOp.run, hk, e]; rfl, .inr fun ht => hn (hfr ht)⟩
      · right
        refine ⟨(o.spec l).1, ls.set k (o.spec l).2, css, v', fs.set k f', by simp only [TOp.spec, hlk],
          by simp only [TOp.run, hk, e, ok_bind], b', ?_, ?_, ?_, ?_⟩
        · rw [set_at_index hlk]; simpa using s'
        · rw [c']
          conv => rhs; rw [ec]
          simp
        · rw [set_at_index hlk]
          conv => arg 2; rw [ec]
          exact forall₂_join q3 (by rw [l', hl]) q4
        · rw [set_at_index hk]
          conv => arg 3; rw [ec]
          refine forall₂_join (weak q1) ⟨o', fun ⟨ht, hx⟩ => fr' ?_ (hfr ht)⟩ (weak q2)
          by_contra hlt
          exact hx ⟨k, o, l, rfl, hlk, by omega⟩
  | split k i =>
    cases hk : fs[k]? with
    | none =>
      right
      refine ⟨none, ls, css, v, fs, by simp only [TOp.spec, none_case k hk], by simp only [TOp.run, hk], b, h, hc, p1, weak p2⟩
    | some f =>
      obtain ⟨c, hck, ⟨ho, hfr⟩, q1, q2⟩ := forall₂_at p2 hk
      obtain ⟨l, hlk, hl, q3, q4⟩ := forall₂_at p1 hck
      have el := (split_at_index hlk).1
      have ec := (split_at_index hck).1
      by_cases hi : i ≤ l.length
      · right
        obtain ⟨f1, f2, e, o1, o2, hfr'⟩ := FMut.splitAt_ok ho (index := i) (by omega)
        refine ⟨none, ls.take k ++ l.take i :: l.drop i :: ls.drop (k + 1), css.take k ++ c.take i :: c.drop i :: css.drop (k + 1),
          v, fs.take k ++ f1 :: f2 :: fs.drop (k + 1), by simp only [TOp.spec, hlk, if_pos hi],
          by simp only [TOp.run, hk, e, ok_bind], b, ?_, ?_, ?_, ?_⟩
        · rw [el] at h
          convert h using 1
          simp [← List.append_assoc]
        · rw [hc]
          conv => lhs; rw [ec]
          simp [← List.append_assoc]
        · exact forall₂_join q3 (by simp [hl]) (.cons (by simp [hl]) q4)
        · exact forall₂_join (weak q1) ⟨o1, fun ht => (hfr' (hfr ht.1)).1⟩ (.cons ⟨o2, fun ht => (hfr' (hfr ht.1)).2⟩ (weak q2))
      · left
        refine ⟨?_, .inl (by simp only [TOp.spec, hlk, if_neg hi])⟩
        simp only [TOp.run, hk, FMut.splitAt_panic ho (index := i) (by omega)]
        rfl

/-- All steps. -/
theorem TOp.runAll_ok : ∀ (ts : List (TOp α)) {v : RVec α} {ls : List (List α)} {css : List (List Cell)} {fs : List (FMut Cell)}
    {tame : Prop}, Built v → Shows v ls.flatten → v.cells.toList = css.flatten → Pieces tame fs ls css →
    (runAll TOp.run ts (v, fs) = .error .panic ∧ (runAll TOp.spec ts ls = .error .panic ∨ ¬ tame ∨ strays ts ls)) ∨
    ∃ as ls' v' fs', runAll TOp.spec ts ls = .ok (as, ls') ∧ runAll TOp.run ts (v, fs) = .ok (as, (v', fs')) ∧ Built v' ∧
      Shows v' ls'.flatten
  | [], v, ls, css, fs, tame, b, h, _, _ => .inr ⟨[], ls, v, fs, rfl, rfl, b, h⟩
  | t :: ts, v, ls, css, fs, tame, b, h, hc, hp => by
    rcases TOp.run_ok b h hc hp t with ⟨e, hx⟩ | ⟨a, ls1, css1, v1, fs1, e1, e2, b1, s1, c1, p1⟩
    · left
      refine ⟨by rw [runAll, e]; rfl, ?_⟩
      rcases hx with hx | hx
      · left; rw [runAll, hx]; rfl
      · exact .inr (.inl hx)
    · rcases TOp.runAll_ok ts b1 s1 c1 p1 with ⟨e, hx⟩ | ⟨as, ls2, v2, fs2, e3, e4, b2, s2⟩
      · left
        refine ⟨by rw [runAll, e2, ok_bind]; simp only; rw [e]; rfl, ?_⟩
        rcases hx with hx | hx | hx
        · left; rw [runAll, e1, ok_bind]; simp only; rw [hx]; rfl
        · right
          by_cases ht : tame
          · right
            left
            by_contra hn
            exact hx ⟨ht, hn⟩
          · exact .inl ht
        · exact .inr (.inr (.inr ⟨a, ls1, e1, hx⟩))
      · right
        exact ⟨a :: as, ls2, v2, fs2, by rw [runAll, e1, ok_bind]; simp only; rw [e3]; rfl,
          by rw [runAll, e2, ok_bind]; simp only; rw [e4]; rfl, b2, s2⟩

end Librrb
