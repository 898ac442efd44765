import Verif.Proof.SortUnwind

/-! # Sorting items that are all equal -/
namespace Librrb
open RVec

namespace USortFocus

/-- The operations return, and every comparison says that the items are equal; `J n` says that `n` were made. -/
structure Flat (o : USortFocus σ φ) (J : Nat → σ → Prop) (V : φ → Nat → Nat → Prop) : Prop where
  len {f a b} : V f a b → o.len f = b - a
  check {f a b} : V f a b → o.check f = .ok ()
  splitAt {f a b} (k : Nat) : V f a b → a + k ≤ b → ∃ f1 f2, o.splitAt f k = .ok (f1, f2) ∧ V f1 a (a + k) ∧ V f2 (a + k) b
  compare {s f g a b c d i j n} : J n s → V f a b → V g c d → a + i < b → c + j < d →
    Leaves (fun r s' => r.1 = .eq ∧ J (n + 1) s' ∧ V r.2.1 a b ∧ V r.2.2 c d) (fun _ => False) (o.compare f i g j) s
  swap {s f g a b c d i j n} : J n s → V f a b → V g c d → a + i < b → c + j < d →
    Leaves (fun r s' => J n s' ∧ V r.1 a b ∧ V r.2 c d) (fun _ => False) (o.swap f i g j) s

variable {o : USortFocus σ φ} {J : Nat → σ → Prop} {V : φ → Nat → Nat → Prop}

theorem countLoop_flat (fl : Flat o J V) {a b : Nat} :
    ∀ (k index equal : Nat) {n : Nat} {s : σ} {first rest : φ}, J n s → V first a (a + 1) → V rest (a + 1) b →
    index + k = b - (a + 1) →
    Leaves (fun r s' => J (n + k) s' ∧ r.1 = 0 ∧ V r.2.2.2 (a + 1) b) (fun _ => False)
      (countLoop o k index first rest 0 equal) s := by
  intro k
  induction k with
  | zero => intro index equal n s first rest hJ h1 h2 hk; exact .pure ⟨hJ, rfl, h2⟩
  | succ k ih =>
    intro index equal n s first rest hJ h1 h2 hk
    rw [countLoop]
    refine (fl.compare hJ h2 h1 (j := 0) (by omega) (by omega)).bind ?_
    rintro ⟨c, f, g⟩ s' ⟨hc, hJ, v1, v2⟩
    simp only at hc v1 v2
    subst hc
    refine (ih (index + 1) (equal + 1) hJ v2 v1 (by omega)).mono fun r s ⟨p1, p2, p3⟩ => ⟨?_, p2, p3⟩
    rwa [show n + (k + 1) = n + 1 + k by omega]

/-- How the sort starts: it compares the pivot with every other item, and goes on with all but one of them. -/
theorem sort_flat_step (fl : Flat o J V) (next : ρ → Nat × ρ) (budget fuel : Nat) {P : ρ → σ → Prop} {Q : σ → Prop} {n : Nat} {s : σ}
    {rng : ρ} {f : φ} {lo hi : Nat} (hJ : J n s) (hV : V f lo hi) (hlen : 1 < hi - lo)
    (h : ∀ rng' s' f', J (n + (hi - (lo + 1))) s' → V f' (lo + 1) hi → Leaves P Q (o.sort next budget fuel rng' f') s') :
    Leaves P Q (o.sort next budget (fuel + 1) rng f) s := by
  have weak : ∀ {τ : Type} {P : τ → σ → Prop} {m : U σ τ} {s : σ}, Leaves P (fun _ => False) m s → Leaves P Q m s := by
    intro τ P m s k
    unfold Leaves at k ⊢
    rcases h' : (show M τ × σ from m s) with ⟨_ | x, s'⟩
    · rw [h'] at k; exact k.2.elim
    · rw [h'] at k; exact k
  rw [sort, fl.len hV, if_neg (by omega)]
  obtain ⟨first, rest, e1, v1, v2⟩ := fl.splitAt 1 hV (by omega)
  refine .lift e1 (.lift (fl.check v1) (.lift (fl.check v2) ?_))
  have hpiv : (next rng).1 % (hi - lo) < hi - lo := Nat.mod_lt _ (by omega)
  simp only
  generalize (next rng).1 % (hi - lo) = pivot at hpiv
  refine Leaves.bind (P := fun r s' => J n s' ∧ V r.1 (lo + 1) hi ∧ V r.2 lo (lo + 1)) ?_ ?_
  · split
    · exact weak (fl.swap hJ v2 v1 (by omega) (by omega))
    · exact .pure ⟨hJ, v2, v1⟩
  rintro ⟨r1, f1⟩ s1 ⟨hJ, v3, v4⟩
  simp only at v3 v4 ⊢
  rw [fl.len v3]
  refine (weak (countLoop_flat fl _ _ _ hJ v4 v3 (by omega))).bind ?_
  rintro ⟨lc, ec, f2, r2⟩ s2 ⟨hJ, h0, v6⟩
  simp only at h0 v6 ⊢
  rw [if_pos (by simpa using h0)]
  exact h _ _ _ hJ v6

theorem sort_flat (fl : Flat o J V) (next : ρ → Nat × ρ) (budget : Nat) :
    ∀ (fuel : Nat) {n : Nat} {s : σ} {rng : ρ} {f : φ} {lo hi : Nat}, J n s → V f lo hi → hi - lo < fuel →
    Leaves (fun _ s' => ∃ k, J (n + k) s' ∧ 2 * k + (hi - lo) = (hi - lo) * (hi - lo)) (fun _ => False) (o.sort next budget fuel rng f) s := by
  intro fuel
  induction fuel with
  | zero => intro n s rng f lo hi _ _ h; omega
  | succ fuel ih =>
    intro n s rng f lo hi hJ hV hf
    by_cases hlen : hi - lo ≤ 1
    · rw [sort, fl.len hV, if_pos hlen]
      refine .pure ⟨0, hJ, ?_⟩
      rcases (show hi - lo = 0 ∨ hi - lo = 1 by omega) with h | h <;> rw [h]
    · refine sort_flat_step fl next budget fuel hJ hV (by omega) fun rng' s' f' hJ' hV' => ?_
      refine (ih hJ' hV' (by omega)).mono ?_
      rintro _ s'' ⟨k, hk, e⟩
      refine ⟨hi - (lo + 1) + k, by rwa [← Nat.add_assoc], ?_⟩
      obtain ⟨d, hd⟩ : ∃ d, hi - lo = d + 1 := ⟨hi - lo - 1, by omega⟩
      rw [show hi - (lo + 1) = d by omega] at e ⊢
      rw [hd, show (d + 1) * (d + 1) = d * d + 2 * d + 1 by ring]
      omega

/-- With less calls inside of one another than items, the sort has not come to its end. -/
theorem sort_flat_deep (fl : Flat o J V) (next : ρ → Nat × ρ) (budget : Nat) :
    ∀ (fuel : Nat) {n : Nat} {s : σ} {rng : ρ} {f : φ} {lo hi : Nat}, J n s → V f lo hi → fuel < hi - lo →
    Leaves (fun _ _ => False) (fun _ => True) (o.sort next budget fuel rng f) s := by
  intro fuel
  induction fuel with
  | zero => intro n s rng f lo hi _ _ h; exact .diverge trivial
  | succ fuel ih =>
    intro n s rng f lo hi hJ hV hf
    exact sort_flat_step fl next budget fuel hJ hV (by omega) fun rng' s' f' hJ' hV' => ih hJ' hV' (by omega)

end USortFocus

/-- What `sort_range_by` keeps, with the exact number of questions. -/
def KeepsCounted (cmp : Callback γ α) (state : γ) (cs : List Cell) (lo hi : Nat) (l : List α) (n : Nat) (s : RVec α × γ) : Prop :=
  ∃ L asked, Holds cs s.1 L ∧ Within lo hi l L ∧ s.2 = cmp.after state asked ∧ asked.length = n

theorem single_flat (cmp : Callback γ α) (state : γ) (cs : List Cell) (lo hi : Nat) (l : List α)
    (heq : ∀ g x y, x ∈ slice l lo hi → y ∈ slice l lo hi → (cmp g x y).1 = some .eq) :
    (USortFocus.single cmp).Flat (KeepsCounted cmp state cs lo hi l) (ViewsIn cs lo hi) where
  len h := h.1.len
  check _ := rfl
  splitAt := (single_steady cmp state cs lo hi l).splitAt
  compare := by
    intro s f g a b c d i j n hJ h1 h2 hi' hj
    obtain ⟨p, f', e1, hc, v1⟩ := h1.1.index hi'
    obtain ⟨q, g', e2, hd, v2⟩ := h2.1.index hj
    refine .lift e1 (.lift e2 ?_)
    obtain ⟨L, asked, hR, w, q1, q2⟩ := hJ
    have l0 := hR.length
    have l1 := h1.1.le'
    have l2 := h2.1.le'
    have l3 := w.length
    have a1 := h1.2
    have a2 := h2.2
    have hx : L[a + i]? = some (L[a + i]'(by omega)) := List.getElem?_eq_getElem _
    have hy : L[c + j]? = some (L[c + j]'(by omega)) := List.getElem?_eq_getElem _
    refine Leaves.bind (P := fun x s' => x = s ∧ s' = s) ⟨rfl, rfl⟩ ?_
    rintro x t ⟨hx', ht⟩
    subst x t
    refine .lift (hR.read hc hx) (.lift (hR.read hd hy) ?_)
    have he := heq s.2 (L[a + i]'(by omega)) (L[c + j]'(by omega))
      (w.getElem_mem (by omega) (by omega) (by omega) _) (w.getElem_mem (by omega) (by omega) (by omega) _)
    refine Leaves.bind (P := fun r s' => r = Ordering.eq ∧ s' = (s.1, (cmp s.2 (L[a + i]'(by omega)) (L[c + j]'(by omega))).2)) ?_ ?_
    · unfold Leaves Callback.ask
      revert he
      rcases cmp s.2 (L[a + i]'(by omega)) (L[c + j]'(by omega)) with ⟨o, g⟩
      rintro rfl
      exact ⟨rfl, rfl⟩
    · rintro _ _ ⟨rfl, rfl⟩
      refine .pure ⟨rfl, ⟨L, asked ++ [(L[a + i]'(by omega), L[c + j]'(by omega))], hR, w, ?_, by simp [q2]⟩,
        ⟨v1, h1.2⟩, ⟨v2, h2.2⟩⟩
      simp [Callback.after, q1]
  swap := by
    intro s f g a b c d i j n hJ h1 h2 hi' hj
    obtain ⟨p, f', e1, hc, v1⟩ := h1.1.index hi'
    obtain ⟨q, g', e2, hd, v2⟩ := h2.1.index hj
    obtain ⟨L, asked, hR, w, q1, q2⟩ := hJ
    obtain ⟨s', e, hR'⟩ := hR.swap hc hd
    refine .lift e1 (.lift e2 ?_)
    refine Leaves.bind (P := fun x s' => x = s ∧ s' = s) ⟨rfl, rfl⟩ ?_
    rintro x t ⟨hx, ht⟩
    subst x t
    refine .lift e ?_
    refine Leaves.bind (P := fun _ (t : RVec α × γ) => t = (s', s.2)) (show (s', s.2) = (s', s.2) from rfl) ?_
    rintro _ _ rfl
    have l0 := hR.length
    have l1 := h1.1.le'
    have l2 := h2.1.le'
    have a1 := h1.2
    have a2 := h2.2
    exact .pure ⟨⟨_, asked, hR', w.trans (Within.swap (by omega) (by omega) (by omega) (by omega) (by omega)), q1, q2⟩,
      ⟨v1, h1.2⟩, ⟨v2, h2.2⟩⟩

end Librrb
