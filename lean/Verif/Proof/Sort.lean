import Verif.Proof.SortList
import Mathlib.Tactic.ByContra
import Mathlib.Tactic.Push

/-! # The sorting algorithm -/
namespace Librrb
namespace SortFocus

/-- The operations work on the sequence `L` of `n` items (`R`) through foci over ranges of positions
(`V`), comparing with `cmp`. -/
structure Lawful (o : SortFocus σ φ) (cmp : γ → γ → Ordering) (n : Nat) (R : σ → List γ → Prop)
    (V : φ → Nat → Nat → Prop) : Prop where
  length {s L} : R s L → L.length = n
  bound {f a b} : V f a b → a ≤ b ∧ b ≤ n
  len {f a b} : V f a b → o.len f = b - a
  check {f a b} : V f a b → o.check f = .ok ()
  splitAt {f a b} (k : Nat) : V f a b → a + k ≤ b → ∃ f1 f2, o.splitAt f k = .ok (f1, f2) ∧ V f1 a (a + k) ∧ V f2 (a + k) b
  compare {s L f g a b c d i j x y} : R s L → V f a b → V g c d → a + i < b → c + j < d → L[a + i]? = some x →
    L[c + j]? = some y → ∃ f' g', o.compare s f i g j = .ok (cmp x y, f', g') ∧ V f' a b ∧ V g' c d
  swap {s L f g a b c d i j} : R s L → V f a b → V g c d → a + i < b → c + j < d →
    ∃ s' f' g', o.swap s f i g j = .ok (s', f', g') ∧ R s' (swapAt L (a + i) (c + j)) ∧ V f' a b ∧ V g' c d

variable {o : SortFocus σ φ} {cmp : γ → γ → Ordering} {n : Nat} {R : σ → List γ → Prop} {V : φ → Nat → Nat → Prop}

theorem countLoop_ok (law : Lawful o cmp n R V) {s : σ} {L : List γ} (hR : R s L) {a b : Nat} {p : γ}
    (hp : L[a]? = some p) :
    ∀ (k index less equal : Nat) {first rest : φ}, V first a (a + 1) → V rest (a + 1) b → index + k = b - (a + 1) →
    ∃ first' rest', countLoop o s k index first rest less equal =
      .ok (less + (slice L (a + 1 + index) b).countP (fun x => cmp x p == .lt),
        equal + (slice L (a + 1 + index) b).countP (fun x => cmp x p == .eq), first', rest') ∧
      V first' a (a + 1) ∧ V rest' (a + 1) b := by
  intro k
  induction k with
  | zero =>
    intro index less equal first rest h1 h2 hk
    have hb := law.bound h2
    rw [slice_nil _ (by omega)]
    exact ⟨first, rest, rfl, h1, h2⟩
  | succ k ih =>
    intro index less equal first rest h1 h2 hk
    have hb := law.bound h2
    have hL := law.length hR
    have hx : L[a + 1 + index]? = some (L[a + 1 + index]'(by omega)) := List.getElem?_eq_getElem (by omega)
    generalize L[a + 1 + index]'(by omega) = x at hx
    obtain ⟨f', g', e, h3, h4⟩ := law.compare hR h2 h1 (i := index) (j := 0) (by omega) (by omega) hx (by simpa using hp)
    rw [countLoop, e, slice_cons L (by omega) hx]
    simp only [ok_bind, List.countP_cons]
    cases hc : cmp x p with
    | lt =>
      obtain ⟨f2, g2, e2, h5, h6⟩ := ih (index + 1) (less + 1) equal h4 h3 (by omega)
      refine ⟨f2, g2, ?_, h5, h6⟩
      simp only [e2, ← Nat.add_assoc]
      simp
      omega
    | eq =>
      obtain ⟨f2, g2, e2, h5, h6⟩ := ih (index + 1) less (equal + 1) h4 h3 (by omega)
      refine ⟨f2, g2, ?_, h5, h6⟩
      simp only [e2, ← Nat.add_assoc]
      simp
      omega
    | gt =>
      obtain ⟨f2, g2, e2, h5, h6⟩ := ih (index + 1) less equal h4 h3 (by omega)
      refine ⟨f2, g2, ?_, h5, h6⟩
      simp only [e2, ← Nat.add_assoc]
      simp

theorem minLoop_ok [Std.TransCmp cmp] (law : Lawful o cmp n R V) {a b lessCount : Nat} (hlc : a + 1 + lessCount < b) :
    ∀ (k index : Nat) {s : σ} {L : List γ} {first rest : φ}, R s L → V first a (a + 1) → V rest (a + 1) b →
    index + k = b - (a + 1) →
    (∀ m, L[a]? = some m → ∀ j x, a < j → j < a + 1 + index → j ≠ a + 1 + lessCount → L[j]? = some x → cmp x m ≠ .lt) →
    ∃ s' L' first' rest', minLoop o lessCount k index s first rest = .ok (s', first', rest') ∧ R s' L' ∧
      V first' a (a + 1) ∧ V rest' (a + 1) b ∧ Within a b L L' ∧
      L'[a + 1 + lessCount]? = L[a + 1 + lessCount]? ∧
      ∀ m, L'[a]? = some m → ∀ j x, a < j → j < b → j ≠ a + 1 + lessCount → L'[j]? = some x → cmp x m ≠ .lt := by
  intro k
  induction k with
  | zero =>
    intro index s L first rest hR h1 h2 hk hi
    have hb := law.bound h2
    exact ⟨s, L, first, rest, rfl, hR, h1, h2, .refl _ _ _, rfl, fun m hm j x hj hj' hn hx =>
      hi m hm j x hj (by omega) hn hx⟩
  | succ k ih =>
    intro index s L first rest hR h1 h2 hk hi
    have hb := law.bound h2
    have hL := law.length hR
    rw [minLoop]
    by_cases hc : index = lessCount
    · subst hc
      rw [if_pos (by simp)]
      exact ih (index + 1) hR h1 h2 (by omega) fun m hm j x hj hj' hn hx => hi m hm j x hj (by omega) hn hx
    · rw [if_neg (by simpa using hc)]
      have hx : L[a + 1 + index]? = some (L[a + 1 + index]'(by omega)) := List.getElem?_eq_getElem (by omega)
      generalize L[a + 1 + index]'(by omega) = x at hx
      have hp : L[a]? = some (L[a]'(by omega)) := List.getElem?_eq_getElem (by omega)
      generalize L[a]'(by omega) = p at hp
      obtain ⟨f', g', e, h3, h4⟩ := law.compare hR h2 h1 (i := index) (j := 0) (by omega) (by omega) hx (by simpa using hp)
      rw [e]
      simp only [ok_bind, beq_iff_eq]
      by_cases hlt : cmp x p = .lt
      · rw [if_pos hlt]
        obtain ⟨s1, f1, g1, e1, hR1, h5, h6⟩ := law.swap hR h4 h3 (i := 0) (j := index) (by omega) (by omega)
        simp only [Nat.add_zero] at hR1
        have hget := swapAt_get? (L := L) (i := a) (j := a + 1 + index) (by omega) (by omega)
        obtain ⟨s2, L2, f2, g2, e2, hR2, h7, h8, w, hq, hm⟩ := ih (index + 1) hR1 h5 h6 (by omega) (by
          intro m hm j y hj hj' hn hy
          rw [hget, if_neg (by omega), if_pos rfl, hx] at hm
          cases hm
          rw [hget] at hy
          by_cases hji : j = a + 1 + index
          · rw [if_pos hji, hp] at hy
            cases hy
            intro hpx
            have := Std.OrientedCmp.gt_iff_lt.2 hlt
            rw [this] at hpx; cases hpx
          · rw [if_neg hji, if_neg (by omega)] at hy
            have h9 := hi p hp j y hj (by omega) hn hy
            intro hyx
            exact h9 (Std.TransCmp.lt_trans hyx hlt))
        refine ⟨s2, L2, f2, g2, ?_, hR2, h7, h8, ?_, ?_, hm⟩
        · rw [e1]; simp only [ok_bind]; exact e2
        · exact (Within.swap (by omega) (by omega) (by omega) (by omega) (by omega)).trans w
        · rw [hq, hget, if_neg (by omega), if_neg (by omega)]
      · rw [if_neg hlt]
        refine ih (index + 1) hR h4 h3 (by omega) fun m hm j y hj hj' hn hy => ?_
        rw [hp] at hm
        cases hm
        by_cases hji : j = a + 1 + index
        · subst hji
          rw [hx] at hy
          cases hy
          exact hlt
        · exact hi p hp j y hj (by omega) hn hy

/-- What holds of the variables of the partition loop. The zones are `la..lb`, `lb..lc` and `lc..ld`; `c`
says how an item compares with the pivot. -/
structure PInv (V : φ → Nat → Nat → Prop) (L : List γ) (c : γ → Ordering) (la lb lc ld : Nat) (p : Parts φ) : Prop where
  vl : V p.less la lb
  ve : V p.equal lb lc
  vg : V p.greater lc ld
  lp : la + p.lp ≤ lb
  gp : lc + p.gp ≤ ld
  ep : lb + p.ep < lc
  less : ∀ k x, la ≤ k → k < la + p.lp → L[k]? = some x → c x = .lt
  equal : ∀ k x, lb ≤ k → k ≤ lb + p.ep → L[k]? = some x → c x = .eq
  greater : ∀ k x, lc ≤ k → k < lc + p.gp → L[k]? = some x → c x = .gt

theorem advanceLess_ok (law : Lawful o cmp n R V) {s : σ} {L : List γ} (hR : R s L) {c : γ → Ordering}
    (hcmp : ∀ x e, c e = .eq → cmp x e = c x) {la lb lc ld : Nat} :
    ∀ (fuel : Nat) {p : Parts φ}, PInv V L c la lb lc ld p → lb < la + p.lp + fuel →
    ∃ q p', advanceLess o s fuel p = .ok (q, p') ∧ PInv V L c la lb lc ld p' ∧ p'.ep = p.ep ∧ p'.gp = p.gp ∧
      p.lp ≤ p'.lp ∧ (q = true → la + p'.lp < lb ∧ ∃ x, L[la + p'.lp]? = some x ∧ c x = .eq) ∧
      (q = false → la + p'.lp = lb ∨ (la + p'.lp < lb ∧ ∃ x, L[la + p'.lp]? = some x ∧ c x = .gt)) := by
  intro fuel
  induction fuel with
  | zero => intro p hp hf; have := hp.lp; omega
  | succ fuel ih =>
    intro p hp hf
    have b1 := law.bound hp.vl
    have b2 := law.bound hp.ve
    have b3 := law.bound hp.vg
    have hL := law.length hR
    have hlp := hp.lp
    have hep := hp.ep
    rw [advanceLess, law.len hp.vl]
    by_cases hc : p.lp = lb - la
    · rw [if_neg (by simpa using hc)]
      exact ⟨false, p, rfl, hp, rfl, rfl, Nat.le_refl _, by simp, fun _ => .inl (by omega)⟩
    · rw [if_pos (by simpa using hc)]
      have hx : L[la + p.lp]? = some (L[la + p.lp]'(by omega)) := List.getElem?_eq_getElem (by omega)
      generalize L[la + p.lp]'(by omega) = x at hx
      have hy : L[lb + p.ep]? = some (L[lb + p.ep]'(by omega)) := List.getElem?_eq_getElem (by omega)
      generalize L[lb + p.ep]'(by omega) = y at hy
      obtain ⟨f', g', e, h3, h4⟩ := law.compare hR hp.vl hp.ve (i := p.lp) (j := p.ep) (by omega) (by omega) hx hy
      rw [e, hcmp x y (hp.equal _ y (by omega) (Nat.le_refl _) hy)]
      simp only [ok_bind]
      cases hcx : c x with
      | eq =>
        exact ⟨true, _, rfl, ⟨h3, h4, hp.vg, hp.lp, hp.gp, hp.ep, hp.less, hp.equal, hp.greater⟩, rfl, rfl,
          Nat.le_refl _, fun _ => ⟨by show la + p.lp < lb; omega, x, hx, hcx⟩, by simp⟩
      | gt =>
        exact ⟨false, _, rfl, ⟨h3, h4, hp.vg, hp.lp, hp.gp, hp.ep, hp.less, hp.equal, hp.greater⟩, rfl, rfl,
          Nat.le_refl _, by simp, fun _ => .inr ⟨by show la + p.lp < lb; omega, x, hx, hcx⟩⟩
      | lt =>
        obtain ⟨q, p', e', i1, i2, i3, i4, i5⟩ := ih (p := { p with less := f', equal := g', lp := p.lp + 1 })
          ⟨h3, h4, hp.vg, by show la + (p.lp + 1) ≤ lb; omega, hp.gp, hp.ep, by
            intro k z hk hk' hz
            have hk' : k < la + (p.lp + 1) := hk'
            by_cases hkl : k = la + p.lp
            · subst hkl; rw [hx] at hz; cases hz; exact hcx
            · exact hp.less k z hk (by omega) hz, hp.equal, hp.greater⟩ (by show lb < la + (p.lp + 1) + fuel; omega)
        have i4 : p.lp + 1 ≤ p'.lp := i4
        exact ⟨q, p', e', i1, i2, i3, by omega, i5⟩

theorem advanceGreater_ok (law : Lawful o cmp n R V) {s : σ} {L : List γ} (hR : R s L) {c : γ → Ordering}
    (hcmp : ∀ x e, c e = .eq → cmp x e = c x) {la lb lc ld : Nat} :
    ∀ (fuel : Nat) {p : Parts φ}, PInv V L c la lb lc ld p → ld < lc + p.gp + fuel →
    ∃ q p', advanceGreater o s fuel p = .ok (q, p') ∧ PInv V L c la lb lc ld p' ∧ p'.ep = p.ep ∧ p'.lp = p.lp ∧
      p.gp ≤ p'.gp ∧ (q = true → lc + p'.gp < ld ∧ ∃ x, L[lc + p'.gp]? = some x ∧ c x = .eq) ∧
      (q = false → lc + p'.gp = ld ∨ (lc + p'.gp < ld ∧ ∃ x, L[lc + p'.gp]? = some x ∧ c x = .lt)) := by
  intro fuel
  induction fuel with
  | zero => intro p hp hf; have := hp.gp; omega
  | succ fuel ih =>
    intro p hp hf
    have b1 := law.bound hp.vl
    have b2 := law.bound hp.ve
    have b3 := law.bound hp.vg
    have hL := law.length hR
    have hgp := hp.gp
    have hep := hp.ep
    rw [advanceGreater, law.len hp.vg]
    by_cases hc : p.gp = ld - lc
    · rw [if_neg (by simpa using hc)]
      exact ⟨false, p, rfl, hp, rfl, rfl, Nat.le_refl _, by simp, fun _ => .inl (by omega)⟩
    · rw [if_pos (by simpa using hc)]
      have hx : L[lc + p.gp]? = some (L[lc + p.gp]'(by omega)) := List.getElem?_eq_getElem (by omega)
      generalize L[lc + p.gp]'(by omega) = x at hx
      have hy : L[lb + p.ep]? = some (L[lb + p.ep]'(by omega)) := List.getElem?_eq_getElem (by omega)
      generalize L[lb + p.ep]'(by omega) = y at hy
      obtain ⟨f', g', e, h3, h4⟩ := law.compare hR hp.vg hp.ve (i := p.gp) (j := p.ep) (by omega) (by omega) hx hy
      rw [e, hcmp x y (hp.equal _ y (by omega) (Nat.le_refl _) hy)]
      simp only [ok_bind]
      cases hcx : c x with
      | eq =>
        exact ⟨true, _, rfl, ⟨hp.vl, h4, h3, hp.lp, hp.gp, hp.ep, hp.less, hp.equal, hp.greater⟩, rfl, rfl,
          Nat.le_refl _, fun _ => ⟨by show lc + p.gp < ld; omega, x, hx, hcx⟩, by simp⟩
      | lt =>
        exact ⟨false, _, rfl, ⟨hp.vl, h4, h3, hp.lp, hp.gp, hp.ep, hp.less, hp.equal, hp.greater⟩, rfl, rfl,
          Nat.le_refl _, by simp, fun _ => .inr ⟨by show lc + p.gp < ld; omega, x, hx, hcx⟩⟩
      | gt =>
        obtain ⟨q, p', e', i1, i2, i3, i4, i5⟩ := ih (p := { p with greater := f', equal := g', gp := p.gp + 1 })
          ⟨hp.vl, h4, h3, hp.lp, by show lc + (p.gp + 1) ≤ ld; omega, hp.ep, hp.less, hp.equal, by
            intro k z hk hk' hz
            have hk' : k < lc + (p.gp + 1) := hk'
            by_cases hkl : k = lc + p.gp
            · subst hkl; rw [hx] at hz; cases hz; exact hcx
            · exact hp.greater k z hk (by omega) hz⟩ (by show ld < lc + (p.gp + 1) + fuel; omega)
        have i4 : p.gp + 1 ≤ p'.gp := i4
        exact ⟨q, p', e', i1, i2, i3, by omega, i5⟩

theorem advanceEqual_ok (law : Lawful o cmp n R V) {s : σ} {L : List γ} (hR : R s L) {c : γ → Ordering}
    (hcmp : ∀ x e, c x = .eq → (cmp x e = .eq ↔ c e = .eq)) {u v i lb lc : Nat} (hi : u + i < v) {x : γ}
    (hx : L[u + i]? = some x) (hcx : c x = .eq) :
    ∀ (fuel : Nat) {side equal : φ} {ep : Nat}, V side u v → V equal lb lc → lc < lb + ep + fuel →
    (∃ k y, lb + ep ≤ k ∧ k < lc ∧ L[k]? = some y ∧ c y ≠ .eq) →
    ∃ ep' side' equal', advanceEqual o s i fuel side equal ep = .ok (ep', side', equal') ∧ V side' u v ∧ V equal' lb lc ∧
      ep ≤ ep' ∧ lb + ep' < lc ∧ (∃ y, L[lb + ep']? = some y ∧ c y ≠ .eq) ∧
      ∀ k y, lb + ep ≤ k → k < lb + ep' → L[k]? = some y → c y = .eq := by
  intro fuel
  induction fuel with
  | zero => rintro side equal ep h1 h2 h3 ⟨k, y, h4, h5, -⟩; omega
  | succ fuel ih =>
    rintro side equal ep h1 h2 h3 ⟨k, z, h4, h5, h6, h7⟩
    have b1 := law.bound h1
    have b2 := law.bound h2
    have hL := law.length hR
    have hy : L[lb + ep]? = some (L[lb + ep]'(by omega)) := List.getElem?_eq_getElem (by omega)
    generalize L[lb + ep]'(by omega) = y at hy
    obtain ⟨f', g', e, h8, h9⟩ := law.compare hR h1 h2 (i := i) (j := ep) hi (by omega) hx hy
    rw [advanceEqual, e]
    simp only [ok_bind, beq_iff_eq, hcmp x y hcx]
    by_cases hcy : c y = .eq
    · rw [if_pos hcy]
      obtain ⟨ep', s', e', a1, a2, a3, a4, a5, a6, a7⟩ := ih h8 h9 (ep := ep + 1) (by omega) ⟨k, z, by
        by_contra hh
        rw [show k = lb + ep by omega, hy] at h6
        cases h6
        exact h7 hcy, h5, h6, h7⟩
      refine ⟨ep', s', e', a1, a2, a3, by omega, a5, a6, fun k w hk hk' hw => ?_⟩
      by_cases hke : k = lb + ep
      · subst hke; rw [hy] at hw; cases hw; exact hcy
      · exact a7 k w (by omega) hk' hw
    · rw [if_neg hcy]
      exact ⟨ep, f', g', rfl, h8, h9, Nat.le_refl _, by omega, ⟨y, hy, hcy⟩, fun k w hk hk' => by omega⟩

theorem countP_pos_of {L : List γ} {a b k : Nat} {x : γ} {P : γ → Bool} (h1 : a ≤ k) (h2 : k < b) (hx : L[k]? = some x)
    (hp : P x = true) : 0 < (slice L a b).countP P :=
  List.countP_pos_iff.2 ⟨x, mem_slice.2 ⟨k, h1, h2, hx⟩, hp⟩

theorem countP_all {L : List γ} {a b : Nat} {P : γ → Bool} (hb : b ≤ L.length)
    (h : ∀ k x, a ≤ k → k < b → L[k]? = some x → P x = true) : (slice L a b).countP P = b - a := by
  rw [List.countP_eq_length.2, slice_len L hb]
  intro x hx
  obtain ⟨k, h1, h2, h3⟩ := mem_slice.1 hx
  exact h k x h1 h2 h3

theorem countP_zones (L : List γ) (P : γ → Bool) {la lb lc ld : Nat} (h1 : la ≤ lb) (h2 : lb ≤ lc) (h3 : lc ≤ ld) :
    (slice L la ld).countP P = (slice L la lb).countP P + (slice L lb lc).countP P + (slice L lc ld).countP P := by
  rw [slice_append L (a := la) (b := lc) (c := ld) (by omega) h3, slice_append L h1 h2, List.countP_append, List.countP_append]

theorem countP_three (l : List γ) (c : γ → Ordering) :
    l.countP (fun x => c x == .lt) + l.countP (fun x => c x == .eq) + l.countP (fun x => c x == .gt) = l.length := by
  induction l with
  | nil => rfl
  | cons x l ih =>
    simp only [List.countP_cons, List.length_cons]
    cases c x <;> simp <;> omega

/-- How many steps the partition loop can still make. -/
def left (la lb lc ld : Nat) (p : Parts φ) : Nat := (lb - (la + p.lp)) + (ld - (lc + p.gp)) + (lc - (lb + p.ep))

theorem partStep_ok (law : Lawful o cmp n R V) {s : σ} {L : List γ} (hR : R s L) {c : γ → Ordering}
    (hcmp : ∀ x e, c e = .eq → cmp x e = c x) (hcmp' : ∀ x e, c x = .eq → (cmp x e = .eq ↔ c e = .eq))
    {la lb lc ld : Nat} {p : Parts φ} (hp : PInv V L c la lb lc ld p)
    (hlt : (slice L la ld).countP (fun x => c x == .lt) = lb - la)
    (heq : (slice L la ld).countP (fun x => c x == .eq) = lc - lb)
    (hgo : la + p.lp ≠ lb ∨ lc + p.gp ≠ ld) :
    ∃ s' p' L', partStep o s p = .ok (s', p') ∧ R s' L' ∧ PInv V L' c la lb lc ld p' ∧ Within la ld L L' ∧
      left la lb lc ld p' < left la lb lc ld p := by
  have b1 := law.bound hp.vl
  have b2 := law.bound hp.ve
  have b3 := law.bound hp.vg
  have hL := law.length hR
  have hgt : (slice L la ld).countP (fun x => c x == .gt) = ld - lc := by
    have := countP_three (slice L la ld) c
    rw [hlt, heq, slice_len L (by omega)] at this
    omega
  rw [partStep, law.len hp.vl, law.len hp.vg]
  obtain ⟨qa, p1, e1, hp1, i1, i2, i3, i4, i5⟩ := advanceLess_ok law hR hcmp (lb - la - p.lp + 1) hp (by omega)
  rw [e1, ok_bind]
  have hp1g := hp1.gp
  obtain ⟨qb, p2, e2, hp2, j1, j2, j3, j4, j5⟩ := advanceGreater_ok law hR hcmp (ld - lc - p.gp + 1) hp1 (by omega)
  rw [e2, ok_bind]
  simp only
  have hlp := hp2.lp
  have hgp := hp2.gp
  have hep := hp2.ep
  have hplp := hp.lp
  have hpgp := hp.gp
  have hpep := hp.ep
  -- an item of the wrong kind in the equal zone
  have wrong : ∀ k x, (la ≤ k ∧ k < lb ∨ lc ≤ k ∧ k < ld) → L[k]? = some x → c x = .eq →
      ∃ k y, lb + p2.ep ≤ k ∧ k < lc ∧ L[k]? = some y ∧ c y ≠ .eq := by
    intro k x hk hx hcx
    by_contra hh
    push_neg at hh
    have hall : (slice L lb lc).countP (fun x => c x == .eq) = lc - lb :=
      countP_all (by omega) fun k y hk hk' hy => by
        by_cases hke : k ≤ lb + p2.ep
        · simpa using hp2.equal k y hk hke hy
        · simpa using hh k y (by omega) hk' hy
    have hz := countP_zones L (fun x => c x == .eq) b1.1 b2.1 b3.1
    rcases hk with hk | hk
    · have := countP_pos_of hk.1 hk.2 hx (P := fun x => c x == .eq) (by simpa using hcx)
      omega
    · have := countP_pos_of hk.1 hk.2 hx (P := fun x => c x == .eq) (by simpa using hcx)
      omega
  have hepeq : ∃ y, L[lb + p2.ep]? = some y ∧ c y = .eq := by
    have hy : L[lb + p2.ep]? = some (L[lb + p2.ep]'(by omega)) := List.getElem?_eq_getElem (by omega)
    exact ⟨_, hy, hp2.equal _ _ (by omega) (Nat.le_refl _) hy⟩
  obtain ⟨y0, hy0, hcy0⟩ := hepeq
  cases qb with
  | true =>
    simp only [if_true]
    obtain ⟨hlt', x, hx, hcx⟩ := j4 rfl
    obtain ⟨ep', sd, eqf, e3, v1, v2, k1, k2, ⟨y, hy, hcy⟩, k4⟩ := advanceEqual_ok law hR hcmp' hlt' hx hcx
      (o.len p2.equal - p2.ep + 1) hp2.vg hp2.ve (by rw [law.len hp2.ve]; omega) (wrong _ x (by omega) hx hcx)
    have hne : ep' ≠ p2.ep := by
      rintro rfl
      rw [hy0] at hy; cases hy
      exact hcy hcy0
    obtain ⟨s', f', g', e4, hR', v3, v4⟩ := law.swap hR v1 v2 (i := p2.gp) (j := ep') hlt' k2
    rw [e3, ok_bind]
    simp only
    rw [e4, ok_bind]
    have hget := swapAt_get? (L := L) (i := lc + p2.gp) (j := lb + ep') (by omega) (by omega)
    refine ⟨s', _, _, rfl, hR', ⟨hp2.vl, v4, v3, hp2.lp, hp2.gp, k2, ?_, ?_, ?_⟩,
      Within.swap (by omega) (by omega) (by omega) (by omega) (by omega), ?_⟩
    · intro k z hk hk' hz
      have hk' : k < la + p2.lp := hk'
      rw [hget, if_neg (by omega), if_neg (by omega)] at hz
      exact hp2.less k z hk hk' hz
    · intro k z hk hk' hz
      have hk' : k ≤ lb + ep' := hk'
      rw [hget] at hz
      by_cases hke : k = lb + ep'
      · rw [if_pos hke, hx] at hz; cases hz; exact hcx
      · rw [if_neg hke, if_neg (by omega)] at hz
        by_cases hk2 : k ≤ lb + p2.ep
        · exact hp2.equal k z hk hk2 hz
        · exact k4 k z (by omega) (by omega) hz
    · intro k z hk hk' hz
      have hk' : k < lc + p2.gp := hk'
      rw [hget, if_neg (by omega), if_neg (by omega)] at hz
      exact hp2.greater k z hk hk' hz
    · simp only [left]; omega
  | false =>
    simp only [Bool.false_eq_true, if_false]
    cases qa with
    | true =>
      simp only [if_true]
      obtain ⟨hlt', x, hx, hcx⟩ := i4 rfl
      rw [← j2] at hlt' hx
      obtain ⟨ep', sd, eqf, e3, v1, v2, k1, k2, ⟨y, hy, hcy⟩, k4⟩ := advanceEqual_ok law hR hcmp' hlt' hx hcx
        (o.len p2.equal - p2.ep + 1) hp2.vl hp2.ve (by rw [law.len hp2.ve]; omega) (wrong _ x (by omega) hx hcx)
      have hne : ep' ≠ p2.ep := by
        rintro rfl
        rw [hy0] at hy; cases hy
        exact hcy hcy0
      obtain ⟨s', f', g', e4, hR', v3, v4⟩ := law.swap hR v1 v2 (i := p2.lp) (j := ep') hlt' k2
      rw [e3, ok_bind]
      simp only
      rw [e4, ok_bind]
      have hget := swapAt_get? (L := L) (i := la + p2.lp) (j := lb + ep') (by omega) (by omega)
      refine ⟨s', _, _, rfl, hR', ⟨v3, v4, hp2.vg, hp2.lp, hp2.gp, k2, ?_, ?_, ?_⟩,
        Within.swap (by omega) (by omega) (by omega) (by omega) (by omega), ?_⟩
      · intro k z hk hk' hz
        have hk' : k < la + p2.lp := hk'
        rw [hget, if_neg (by omega), if_neg (by omega)] at hz
        exact hp2.less k z hk hk' hz
      · intro k z hk hk' hz
        have hk' : k ≤ lb + ep' := hk'
        rw [hget] at hz
        by_cases hke : k = lb + ep'
        · rw [if_pos hke, hx] at hz; cases hz; exact hcx
        · rw [if_neg hke, if_neg (by omega)] at hz
          by_cases hk2 : k ≤ lb + p2.ep
          · exact hp2.equal k z hk hk2 hz
          · exact k4 k z (by omega) (by omega) hz
      · intro k z hk hk' hz
        have hk' : k < lc + p2.gp := hk'
        rw [hget, if_neg (by omega), if_neg (by omega)] at hz
        exact hp2.greater k z hk hk' hz
      · simp only [left]; omega
    | false =>
      simp only [Bool.false_eq_true, if_false]
      have i5 := i5 rfl
      rw [← j2] at i5
      have j5 := j5 rfl
      rw [law.len hp2.vl, law.len hp2.vg]
      rcases i5 with i5 | ⟨i5, x, hx, hcx⟩
      · rcases j5 with j5 | ⟨j5, y, hy, hcy⟩
        · rw [if_neg (by omega)]
          refine ⟨s, p2, L, rfl, hR, hp2, .refl _ _ _, ?_⟩
          simp only [left]; omega
        · have h1 : (slice L la lb).countP (fun x => c x == .lt) = lb - la :=
            countP_all (by omega) fun k z hk hk' hz => by simpa using hp2.less k z hk (by omega) hz
          have h2 := countP_pos_of (a := lc) (by omega) j5 hy (P := fun x => c x == .lt) (by simpa using hcy)
          have hz := countP_zones L (fun x => c x == .lt) b1.1 b2.1 b3.1
          omega
      · rcases j5 with j5 | ⟨j5, y, hy, hcy⟩
        · have h1 : (slice L lc ld).countP (fun x => c x == .gt) = ld - lc :=
            countP_all (by omega) fun k z hk hk' hz => by simpa using hp2.greater k z hk (by omega) hz
          have h2 := countP_pos_of (a := la) (by omega) i5 hx (P := fun x => c x == .gt) (by simpa using hcx)
          have hz := countP_zones L (fun x => c x == .gt) b1.1 b2.1 b3.1
          omega
        · rw [if_pos (by omega)]
          obtain ⟨f1, g1, e3, v1, v2⟩ := law.compare hR hp2.vl hp2.ve i5 hep hx hy0
          rw [e3, ok_bind, hcmp x y0 hcy0, hcx]
          simp only [show massert (Ordering.gt != .eq) = .ok () from rfl, ok_bind]
          obtain ⟨f2, g2, e4, v3, v4⟩ := law.compare hR hp2.vg v2 j5 hep hy hy0
          rw [e4, ok_bind, hcmp y y0 hcy0, hcy]
          simp only [show massert (Ordering.lt != .eq) = .ok () from rfl, ok_bind]
          obtain ⟨s', f3, g3, e5, hR', v5, v6⟩ := law.swap hR v1 v3 i5 j5
          rw [e5, ok_bind]
          have hget := swapAt_get? (L := L) (i := la + p2.lp) (j := lc + p2.gp) (by omega) (by omega)
          refine ⟨s', _, _, rfl, hR', ⟨v5, v4, v6, ?_, ?_, hep, ?_, ?_, ?_⟩,
            Within.swap (by omega) (by omega) (by omega) (by omega) (by omega), ?_⟩
          · show la + (p2.lp + 1) ≤ lb; omega
          · show lc + (p2.gp + 1) ≤ ld; omega
          · intro k z hk hk' hz
            have hk' : k < la + (p2.lp + 1) := hk'
            rw [hget, if_neg (by omega)] at hz
            by_cases hke : k = la + p2.lp
            · rw [if_pos hke, hy] at hz; cases hz; exact hcy
            · rw [if_neg hke] at hz
              exact hp2.less k z hk (by omega) hz
          · intro k z hk hk' hz
            have hk' : k ≤ lb + p2.ep := hk'
            rw [hget, if_neg (by omega), if_neg (by omega)] at hz
            exact hp2.equal k z hk hk' hz
          · intro k z hk hk' hz
            have hk' : k < lc + (p2.gp + 1) := hk'
            rw [hget] at hz
            by_cases hke : k = lc + p2.gp
            · rw [if_pos hke, hx] at hz; cases hz; exact hcx
            · rw [if_neg hke, if_neg (by omega)] at hz
              exact hp2.greater k z hk (by omega) hz
          · simp only [left]; omega

theorem partLoop_ok (law : Lawful o cmp n R V) {c : γ → Ordering}
    (hcmp : ∀ x e, c e = .eq → cmp x e = c x) (hcmp' : ∀ x e, c x = .eq → (cmp x e = .eq ↔ c e = .eq))
    {la lb lc ld : Nat} : ∀ (fuel : Nat) {s : σ} {L : List γ} {p : Parts φ}, R s L → PInv V L c la lb lc ld p →
    (slice L la ld).countP (fun x => c x == .lt) = lb - la →
    (slice L la ld).countP (fun x => c x == .eq) = lc - lb → left la lb lc ld p < fuel →
    ∃ s' p' L', partLoop o fuel s p = .ok (s', p') ∧ R s' L' ∧ PInv V L' c la lb lc ld p' ∧ Within la ld L L' ∧
      la + p'.lp = lb ∧ lc + p'.gp = ld := by
  intro fuel
  induction fuel with
  | zero => intro s L p _ _ _ _ h; omega
  | succ fuel ih =>
    intro s L p hR hp h1 h2 hf
    have b1 := law.bound hp.vl
    have b2 := law.bound hp.ve
    have b3 := law.bound hp.vg
    have hL := law.length hR
    rw [partLoop, law.len hp.vl, law.len hp.vg]
    by_cases hgo : la + p.lp ≠ lb ∨ lc + p.gp ≠ ld
    · rw [if_pos (by omega)]
      obtain ⟨s1, p1, L1, e1, hR1, hp1, w1, hlt⟩ := partStep_ok law hR hcmp hcmp' hp h1 h2 hgo
      have pm := w1.slice_perm (by omega) (by omega)
      obtain ⟨s2, p2, L2, e2, hR2, hp2, w2, h3, h4⟩ := ih hR1 hp1 (by rw [pm.countP_eq]; exact h1)
        (by rw [pm.countP_eq]; exact h2) (by omega)
      refine ⟨s2, p2, L2, ?_, hR2, hp2, w1.trans w2, h3, h4⟩
      rw [e1, ok_bind]
      exact e2
    · rw [if_neg (by omega)]
      exact ⟨s, p, L, rfl, hR, hp, .refl _ _ _, by omega, by omega⟩

theorem ne_lt_iff [Std.OrientedCmp cmp] {x y : γ} : cmp x y ≠ .lt ↔ cmp y x ≠ .gt :=
  not_congr (Std.OrientedCmp.gt_iff_lt (cmp := cmp)).symm

theorem ne_gt_trans [Std.TransCmp cmp] {x y z : γ} (h1 : cmp x y ≠ .gt) (h2 : cmp y z ≠ .gt) : cmp x z ≠ .gt :=
  Ordering.isLE_iff_ne_gt.1 (Std.TransCmp.isLE_trans (Ordering.isLE_iff_ne_gt.2 h1) (Ordering.isLE_iff_ne_gt.2 h2))

theorem zone_le [Std.TransCmp cmp] {x y p : γ} (h1 : cmp x p ≠ .gt) (h2 : cmp y p ≠ .lt) : cmp x y ≠ .gt :=
  ne_gt_trans h1 (ne_lt_iff.1 h2)

theorem sort_ok [Std.TransCmp cmp] (law : Lawful o cmp n R V) (next : ρ → Nat × ρ) :
    ∀ (fuel : Nat) {s : σ} {rng : ρ} {f : φ} {lo hi : Nat} {L : List γ}, R s L → V f lo hi → hi - lo < fuel →
    ∃ s' rng' L', o.sort next fuel s rng f = .ok (s', rng') ∧ R s' L' ∧ Within lo hi L L' ∧
      (slice L' lo hi).Pairwise (fun x y => cmp x y ≠ .gt) := by
  intro fuel
  induction fuel with
  | zero => intro s rng f lo hi L _ _ h; omega
  | succ fuel ih =>
    intro s rng f lo hi L hR hV hf
    have b := law.bound hV
    have hL := law.length hR
    rw [sort, law.len hV]
    by_cases hlen : hi - lo ≤ 1
    · rw [if_pos hlen]
      refine ⟨s, rng, L, rfl, hR, .refl _ _ _, ?_⟩
      have hs : (slice L lo hi).length ≤ 1 := by rw [slice_len L (by omega)]; exact hlen
      generalize slice L lo hi = l at hs
      match l, hs with
      | [], _ => exact .nil
      | [x], _ => exact List.pairwise_singleton _ _
    rw [if_neg hlen]
    obtain ⟨first, rest, e1, v1, v2⟩ := law.splitAt 1 hV (by omega)
    simp only [e1, ok_bind, law.check v1, law.check v2]
    have hpiv : (next rng).1 % (hi - lo) < hi - lo := Nat.mod_lt _ (by omega)
    generalize (next rng).1 % (hi - lo) = pivot at hpiv
    obtain ⟨s1, r1, f1, L1, e2, hR1, v3, v4, w1⟩ : ∃ s1 r1 f1 L1,
        (if pivot > 0 then o.swap s rest (pivot - 1) first 0 else .ok (s, rest, first)) = .ok (s1, r1, f1) ∧ R s1 L1 ∧
        V r1 (lo + 1) hi ∧ V f1 lo (lo + 1) ∧ Within lo hi L L1 := by
      by_cases h : pivot > 0
      · rw [if_pos h]
        obtain ⟨s1, r1, f1, e2, hR1, v3, v4⟩ := law.swap hR v2 v1 (i := pivot - 1) (j := 0) (by omega) (by omega)
        exact ⟨s1, r1, f1, _, e2, hR1, v3, v4, Within.swap (by omega) (by omega) (by omega) (by omega) (by omega)⟩
      · rw [if_neg h]
        exact ⟨s, rest, first, L, rfl, hR, v2, v1, .refl _ _ _⟩
    rw [e2, ok_bind]
    simp only
    have hL1 := law.length hR1
    have hp : L1[lo]? = some (L1[lo]'(by omega)) := List.getElem?_eq_getElem (by omega)
    generalize L1[lo]'(by omega) = p at hp
    rw [law.len v3]
    obtain ⟨f2, r2, e3, v5, v6⟩ := countLoop_ok law hR1 hp (hi - (lo + 1)) 0 0 0 v4 v3 (by omega)
    rw [e3, ok_bind]
    simp only [Nat.zero_add, Nat.add_zero]
    have h3 := countP_three (slice L1 (lo + 1) hi) (cmp · p)
    rw [slice_len L1 (by omega)] at h3
    generalize hlc : (slice L1 (lo + 1) hi).countP (fun x => cmp x p == .lt) = lc at h3
    generalize hec : (slice L1 (lo + 1) hi).countP (fun x => cmp x p == .eq) = ec at h3
    by_cases hc0 : lc = 0
    · subst hc0
      rw [if_pos (by simp)]
      obtain ⟨s2, rng2, L2, e4, hR2, w2, hs⟩ := ih (rng := (next rng).2) hR1 v6 (by omega)
      refine ⟨s2, rng2, L2, e4, hR2, w1.trans (w2.mono (by omega) (by omega)), ?_⟩
      rw [slice_cons L2 (by omega) (show L2[lo]? = some p by rw [w2.same lo (by omega), hp]), List.pairwise_cons]
      refine ⟨fun x hx => ?_, hs⟩
      have hx' := (w2.slice_perm (by omega) (by omega)).mem_iff.1 hx
      have := List.countP_eq_zero.1 hlc x hx'
      exact ne_lt_iff.1 (by simpa using this)
    rw [if_neg (by simpa using hc0), usub_ok (by omega), ok_bind]
    obtain ⟨s2, f3, r3, e4, hR2, v7, v8⟩ := law.swap hR1 v5 v6 (i := 0) (j := lc - 1) (by omega) (by omega)
    simp only [Nat.add_zero] at hR2
    rw [e4, ok_bind]
    simp only
    have hget := swapAt_get? (L := L1) (i := lo) (j := lo + 1 + (lc - 1)) (by omega) (by omega)
    have w2 : Within lo hi L1 (swapAt L1 lo (lo + 1 + (lc - 1))) :=
      Within.swap (by omega) (by omega) (by omega) (by omega) (by omega)
    generalize swapAt L1 lo (lo + 1 + (lc - 1)) = L2 at *
    rw [law.len v8]
    obtain ⟨s3, L3, f4, r4, e5, hR3, v9, v10, w3, hq, hm⟩ := minLoop_ok law (a := lo) (b := hi) (lessCount := lc - 1)
      (by omega) (hi - (lo + 1)) 0 hR2 v7 v8 (by omega) (fun m hm j x hj hj' => by omega)
    rw [e5, ok_bind]
    simp only
    rw [hget, if_pos rfl, hp] at hq
    have hL3 := law.length hR3
    have hm0 : L3[lo]? = some (L3[lo]'(by omega)) := List.getElem?_eq_getElem (by omega)
    generalize L3[lo]'(by omega) = m at hm0
    replace hm := hm m hm0
    have pm : (slice L3 lo hi).Perm (slice L1 lo hi) := (w2.trans w3).slice_perm (by omega) (by omega)
    rw [slice_cons L3 (by omega) hm0, slice_cons L1 (by omega) hp] at pm
    have hpp : cmp p p = .eq := Std.ReflCmp.compare_self
    -- the minimum is less than the pivot
    have hmp : cmp m p = .lt := by
      have hpos : 0 < (m :: slice L3 (lo + 1) hi).countP (fun x => cmp x p == .lt) := by
        rw [pm.countP_eq, List.countP_cons, hlc]; omega
      obtain ⟨x, hx, hxp⟩ := List.countP_pos_iff.1 hpos
      replace hxp : cmp x p = .lt := by simpa using hxp
      rcases List.mem_cons.1 hx with rfl | hx
      · exact hxp
      · obtain ⟨j, h1, h2, h4⟩ := mem_slice.1 hx
        by_cases hj : j = lo + 1 + (lc - 1)
        · rw [hj, hq] at h4
          cases h4
          rw [hpp] at hxp; cases hxp
        · have := hm j x (by omega) h2 hj h4
          exact Std.TransCmp.lt_of_isLE_of_lt (Ordering.isLE_iff_ne_gt.2 (ne_lt_iff.1 this)) hxp
    have hlt3 : (slice L3 (lo + 1) hi).countP (fun x => cmp x p == .lt) = lc - 1 := by
      have := pm.countP_eq (p := fun x => cmp x p == .lt)
      simp only [List.countP_cons, hlc, hmp, hpp] at this
      simp at this
      omega
    have heq3 : (slice L3 (lo + 1) hi).countP (fun x => cmp x p == .eq) = ec + 1 := by
      have := pm.countP_eq (p := fun x => cmp x p == .eq)
      simp only [List.countP_cons, hec, hmp, hpp] at this
      simpa using this
    have h3' := countP_three (slice L3 (lo + 1) hi) (cmp · p)
    rw [slice_len L3 (by omega), hlt3, heq3] at h3'
    obtain ⟨g1, gr, e6, v11, v12⟩ := law.splitAt (lc - 1 + (ec + 1)) v10 (by omega)
    obtain ⟨le, eq, e7, v13, v14⟩ := law.splitAt (lc - 1) v11 (by omega)
    simp only [e6, ok_bind, law.check v12, e7, law.check v14, law.check v13, law.len v12, law.len v13, law.len v14]
    obtain ⟨s4, p4, L4, e8, hR4, hp4, w4, h5, h6⟩ := partLoop_ok law (c := (cmp · p))
      (fun x e he => Std.TransCmp.congr_right he)
      (fun x e hx => by
        show cmp x e = .eq ↔ cmp e p = .eq
        have hx : cmp x p = .eq := hx
        rw [Std.OrientedCmp.eq_comm (a := x) (b := e), Std.TransCmp.congr_right hx])
      (lo + 1 + (lc - 1) - (lo + 1) + (lo + 1 + (lc - 1 + (ec + 1)) - (lo + 1 + (lc - 1))) +
        (hi - (lo + 1 + (lc - 1 + (ec + 1)))) + 2) hR3
      (p := ⟨le, eq, gr, 0, 0, 0⟩) ⟨v13, v14, v12, Nat.le_add_right _ _, by show _ + 0 ≤ hi; omega,
        by show lo + 1 + (lc - 1) + 0 < _; omega, fun k x h1 h2 => by simp only [Nat.add_zero] at h2; omega,
        fun k x h1 h2 hx => by
          rw [show k = lo + 1 + (lc - 1) by simp only [Nat.add_zero] at h2; omega, hq] at hx
          cases hx
          exact hpp,
        fun k x h1 h2 => by simp only [Nat.add_zero] at h2; omega⟩
      (by rw [hlt3]; omega) (by rw [heq3]; omega) (by simp only [left]; omega)
    rw [e8, ok_bind]
    simp only
    have hL4 := law.length hR4
    generalize hlb : lo + 1 + (lc - 1) = lb at *
    generalize hlcc : lo + 1 + (lc - 1 + (ec + 1)) = lcc at *
    have pm4 := w4.slice_perm (by omega) (by omega)
    have zl : ∀ x ∈ slice L4 (lo + 1) lb, cmp x p = .lt := by
      intro x hx
      obtain ⟨k, h1, h2, h4⟩ := mem_slice.1 hx
      exact hp4.less k x h1 (by omega) h4
    have zg : ∀ x ∈ slice L4 lcc hi, cmp x p = .gt := by
      intro x hx
      obtain ⟨k, h1, h2, h4⟩ := mem_slice.1 hx
      exact hp4.greater k x h1 (by omega) h4
    have ze : ∀ x ∈ slice L4 lb lcc, cmp x p = .eq := by
      have hz := countP_zones L4 (fun x => cmp x p == .eq) (la := lo + 1) (lb := lb) (lc := lcc) (ld := hi)
        (by omega) (by omega) (by omega)
      rw [pm4.countP_eq, heq3, List.countP_eq_zero.2 (fun x hx => by rw [zl x hx]; decide),
        (List.countP_eq_zero (l := slice L4 lcc hi)).2 (fun x hx => by rw [zg x hx]; decide)] at hz
      have : (slice L4 lb lcc).countP (fun x => cmp x p == .eq) = (slice L4 lb lcc).length := by
        rw [slice_len L4 (by omega)]; omega
      intro x hx
      simpa using List.countP_eq_length.1 this x hx
    obtain ⟨s5, rng5, L5, e9, hR5, w5, hs5⟩ := ih (rng := (next rng).2) hR4 hp4.vl (by omega)
    rw [e9, ok_bind]
    simp only
    have hL5 := law.length hR5
    obtain ⟨s6, rng6, L6, e10, hR6, w6, hs6⟩ : ∃ s6 rng6 L6,
        (if o.len p4.greater != 0 then sort o next fuel s5 rng5 p4.greater else .ok (s5, rng5)) = .ok (s6, rng6) ∧
        R s6 L6 ∧ Within lcc hi L5 L6 ∧ (slice L6 lcc hi).Pairwise (fun x y => cmp x y ≠ .gt) := by
      rw [law.len hp4.vg]
      by_cases hg : hi - lcc = 0
      · rw [if_neg (by simp [hg])]
        exact ⟨s5, rng5, L5, rfl, hR5, .refl _ _ _, by rw [slice_nil _ (by omega)]; exact .nil⟩
      · rw [if_pos (by simpa using hg)]
        exact ih hR5 hp4.vg (by omega)
    have hL6 := law.length hR6
    refine ⟨s6, rng6, L6, e10, hR6, ?_, ?_⟩
    · exact w1.trans (w2.trans (w3.trans ((w4.mono (by omega) (by omega)).trans
        ((w5.mono (by omega) (by omega)).trans (w6.mono (by omega) (by omega))))))
    · have w46 : Within (lo + 1) hi L4 L6 := (w5.mono (by omega) (by omega)).trans (w6.mono (by omega) (by omega))
      have hm6 : L6[lo]? = some m := by rw [w46.same lo (by omega), w4.same lo (by omega), hm0]
      have pm6 : (slice L6 (lo + 1) hi).Perm (slice L3 (lo + 1) hi) :=
        (w4.trans w46).slice_perm (by omega) (by omega)
      rw [slice_cons L6 (by omega) hm6, List.pairwise_cons]
      refine ⟨fun x hx => ?_, ?_⟩
      · obtain ⟨j, h1, h2, h4⟩ := mem_slice.1 (pm6.mem_iff.1 hx)
        by_cases hj : j = lb
        · rw [hj, hq] at h4
          cases h4
          rw [hmp]; decide
        · exact ne_lt_iff.1 (hm j x (by omega) h2 hj h4)
      · have q1 : (slice L6 (lo + 1) lb) = slice L5 (lo + 1) lb := w6.slice_same (by omega)
        have q2 : (slice L6 lb lcc) = slice L4 lb lcc := by
          rw [w6.slice_same (by omega), w5.slice_same (by omega)]
        have q3 : (slice L6 lcc hi).Perm (slice L4 lcc hi) := by
          have := w6.slice_perm (by omega) (by omega)
          rwa [w5.slice_same (c := lcc) (by omega)] at this
        have q4 : (slice L5 (lo + 1) lb).Perm (slice L4 (lo + 1) lb) := w5.slice_perm (by omega) (by omega)
        rw [slice_append L6 (a := lo + 1) (b := lcc) (c := hi) (by omega) (by omega),
          slice_append L6 (a := lo + 1) (b := lb) (c := lcc) (by omega) (by omega), q1, q2]
        rw [List.pairwise_append, List.pairwise_append]
        refine ⟨⟨hs5, ?_, ?_⟩, hs6, ?_⟩
        · rw [List.pairwise_iff_getElem]
          intro i j hi' hj' _
          exact zone_le (p := p) (by rw [ze _ (List.getElem_mem hi')]; decide) (by rw [ze _ (List.getElem_mem hj')]; decide)
        · intro x hx y hy
          exact zone_le (p := p) (by rw [zl _ (q4.mem_iff.1 hx)]; decide) (by rw [ze _ hy]; decide)
        · intro x hx y hy
          refine zone_le (p := p) ?_ (by rw [zg _ (q3.mem_iff.1 hy)]; decide)
          rcases List.mem_append.1 hx with hx | hx
          · rw [zl _ (q4.mem_iff.1 hx)]; decide
          · rw [ze _ hx]; decide

end SortFocus
end Librrb
