import Verif.Proof.SortVec

/-! # The sorting algorithm with an arbitrary comparator -/
namespace Librrb

/-- The computation returns a value for which `P` holds, or it panics, or it does not end. -/
def Fine (P : τ → Prop) : M τ → Prop
  | .ok x => P x
  | .error e => e = .panic ∨ e = .diverge

theorem Fine.bind {P : τ → Prop} {Q : υ → Prop} {m : M τ} {f : τ → M υ} (h : Fine P m) (hf : ∀ x, P x → Fine Q (f x)) :
    Fine Q (m >>= f) := by
  cases m with
  | ok x => exact hf x h
  | error e => exact h

theorem Fine.mono {P Q : τ → Prop} {m : M τ} (h : Fine P m) (hf : ∀ x, P x → Q x) : Fine Q m := by
  cases m with
  | ok x => exact hf x h
  | error e => exact h

theorem Fine.massert (c : Bool) : Fine (fun _ => True) (massert c) := by
  cases c
  · exact .inl rfl
  · exact trivial

namespace SortFocus

variable {o : SortFocus σ φ} {cmp : γ → γ → Ordering} {n : Nat} {R : σ → List γ → Prop} {V : φ → Nat → Nat → Prop}

theorem minLoop_any (law : Lawful o cmp n R V) {a b lessCount : Nat} :
    ∀ (k index : Nat) {s : σ} {L : List γ} {first rest : φ}, R s L → V first a (a + 1) → V rest (a + 1) b →
    index + k = b - (a + 1) →
    ∃ s' L' first' rest', minLoop o lessCount k index s first rest = .ok (s', first', rest') ∧ R s' L' ∧
      V first' a (a + 1) ∧ V rest' (a + 1) b ∧ Within a b L L' := by
  intro k
  induction k with
  | zero =>
    intro index s L first rest hR h1 h2 hk
    exact ⟨s, L, first, rest, rfl, hR, h1, h2, .refl _ _ _⟩
  | succ k ih =>
    intro index s L first rest hR h1 h2 hk
    have hb := law.bound h2
    have hL := law.length hR
    rw [minLoop]
    by_cases hc : index = lessCount
    · rw [if_pos (by simpa using hc)]
      exact ih (index + 1) hR h1 h2 (by omega)
    · rw [if_neg (by simpa using hc)]
      have hx : L[a + 1 + index]? = some (L[a + 1 + index]'(by omega)) := List.getElem?_eq_getElem (by omega)
      generalize L[a + 1 + index]'(by omega) = x at hx
      have hp : L[a]? = some (L[a]'(by omega)) := List.getElem?_eq_getElem (by omega)
      generalize L[a]'(by omega) = p at hp
      obtain ⟨f', g', e, h3, h4⟩ := law.compare hR h2 h1 (i := index) (j := 0) (by omega) (by omega) hx (by simpa using hp)
      rw [e]
      simp only [ok_bind]
      split
      · obtain ⟨s1, f1, g1, e1, hR1, h5, h6⟩ := law.swap hR h4 h3 (i := 0) (j := index) (by omega) (by omega)
        simp only [Nat.add_zero] at hR1
        obtain ⟨s2, L2, f2, g2, e2, hR2, h7, h8, w⟩ := ih (index + 1) hR1 h5 h6 (by omega)
        refine ⟨s2, L2, f2, g2, ?_, hR2, h7, h8, ?_⟩
        · rw [e1]; simp only [ok_bind]; exact e2
        · exact (Within.swap (by omega) (by omega) (by omega) (by omega) (by omega)).trans w
      · exact ih (index + 1) hR h4 h3 (by omega)

/-- What holds of the variables of the partition loop for any comparator. -/
structure PAny (V : φ → Nat → Nat → Prop) (la lb lc ld : Nat) (p : Parts φ) : Prop where
  vl : V p.less la lb
  ve : V p.equal lb lc
  vg : V p.greater lc ld
  lp : la + p.lp ≤ lb
  gp : lc + p.gp ≤ ld
  ep : lb + p.ep < lc

theorem advanceLess_any (law : Lawful o cmp n R V) {s : σ} {L : List γ} (hR : R s L) {la lb lc ld : Nat} :
    ∀ (fuel : Nat) {p : Parts φ}, PAny V la lb lc ld p →
    Fine (fun r => PAny V la lb lc ld r.2 ∧ (r.1 = true → la + r.2.lp < lb)) (advanceLess o s fuel p) := by
  intro fuel
  induction fuel with
  | zero => intro p _; exact .inr rfl
  | succ fuel ih =>
    intro p hp
    have b1 := law.bound hp.vl
    have b2 := law.bound hp.ve
    have b3 := law.bound hp.vg
    have hL := law.length hR
    have hlp := hp.lp
    have hep := hp.ep
    rw [advanceLess, law.len hp.vl]
    by_cases hc : p.lp = lb - la
    · rw [if_neg (by simpa using hc)]
      exact ⟨hp, by simp⟩
    · rw [if_pos (by simpa using hc)]
      have hx : L[la + p.lp]? = some (L[la + p.lp]'(by omega)) := List.getElem?_eq_getElem (by omega)
      have hy : L[lb + p.ep]? = some (L[lb + p.ep]'(by omega)) := List.getElem?_eq_getElem (by omega)
      obtain ⟨f', g', e, h3, h4⟩ := law.compare hR hp.vl hp.ve (i := p.lp) (j := p.ep) (by omega) (by omega) hx hy
      rw [e]
      simp only [ok_bind]
      cases cmp _ _ with
      | eq => exact ⟨⟨h3, h4, hp.vg, hp.lp, hp.gp, hp.ep⟩, fun _ => by show la + p.lp < lb; omega⟩
      | gt => exact ⟨⟨h3, h4, hp.vg, hp.lp, hp.gp, hp.ep⟩, by simp⟩
      | lt => exact ih ⟨h3, h4, hp.vg, by show la + (p.lp + 1) ≤ lb; omega, hp.gp, hp.ep⟩

theorem advanceGreater_any (law : Lawful o cmp n R V) {s : σ} {L : List γ} (hR : R s L) {la lb lc ld : Nat} :
    ∀ (fuel : Nat) {p : Parts φ}, PAny V la lb lc ld p →
    Fine (fun r => PAny V la lb lc ld r.2 ∧ r.2.lp = p.lp ∧ (r.1 = true → lc + r.2.gp < ld)) (advanceGreater o s fuel p) := by
  intro fuel
  induction fuel with
  | zero => intro p _; exact .inr rfl
  | succ fuel ih =>
    intro p hp
    have b1 := law.bound hp.vl
    have b2 := law.bound hp.ve
    have b3 := law.bound hp.vg
    have hL := law.length hR
    have hgp := hp.gp
    have hep := hp.ep
    rw [advanceGreater, law.len hp.vg]
    by_cases hc : p.gp = ld - lc
    · rw [if_neg (by simpa using hc)]
      exact ⟨hp, rfl, by simp⟩
    · rw [if_pos (by simpa using hc)]
      have hx : L[lc + p.gp]? = some (L[lc + p.gp]'(by omega)) := List.getElem?_eq_getElem (by omega)
      have hy : L[lb + p.ep]? = some (L[lb + p.ep]'(by omega)) := List.getElem?_eq_getElem (by omega)
      obtain ⟨f', g', e, h3, h4⟩ := law.compare hR hp.vg hp.ve (i := p.gp) (j := p.ep) (by omega) (by omega) hx hy
      rw [e]
      simp only [ok_bind]
      cases cmp _ _ with
      | eq => exact ⟨⟨hp.vl, h4, h3, hp.lp, hp.gp, hp.ep⟩, rfl, fun _ => by show lc + p.gp < ld; omega⟩
      | lt => exact ⟨⟨hp.vl, h4, h3, hp.lp, hp.gp, hp.ep⟩, rfl, by simp⟩
      | gt =>
        exact ih (p := { p with greater := f', equal := g', gp := p.gp + 1 })
          ⟨hp.vl, h4, h3, hp.lp, by show lc + (p.gp + 1) ≤ ld; omega, hp.ep⟩

theorem advanceEqual_any (law : Lawful o cmp n R V) (over : ∀ {s f g a b c d i j} {L : List γ}, R s L → V f a b → V g c d →
      a + i < b → d ≤ c + j → o.compare s f i g j = .error .panic)
    {s : σ} {L : List γ} (hR : R s L) {u v i lb lc : Nat} (hi : u + i < v) :
    ∀ (fuel : Nat) {side equal : φ} {ep : Nat}, V side u v → V equal lb lc →
    Fine (fun r => V r.2.1 u v ∧ V r.2.2 lb lc ∧ lb + r.1 < lc) (advanceEqual o s i fuel side equal ep) := by
  intro fuel
  induction fuel with
  | zero => intros; exact .inr rfl
  | succ fuel ih =>
    intro side equal ep h1 h2
    have b1 := law.bound h1
    have b2 := law.bound h2
    have hL := law.length hR
    rw [advanceEqual]
    by_cases hlt : lb + ep < lc
    · have hx : L[u + i]? = some (L[u + i]'(by omega)) := List.getElem?_eq_getElem (by omega)
      have hy : L[lb + ep]? = some (L[lb + ep]'(by omega)) := List.getElem?_eq_getElem (by omega)
      obtain ⟨f', g', e, h8, h9⟩ := law.compare hR h1 h2 (i := i) (j := ep) hi hlt hx hy
      rw [e]
      simp only [ok_bind]
      split
      · exact ih h8 h9
      · exact ⟨h8, h9, hlt⟩
    · rw [over hR h1 h2 hi (by omega)]
      exact .inl rfl

theorem partStep_any (law : Lawful o cmp n R V) (over : ∀ {s f g a b c d i j} {L : List γ}, R s L → V f a b → V g c d →
      a + i < b → d ≤ c + j → o.compare s f i g j = .error .panic)
    {s : σ} {L : List γ} (hR : R s L) {la lb lc ld : Nat} {p : Parts φ} (hp : PAny V la lb lc ld p) :
    Fine (fun r => ∃ L', R r.1 L' ∧ PAny V la lb lc ld r.2 ∧ Within la ld L L') (partStep o s p) := by
  have b1 := law.bound hp.vl
  have b2 := law.bound hp.ve
  have b3 := law.bound hp.vg
  have hL := law.length hR
  rw [partStep]
  refine (advanceLess_any law hR _ hp).bind ?_
  rintro ⟨qa, p1⟩ ⟨hp1, hqa⟩
  refine (advanceGreater_any law hR _ hp1).bind ?_
  rintro ⟨qb, p2⟩ ⟨hp2, hlp2, hqb⟩
  simp only at hp1 hqa hp2 hlp2 hqb
  simp only
  have hlp := hp2.lp
  have hgp := hp2.gp
  have hep := hp2.ep
  cases qb with
  | true =>
    simp only [if_true]
    have hlt' := hqb rfl
    refine (advanceEqual_any law over hR hlt' _ hp2.vg hp2.ve).bind ?_
    rintro ⟨ep', sd, eqf⟩ ⟨v1, v2, k2⟩
    simp only at v1 v2 k2
    obtain ⟨s', f', g', e4, hR', v3, v4⟩ := law.swap hR v1 v2 (i := p2.gp) (j := ep') hlt' k2
    simp only [e4, ok_bind]
    exact ⟨_, hR', ⟨hp2.vl, v4, v3, hp2.lp, hp2.gp, k2⟩,
      Within.swap (by omega) (by omega) (by omega) (by omega) (by omega)⟩
  | false =>
    simp only [Bool.false_eq_true, if_false]
    cases qa with
    | true =>
      simp only [if_true]
      have hlt' := hqa rfl
      rw [← hlp2] at hlt'
      refine (advanceEqual_any law over hR hlt' _ hp2.vl hp2.ve).bind ?_
      rintro ⟨ep', sd, eqf⟩ ⟨v1, v2, k2⟩
      simp only at v1 v2 k2
      obtain ⟨s', f', g', e4, hR', v3, v4⟩ := law.swap hR v1 v2 (i := p2.lp) (j := ep') hlt' k2
      simp only [e4, ok_bind]
      exact ⟨_, hR', ⟨v3, v4, hp2.vg, hp2.lp, hp2.gp, k2⟩,
        Within.swap (by omega) (by omega) (by omega) (by omega) (by omega)⟩
    | false =>
      simp only [Bool.false_eq_true, if_false]
      rw [law.len hp2.vl, law.len hp2.vg]
      split
      · rename_i hne
        have i5 : la + p2.lp < lb := by omega
        have j5 : lc + p2.gp < ld := by omega
        have hx : L[la + p2.lp]? = some (L[la + p2.lp]'(by omega)) := List.getElem?_eq_getElem (by omega)
        have hy : L[lc + p2.gp]? = some (L[lc + p2.gp]'(by omega)) := List.getElem?_eq_getElem (by omega)
        have hz : L[lb + p2.ep]? = some (L[lb + p2.ep]'(by omega)) := List.getElem?_eq_getElem (by omega)
        obtain ⟨f1, g1, e3, v1, v2⟩ := law.compare hR hp2.vl hp2.ve i5 hep hx hz
        rw [e3, ok_bind]
        refine (Fine.massert _).bind fun _ _ => ?_
        obtain ⟨f2, g2, e4, v3, v4⟩ := law.compare hR hp2.vg v2 j5 hep hy hz
        simp only [e4, ok_bind]
        refine (Fine.massert _).bind fun _ _ => ?_
        obtain ⟨s', f3, g3, e5, hR', v5, v6⟩ := law.swap hR v1 v3 i5 j5
        simp only [e5, ok_bind]
        refine ⟨_, hR', ⟨v5, v4, v6, ?_, ?_, hep⟩, Within.swap (by omega) (by omega) (by omega) (by omega) (by omega)⟩
        · show la + (p2.lp + 1) ≤ lb; omega
        · show lc + (p2.gp + 1) ≤ ld; omega
      · exact ⟨L, hR, hp2, .refl _ _ _⟩

theorem partLoop_any (law : Lawful o cmp n R V) (over : ∀ {s f g a b c d i j} {L : List γ}, R s L → V f a b → V g c d →
      a + i < b → d ≤ c + j → o.compare s f i g j = .error .panic) {la lb lc ld : Nat} :
    ∀ (fuel : Nat) {s : σ} {L : List γ} {p : Parts φ}, R s L → PAny V la lb lc ld p →
    Fine (fun r => ∃ L', R r.1 L' ∧ PAny V la lb lc ld r.2 ∧ Within la ld L L') (partLoop o fuel s p) := by
  intro fuel
  induction fuel with
  | zero => intros; exact .inr rfl
  | succ fuel ih =>
    intro s L p hR hp
    rw [partLoop]
    split
    · refine (partStep_any law over hR hp).bind ?_
      rintro ⟨s1, p1⟩ ⟨L1, hR1, hp1, w1⟩
      exact (ih hR1 hp1).mono fun r ⟨L2, hR2, hp2, w2⟩ => ⟨L2, hR2, hp2, w1.trans w2⟩
    · exact ⟨L, hR, hp, .refl _ _ _⟩

theorem sort_any (law : Lawful o cmp n R V) (over : ∀ {s f g a b c d i j} {L : List γ}, R s L → V f a b → V g c d →
      a + i < b → d ≤ c + j → o.compare s f i g j = .error .panic) (next : ρ → Nat × ρ) :
    ∀ (fuel : Nat) {s : σ} {rng : ρ} {f : φ} {lo hi : Nat} {L : List γ}, R s L → V f lo hi →
    Fine (fun r => ∃ L', R r.1 L' ∧ Within lo hi L L') (o.sort next fuel s rng f) := by
  intro fuel
  induction fuel with
  | zero => intros; exact .inr rfl
  | succ fuel ih =>
    intro s rng f lo hi L hR hV
    have b := law.bound hV
    have hL := law.length hR
    rw [sort, law.len hV]
    by_cases hlen : hi - lo ≤ 1
    · rw [if_pos hlen]
      exact ⟨L, hR, .refl _ _ _⟩
    rw [if_neg hlen]
    obtain ⟨first, rest, e1, v1, v2⟩ := law.splitAt 1 hV (by omega)
    simp only [e1, ok_bind, law.check v1, law.check v2]
    have hpiv : (next rng).1 % (hi - lo) < hi - lo := Nat.mod_lt _ (by omega)
    generalize (next rng).1 % (hi - lo) = pivot at hpiv
    obtain ⟨s1, r1, f1, L1, e2, hR1, v3, v4, w1⟩ : ∃ s1 r1 f1 L1,
        (if pivot > 0 then o.swap s rest (pivot - 1) first 0 else .ok (s, rest, first)) = .ok (s1, r1, f1) ∧ R s1 L1 ∧
        V r1 (lo + 1) hi ∧ V f1 lo (lo + 1) ∧ Within lo hi L L1 := by
      by_cases h : pivot > 0
      · rw [if_pos h]
        obtain ⟨s1, r1, f1, e2, hR1, v3, v4⟩ := law.swap hR v2 v1 (i := pivot - 1) (j := 0) (by omega) (by omega)
        exact ⟨s1, r1, f1, _, e2, hR1, v3, v4, Within.swap (by omega) (by omega) (by omega) (by omega) (by omega)⟩
      · rw [if_neg h]
        exact ⟨s, rest, first, L, rfl, hR, v2, v1, .refl _ _ _⟩
    rw [e2, ok_bind]
    simp only
    have hL1 := law.length hR1
    have hp : L1[lo]? = some (L1[lo]'(by omega)) := List.getElem?_eq_getElem (by omega)
    generalize L1[lo]'(by omega) = p at hp
    rw [law.len v3]
    obtain ⟨f2, r2, e3, v5, v6⟩ := countLoop_ok law hR1 hp (hi - (lo + 1)) 0 0 0 v4 v3 (by omega)
    rw [e3, ok_bind]
    simp only [Nat.zero_add, Nat.add_zero]
    have h3 := countP_three (slice L1 (lo + 1) hi) (cmp · p)
    rw [slice_len L1 (by omega)] at h3
    generalize hlc : (slice L1 (lo + 1) hi).countP (fun x => cmp x p == .lt) = lc at h3
    generalize hec : (slice L1 (lo + 1) hi).countP (fun x => cmp x p == .eq) = ec at h3
    by_cases hc0 : lc = 0
    · subst hc0
      rw [if_pos (by simp)]
      exact (ih hR1 v6).mono fun r ⟨L2, hR2, w2⟩ => ⟨L2, hR2, w1.trans (w2.mono (by omega) (by omega))⟩
    rw [if_neg (by simpa using hc0), usub_ok (by omega), ok_bind]
    obtain ⟨s2, f3, r3, e4, hR2, v7, v8⟩ := law.swap hR1 v5 v6 (i := 0) (j := lc - 1) (by omega) (by omega)
    simp only [Nat.add_zero] at hR2
    rw [e4, ok_bind]
    simp only
    have w2 : Within lo hi L1 (swapAt L1 lo (lo + 1 + (lc - 1))) :=
      Within.swap (by omega) (by omega) (by omega) (by omega) (by omega)
    generalize swapAt L1 lo (lo + 1 + (lc - 1)) = L2 at *
    rw [law.len v8]
    obtain ⟨s3, L3, f4, r4, e5, hR3, v9, v10, w3⟩ := minLoop_any law (a := lo) (b := hi) (lessCount := lc - 1)
      (hi - (lo + 1)) 0 hR2 v7 v8 (by omega)
    rw [e5, ok_bind]
    simp only
    obtain ⟨g1, gr, e6, v11, v12⟩ := law.splitAt (lc - 1 + (ec + 1)) v10 (by omega)
    obtain ⟨le, eq, e7, v13, v14⟩ := law.splitAt (lc - 1) v11 (by omega)
    simp only [e6, ok_bind, law.check v12, e7, law.check v14, law.check v13]
    refine (partLoop_any law over _ hR3 (p := ⟨le, eq, gr, 0, 0, 0⟩)
      ⟨v13, v14, v12, Nat.le_add_right _ _, by show _ + 0 ≤ hi; omega,
        by show lo + 1 + (lc - 1) + 0 < _; omega⟩).bind ?_
    rintro ⟨s4, p4⟩ ⟨L4, hR4, hp4, w4⟩
    simp only at hR4 hp4 w4
    refine (ih hR4 hp4.vl).bind ?_
    rintro ⟨s5, rng5⟩ ⟨L5, hR5, w5⟩
    simp only at hR5 w5
    simp only
    have w : Within lo hi L L5 := w1.trans (w2.trans (w3.trans ((w4.mono (by omega) (by omega)).trans
        (w5.mono (by omega) (by omega)))))
    split
    · exact (ih hR5 hp4.vg).mono fun r ⟨L6, hR6, w6⟩ => ⟨L6, hR6, w.trans (w6.mono (by omega) (by omega))⟩
    · exact ⟨L5, hR5, w⟩

end SortFocus

open RVec

theorem Views.index_out {cs : List Cell} {f : FMut Cell} {a b : Nat} (h : Views cs f a b) {i : Nat} (hi : b ≤ a + i) :
    f.index i = .error .panic := by
  have hl : (slice cs a b).length ≤ i := by rw [slice_len _ h.le']; omega
  rcases FMut.get_out h.ok hl with ⟨f', e, -⟩
  rw [FMut.index, e]; rfl

theorem single_over (cmp : α → α → Ordering) (cs : List Cell) {s : RVec α} {f g : FMut Cell} {a b c d i j : Nat}
    (h1 : Views cs f a b) (h2 : Views cs g c d) (hi : a + i < b) (hj : d ≤ c + j) :
    (SortFocus.single cmp).compare s f i g j = .error .panic := by
  obtain ⟨p, f', e1, -, -⟩ := h1.index hi
  simp only [SortFocus.single, e1, ok_bind, h2.index_out hj]
  rfl

theorem dual_over (cmp : α → α → Ordering) (cv cw : List Cell) (n : Nat) {s : RVec α × RVec β} {f g : FMut Cell × FMut Cell}
    {a b c d i j : Nat} (h1 : PairViews cv cw n f a b) (h2 : PairViews cv cw n g c d) (hi : a + i < b) (hj : d ≤ c + j) :
    (SortFocus.dual cmp).compare s f i g j = .error .panic := by
  obtain ⟨p, f', e1, -, -⟩ := h1.fst.index hi
  simp only [SortFocus.dual, e1, ok_bind, h2.fst.index_out hj]
  rfl

theorem sortRangeBy_any {v : RVec α} {l : List α} (b : Built v) (h : Shows v l) (cmp : α → α → Ordering)
    {sb eb : Bound} {lo hi : Nat} (hs : rangeStart sb = .ok lo) (he : rangeEnd v.len eb = .ok hi)
    (h1 : lo ≤ hi) (h2 : hi ≤ l.length) (next : ρ → Nat × ρ) (rng : ρ) :
    Fine (fun v' => ∃ l', Built v' ∧ Shows v' l' ∧ Within lo hi l l') (v.sortRangeBy cmp sb eb next rng) := by
  obtain ⟨f, e, w⟩ := window_ok b h h1 h2
  rw [sortRangeBy, hs, he]
  simp only [ok_bind, e]
  refine (SortFocus.sort_any (single_lawful cmp v.cells.toList) (fun _ a b c d => single_over cmp _ a b c d) next (f.len + 1)
    (rng := rng) (⟨b, h, rfl⟩ : Holds v.cells.toList v l) w).bind ?_
  rintro ⟨v', rng'⟩ ⟨l', hR, hw⟩
  exact ⟨l', hR.built, hR.shows', hw⟩

theorem dualSortRangeBy_any {v : RVec α} {w : RVec β} {l : List α} {m : List β} (b : Built v) (h : Shows v l)
    (b' : Built w) (h' : Shows w m) (cmp : α → α → Ordering)
    {sb eb : Bound} {lo hi : Nat} (hs : rangeStart sb = .ok lo) (he : rangeEnd v.len eb = .ok hi)
    (h1 : lo ≤ hi) (h2 : hi ≤ l.length) (h3 : hi ≤ m.length) (next : ρ → Nat × ρ) (rng : ρ) :
    Fine (fun r => ∃ L : List (α × β), Built r.1 ∧ Built r.2 ∧ Shows r.1 (L.map Prod.fst ++ l.drop hi) ∧
      Shows r.2 (L.map Prod.snd ++ m.drop hi) ∧ Within lo hi ((l.take hi).zip (m.take hi)) L)
      (v.dualSortRangeBy w cmp sb eb next rng) := by
  obtain ⟨f, e, vw⟩ := window_ok b h h1 h2
  obtain ⟨g, e', vw'⟩ := window_ok b' h' h1 h3
  have z : PairHolds v.cells.toList w.cells.toList hi (l.drop hi) (m.drop hi) (v, w) ((l.take hi).zip (m.take hi)) := by
    refine ⟨⟨b, ?_, rfl⟩, ⟨b', ?_, rfl⟩, by simp; omega⟩
    · rw [List.map_fst_zip (by simp; omega), List.take_append_drop]; exact h
    · rw [List.map_snd_zip (by simp; omega), List.take_append_drop]; exact h'
  rw [dualSortRangeBy, hs, he]
  simp only [ok_bind, e, e']
  refine (SortFocus.sort_any (dual_lawful cmp v.cells.toList w.cells.toList hi (l.drop hi) (m.drop hi))
    (fun _ a b c d => dual_over cmp _ _ _ a b c d) next (f.len + 1)
    (rng := rng) z (⟨vw, vw', Nat.le_refl _⟩ : PairViews _ _ hi (f, g) lo hi)).bind ?_
  rintro ⟨⟨v', w'⟩, rng'⟩ ⟨L, hR, hw⟩
  exact ⟨L, hR.fst.built, hR.snd.built, hR.fst.shows', hR.snd.shows', hw⟩

end Librrb
