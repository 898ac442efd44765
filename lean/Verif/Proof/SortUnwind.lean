import Mathlib.Tactic.Linarith
import Mathlib.Tactic.Ring
import Verif.Proof.SortAny
import Verif.Model.SortUnwind

/-! # What a sort leaves behind when it does not return -/
namespace Librrb

/-- The computation returns a value and a state for which `P` holds, or it panics or does not end, and leaves a
state for which `Q` holds. -/
def Leaves (P : τ → σ → Prop) (Q : σ → Prop) (m : U σ τ) (s : σ) : Prop :=
  match (show M τ × σ from m s) with
  | (.ok x, s') => P x s'
  | (.error e, s') => (e = .panic ∨ e = .diverge) ∧ Q s'

theorem Leaves.pure {P : τ → σ → Prop} {Q : σ → Prop} {x : τ} {s : σ} (h : P x s) : Leaves P Q (pure x) s := h

theorem Leaves.diverge {P : τ → σ → Prop} {Q : σ → Prop} {s : σ} (h : Q s) : Leaves P Q (throw .diverge) s :=
  ⟨.inr rfl, h⟩

/-- What binding does. -/
theorem U.bind_apply (m : U σ τ) (f : τ → U σ υ) (s : σ) : (show M υ × σ from (m >>= f) s) =
    (match (show M τ × σ from m s) with
    | (.ok x, s') => (show M υ × σ from f x s')
    | (.error e, s') => (.error e, s')) := by
  simp only [bind, ExceptT.bind, ExceptT.mk, StateT.bind]
  generalize m s = r
  rcases r with ⟨_ | x, s'⟩ <;> rfl

theorem Leaves.bind {P : τ → σ → Prop} {P' : υ → σ → Prop} {Q : σ → Prop} {m : U σ τ} {f : τ → U σ υ} {s : σ}
    (h : Leaves P Q m s) (hf : ∀ x s', P x s' → Leaves P' Q (f x) s') : Leaves P' Q (m >>= f) s := by
  unfold Leaves at h ⊢
  rw [U.bind_apply]
  rcases h' : (show M τ × σ from m s) with ⟨_ | x, s'⟩
  · rw [h'] at h; exact h
  · rw [h'] at h; exact hf x s' h

theorem Leaves.mono {P P' : τ → σ → Prop} {Q : σ → Prop} {m : U σ τ} {s : σ} (h : Leaves P Q m s)
    (hf : ∀ x s', P x s' → P' x s') : Leaves P' Q m s := by
  unfold Leaves at h ⊢
  rcases h' : (show M τ × σ from m s) with ⟨_ | x, s'⟩
  · rw [h'] at h; exact h
  · rw [h'] at h; exact hf x s' h

/-- A step that does not touch the state and returns. -/
theorem Leaves.lift {P : υ → σ → Prop} {Q : σ → Prop} {m : M τ} {x : τ} {f : τ → U σ υ} {s : σ} (e : m = .ok x)
    (h : Leaves P Q (f x) s) : Leaves P Q ((liftM m : U σ τ) >>= f) s := by
  subst e; exact h

/-- A step that does not touch the state and fails. -/
theorem Leaves.fail {P : υ → σ → Prop} {Q : σ → Prop} {m : M τ} {f : τ → U σ υ} {s : σ} (e : m = .error .panic)
    (h : Q s) : Leaves P Q ((liftM m : U σ τ) >>= f) s := by
  subst e; exact ⟨.inl rfl, h⟩

theorem Leaves.assert {P : υ → σ → Prop} {Q : σ → Prop} {c : Bool} {f : Unit → U σ υ} {s : σ} (hq : Q s)
    (h : Leaves P Q (f ()) s) : Leaves P Q ((liftM (massert c) : U σ Unit) >>= f) s := by
  cases c
  · exact Leaves.fail rfl hq
  · exact Leaves.lift rfl h

theorem Leaves.both {Q : σ → Prop} {m : U σ Unit} {s : σ} (h : Leaves (fun _ => Q) Q m s) {r : M Unit × σ} (e : m s = r) :
    (r.1 = .ok () ∨ r.1 = .error .panic ∨ r.1 = .error .diverge) ∧ Q r.2 := by
  unfold Leaves at h
  rw [e] at h
  rcases r with ⟨_ | _, s'⟩
  · obtain ⟨rfl | rfl, k⟩ := h
    · exact ⟨.inr (.inl rfl), k⟩
    · exact ⟨.inr (.inr rfl), k⟩
  · exact ⟨.inl rfl, h⟩

namespace USortFocus

/-- The operations keep `I n`, where `n` bounds how often the comparator was asked, which swaps inside of `lo..hi` do not
break, and stay inside of `lo..hi`. -/
structure Steady (o : USortFocus σ φ) (I : Nat → σ → Prop) (V : φ → Nat → Nat → Prop) : Prop where
  more {s n m} : I n s → n ≤ m → I m s
  bound {f a b} : V f a b → a ≤ b
  len {f a b} : V f a b → o.len f = b - a
  check {f a b} : V f a b → o.check f = .ok ()
  splitAt {f a b} (k : Nat) : V f a b → a + k ≤ b → ∃ f1 f2, o.splitAt f k = .ok (f1, f2) ∧ V f1 a (a + k) ∧ V f2 (a + k) b
  compare {s f g a b c d i n N} (j : Nat) : I n s → n + 1 ≤ N → V f a b → V g c d → a + i < b →
    Leaves (fun r s' => I (n + 1) s' ∧ V r.2.1 a b ∧ V r.2.2 c d ∧ c + j < d) (I N) (o.compare f i g j) s
  swap {s f g a b c d i j n N} : I n s → n ≤ N → V f a b → V g c d → a + i < b → c + j < d →
    Leaves (fun r s' => I n s' ∧ V r.1 a b ∧ V r.2 c d) (I N) (o.swap f i g j) s

variable {o : USortFocus σ φ} {I : Nat → σ → Prop} {V : φ → Nat → Nat → Prop}

theorem countLoop_leaves (st : Steady o I V) {a b N : Nat} :
    ∀ (k index less equal : Nat) {n : Nat} {s : σ} {first rest : φ}, I n s → n + k ≤ N → V first a (a + 1) → V rest (a + 1) b →
    index + k = b - (a + 1) →
    Leaves (fun r s' => I (n + k) s' ∧ V r.2.2.1 a (a + 1) ∧ V r.2.2.2 (a + 1) b ∧ r.1 + r.2.1 ≤ less + equal + k) (I N)
      (countLoop o k index first rest less equal) s := by
  intro k
  induction k with
  | zero => intro index less equal n s first rest hI hn h1 h2 hk; exact .pure ⟨hI, h1, h2, Nat.le_refl _⟩
  | succ k ih =>
    intro index less equal n s first rest hI hn h1 h2 hk
    rw [countLoop]
    refine (st.compare 0 hI (by omega) h2 h1 (by omega)).bind ?_
    rintro ⟨c, f, g⟩ s' ⟨hI, v1, v2, -⟩
    cases c
    all_goals exact (ih _ _ _ hI (by omega) v2 v1 (by omega)).mono fun r s ⟨p1, p2, p3, p4⟩ =>
      ⟨st.more p1 (by omega), p2, p3, by omega⟩

theorem minLoop_leaves (st : Steady o I V) {a b lessCount N : Nat} :
    ∀ (k index : Nat) {n : Nat} {s : σ} {first rest : φ}, I n s → n + k ≤ N → V first a (a + 1) → V rest (a + 1) b →
    index + k = b - (a + 1) →
    Leaves (fun r s' => I (n + k) s' ∧ V r.1 a (a + 1) ∧ V r.2 (a + 1) b) (I N) (minLoop o lessCount k index first rest) s := by
  intro k
  induction k with
  | zero => intro index n s first rest hI hn h1 h2 hk; exact .pure ⟨hI, h1, h2⟩
  | succ k ih =>
    intro index n s first rest hI hn h1 h2 hk
    rw [minLoop]
    split
    · exact (ih _ hI (by omega) h1 h2 (by omega)).mono fun r s ⟨p1, p2, p3⟩ => ⟨st.more p1 (by omega), p2, p3⟩
    · refine (st.compare 0 hI (by omega) h2 h1 (by omega)).bind ?_
      rintro ⟨c, f, g⟩ s' ⟨hI, v1, v2, -⟩
      simp only at v1 v2 ⊢
      split
      · refine (st.swap hI (by omega) v2 v1 (by omega) (by omega)).bind ?_
        rintro ⟨f', g'⟩ s'' ⟨hI, v3, v4⟩
        exact (ih _ hI (by omega) v3 v4 (by omega)).mono fun r s ⟨p1, p2, p3⟩ => ⟨st.more p1 (by omega), p2, p3⟩
      · exact (ih _ hI (by omega) v2 v1 (by omega)).mono fun r s ⟨p1, p2, p3⟩ => ⟨st.more p1 (by omega), p2, p3⟩

open SortFocus (PAny)

theorem advanceLess_leaves (st : Steady o I V) {la lb lc ld N : Nat} :
    ∀ (fuel : Nat) {n : Nat} {s : σ} {p : SortFocus.Parts φ}, I n s → n + (lb - la - p.lp) + 1 ≤ N → PAny V la lb lc ld p →
    Leaves (fun r s' => I (n + (r.2.lp - p.lp) + 1) s' ∧ PAny V la lb lc ld r.2 ∧ (r.1 = true → la + r.2.lp < lb) ∧
      p.lp ≤ r.2.lp ∧ r.2.gp = p.gp ∧ r.2.ep = p.ep) (I N) (advanceLess o fuel p) s := by
  intro fuel
  induction fuel with
  | zero => intro n s p hI hn _; exact .diverge (st.more hI (by omega))
  | succ fuel ih =>
    intro n s p hI hn hp
    have b1 := st.bound hp.vl
    have hlp := hp.lp
    rw [advanceLess, st.len hp.vl]
    by_cases hc : p.lp = lb - la
    · rw [if_neg (by simpa using hc)]
      exact .pure ⟨st.more hI (by omega), hp, by simp, Nat.le_refl _, rfl, rfl⟩
    · rw [if_pos (by simpa using hc)]
      refine (st.compare p.ep hI (by omega) hp.vl hp.ve (i := p.lp) (by omega)).bind ?_
      rintro ⟨c, f, g⟩ s' ⟨hI, h3, h4, -⟩
      cases c with
      | eq => exact .pure ⟨st.more hI (by omega), ⟨h3, h4, hp.vg, hp.lp, hp.gp, hp.ep⟩, fun _ => by show la + p.lp < lb; omega,
          Nat.le_refl _, rfl, rfl⟩
      | gt => exact .pure ⟨st.more hI (by omega), ⟨h3, h4, hp.vg, hp.lp, hp.gp, hp.ep⟩, by simp, Nat.le_refl _, rfl, rfl⟩
      | lt =>
        refine (ih (p := { p with less := f, equal := g, lp := p.lp + 1 }) hI (by simp only; omega)
          ⟨h3, h4, hp.vg, by show la + (p.lp + 1) ≤ lb; omega, hp.gp, hp.ep⟩).mono ?_
        rintro r s ⟨p1, p2, p3, p4, p5, p6⟩
        simp only at p1 p4
        exact ⟨st.more p1 (by omega), p2, p3, by omega, p5, p6⟩

theorem advanceGreater_leaves (st : Steady o I V) {la lb lc ld N : Nat} :
    ∀ (fuel : Nat) {n : Nat} {s : σ} {p : SortFocus.Parts φ}, I n s → n + (ld - lc - p.gp) + 1 ≤ N → PAny V la lb lc ld p →
    Leaves (fun r s' => I (n + (r.2.gp - p.gp) + 1) s' ∧ PAny V la lb lc ld r.2 ∧ r.2.lp = p.lp ∧ (r.1 = true → lc + r.2.gp < ld) ∧
      p.gp ≤ r.2.gp ∧ r.2.ep = p.ep) (I N) (advanceGreater o fuel p) s := by
  intro fuel
  induction fuel with
  | zero => intro n s p hI hn _; exact .diverge (st.more hI (by omega))
  | succ fuel ih =>
    intro n s p hI hn hp
    have b1 := st.bound hp.vg
    have hgp := hp.gp
    rw [advanceGreater, st.len hp.vg]
    by_cases hc : p.gp = ld - lc
    · rw [if_neg (by simpa using hc)]
      exact .pure ⟨st.more hI (by omega), hp, rfl, by simp, Nat.le_refl _, rfl⟩
    · rw [if_pos (by simpa using hc)]
      refine (st.compare p.ep hI (by omega) hp.vg hp.ve (i := p.gp) (by omega)).bind ?_
      rintro ⟨c, f, g⟩ s' ⟨hI, h3, h4, -⟩
      cases c with
      | eq => exact .pure ⟨st.more hI (by omega), ⟨hp.vl, h4, h3, hp.lp, hp.gp, hp.ep⟩, rfl, fun _ => by show lc + p.gp < ld; omega,
          Nat.le_refl _, rfl⟩
      | lt => exact .pure ⟨st.more hI (by omega), ⟨hp.vl, h4, h3, hp.lp, hp.gp, hp.ep⟩, rfl, by simp, Nat.le_refl _, rfl⟩
      | gt =>
        refine (ih (p := { p with greater := f, equal := g, gp := p.gp + 1 }) hI (by simp only; omega)
          ⟨hp.vl, h4, h3, hp.lp, by show lc + (p.gp + 1) ≤ ld; omega, hp.ep⟩).mono ?_
        rintro r s ⟨p1, p2, p3, p4, p5, p6⟩
        simp only at p1 p5
        exact ⟨st.more p1 (by omega), p2, p3, p4, by omega, p6⟩

theorem advanceEqual_leaves (st : Steady o I V) {u v i lb lc N : Nat} (hi : u + i < v) :
    ∀ (fuel : Nat) {n : Nat} {s : σ} {side equal : φ} {ep : Nat}, I n s → n + (lc - lb - ep) + 1 ≤ N → V side u v → V equal lb lc →
    Leaves (fun r s' => I (n + (r.1 - ep) + 1) s' ∧ V r.2.1 u v ∧ V r.2.2 lb lc ∧ lb + r.1 < lc ∧ ep ≤ r.1) (I N)
      (advanceEqual o i fuel side equal ep) s := by
  intro fuel
  induction fuel with
  | zero => intro n s side equal ep hI hn _ _; exact .diverge (st.more hI (by omega))
  | succ fuel ih =>
    intro n s side equal ep hI hn h1 h2
    rw [advanceEqual]
    refine (st.compare ep hI (by omega) h1 h2 hi).bind ?_
    rintro ⟨c, f, g⟩ s' ⟨hI, h3, h4, hlt⟩
    simp only at h3 h4 ⊢
    split
    · refine (ih hI (by omega) h3 h4).mono ?_
      rintro r s ⟨p1, p2, p3, p4, p5⟩
      exact ⟨st.more p1 (by omega), p2, p3, p4, by omega⟩
    · exact .pure ⟨st.more hI (by omega), h3, h4, hlt, Nat.le_refl _⟩

/-- How far the three positions of the partition have moved. -/
def moved (p : SortFocus.Parts φ) : Nat := p.lp + p.gp + p.ep

theorem partStep_leaves (st : Steady o I V) {la lb lc ld n N : Nat} {s : σ} {p : SortFocus.Parts φ} (hI : I n s)
    (hn : n + (ld - la - moved p) + 4 ≤ N) (hp : PAny V la lb lc ld p) :
    Leaves (fun r s' => I (n + (moved r - moved p) + 4) s' ∧ PAny V la lb lc ld r ∧ moved p ≤ moved r) (I N) (partStep o p) s := by
  have b1 := st.bound hp.vl
  have b2 := st.bound hp.ve
  have b3 := st.bound hp.vg
  have x1 := hp.lp
  have x2 := hp.gp
  have x3 := hp.ep
  unfold moved at hn ⊢
  rw [partStep]
  refine (advanceLess_leaves st _ hI (by omega) hp).bind ?_
  rintro ⟨qa, p1⟩ s1 ⟨hI, hp1, hqa, m1, m2, m3⟩
  simp only at hI hp1 hqa m1 m2 m3
  have y1 := hp1.lp
  refine (advanceGreater_leaves st _ hI (by omega) hp1).bind ?_
  rintro ⟨qb, p2⟩ s2 ⟨hI, hp2, hlp2, hqb, m4, m5⟩
  simp only at hI hp2 hlp2 hqb m4 m5
  simp only
  have hlp := hp2.lp
  have hgp := hp2.gp
  have hep := hp2.ep
  cases qb with
  | true =>
    simp only [if_true]
    have hlt' := hqb rfl
    refine (advanceEqual_leaves st hlt' _ hI (by omega) hp2.vg hp2.ve).bind ?_
    rintro ⟨ep', sd, eqf⟩ s3 ⟨hI, v1, v2, k2, k3⟩
    simp only at hI k2 k3
    refine (st.swap hI (by omega) v1 v2 hlt' k2).bind ?_
    rintro ⟨f, g⟩ s4 ⟨hI, v3, v4⟩
    exact .pure ⟨st.more hI (by simp only; omega), ⟨hp2.vl, v4, v3, hp2.lp, hp2.gp, k2⟩, by simp only; omega⟩
  | false =>
    simp only [Bool.false_eq_true, if_false]
    cases qa with
    | true =>
      simp only [if_true]
      have hlt' := hqa rfl
      rw [← hlp2] at hlt'
      refine (advanceEqual_leaves st hlt' _ hI (by omega) hp2.vl hp2.ve).bind ?_
      rintro ⟨ep', sd, eqf⟩ s3 ⟨hI, v1, v2, k2, k3⟩
      simp only at hI k2 k3
      refine (st.swap hI (by omega) v1 v2 hlt' k2).bind ?_
      rintro ⟨f, g⟩ s4 ⟨hI, v3, v4⟩
      exact .pure ⟨st.more hI (by simp only; omega), ⟨v3, v4, hp2.vg, hp2.lp, hp2.gp, k2⟩, by simp only; omega⟩
    | false =>
      simp only [Bool.false_eq_true, if_false]
      rw [st.len hp2.vl, st.len hp2.vg]
      split
      · have i5 : la + p2.lp < lb := by omega
        have j5 : lc + p2.gp < ld := by omega
        refine (st.compare p2.ep hI (by omega) hp2.vl hp2.ve i5).bind ?_
        rintro ⟨c, f1, g1⟩ s3 ⟨hI, v1, v2, -⟩
        refine .assert (st.more hI (by omega)) ?_
        refine (st.compare p2.ep hI (by omega) hp2.vg v2 j5).bind ?_
        rintro ⟨d, f2, g2⟩ s4 ⟨hI, v3, v4, -⟩
        refine .assert (st.more hI (by omega)) ?_
        refine (st.swap hI (by omega) v1 v3 i5 j5).bind ?_
        rintro ⟨f3, g3⟩ s5 ⟨hI, v5, v6⟩
        refine .pure ⟨st.more hI (by simp only; omega), ⟨v5, v4, v6, ?_, ?_, hep⟩, by simp only; omega⟩
        · show la + (p2.lp + 1) ≤ lb; omega
        · show lc + (p2.gp + 1) ≤ ld; omega
      · exact .pure ⟨st.more hI (by omega), hp2, by omega⟩

theorem PAny.moved_le {la lb lc ld : Nat} {p : SortFocus.Parts φ} (st : Steady o I V) (hp : PAny V la lb lc ld p) :
    moved p ≤ ld - la := by
  have b1 := st.bound hp.vl
  have b2 := st.bound hp.ve
  have b3 := st.bound hp.vg
  have x1 := hp.lp
  have x2 := hp.gp
  have x3 := hp.ep
  unfold moved
  omega

theorem partLoop_leaves (st : Steady o I V) {la lb lc ld N : Nat} :
    ∀ (fuel : Nat) {n : Nat} {s : σ} {p : SortFocus.Parts φ}, I n s → n + (ld - la - moved p) + 4 * fuel ≤ N → PAny V la lb lc ld p →
    Leaves (fun r s' => I (n + (ld - la - moved p) + 4 * fuel) s' ∧ PAny V la lb lc ld r) (I N) (partLoop o fuel p) s := by
  intro fuel
  induction fuel with
  | zero => intro n s p hI hn _; exact .diverge (st.more hI (by omega))
  | succ fuel ih =>
    intro n s p hI hn hp
    rw [partLoop]
    split
    · refine (partStep_leaves st hI (by omega) hp).bind ?_
      rintro p1 s1 ⟨hI, hp1, hm⟩
      have := PAny.moved_le st hp1
      refine (ih hI (by omega) hp1).mono ?_
      rintro r s ⟨q1, q2⟩
      exact ⟨st.more q1 (by omega), q2⟩
    · exact .pure ⟨st.more hI (by omega), hp⟩

/-- How many questions are enough for a range of `m` positions. -/
def questions (budget m : Nat) : Nat := 4 * (budget + 1) * m ^ 2

theorem questions_pred {budget m : Nat} : m + questions budget m ≤ questions budget (m + 1) := by
  unfold questions
  nlinarith [Nat.zero_le (budget * m), Nat.zero_le budget]

theorem questions_split {budget a b m : Nat} (h : a + b + 2 ≤ m) :
    7 * m + 1 + 4 * budget + (questions budget a + questions budget b) ≤ questions budget m := by
  unfold questions
  have h1 : a ^ 2 + b ^ 2 + 4 * m ≤ m ^ 2 + 4 := by
    obtain ⟨k, rfl⟩ := Nat.exists_eq_add_of_le h
    nlinarith [Nat.zero_le (a * b), Nat.zero_le (a * k), Nat.zero_le (b * k), Nat.zero_le (k * k)]
  have h2 : 4 * (budget + 1) * (a ^ 2 + b ^ 2 + 4 * m) ≤ 4 * (budget + 1) * (m ^ 2 + 4) := Nat.mul_le_mul_left _ h1
  have h3 : budget * 2 ≤ budget * m := Nat.mul_le_mul_left _ (by omega)
  nlinarith

theorem sort_leaves (st : Steady o I V) (next : ρ → Nat × ρ) (budget : Nat) {N : Nat} :
    ∀ (fuel : Nat) {n : Nat} {s : σ} {rng : ρ} {f : φ} {lo hi : Nat}, I n s → n + questions budget (hi - lo) ≤ N → V f lo hi →
    Leaves (fun _ s' => I (n + questions budget (hi - lo)) s') (I N) (o.sort next budget fuel rng f) s := by
  intro fuel
  induction fuel with
  | zero => intro n s rng f lo hi hI hn _; exact .diverge (st.more hI (by omega))
  | succ fuel ih =>
    intro n s rng f lo hi hI hn hV
    rw [sort, st.len hV]
    by_cases hlen : hi - lo ≤ 1
    · rw [if_pos hlen]
      exact .pure (st.more hI (by omega))
    rw [if_neg hlen]
    obtain ⟨first, rest, e1, v1, v2⟩ := st.splitAt 1 hV (by omega)
    refine .lift e1 (.lift (st.check v1) (.lift (st.check v2) ?_))
    have hpiv : (next rng).1 % (hi - lo) < hi - lo := Nat.mod_lt _ (by omega)
    have hq0 := questions_pred (budget := budget) (m := hi - (lo + 1))
    rw [show hi - (lo + 1) + 1 = hi - lo by omega] at hq0
    have hq00 := questions_split (budget := budget) (a := 0) (b := 0) (m := hi - lo) (by omega)
    simp only
    generalize (next rng).1 % (hi - lo) = pivot at hpiv
    refine Leaves.bind (P := fun r s' => I n s' ∧ V r.1 (lo + 1) hi ∧ V r.2 lo (lo + 1)) ?_ ?_
    · split
      · exact st.swap hI (by omega) v2 v1 (by omega) (by omega)
      · exact .pure ⟨hI, v2, v1⟩
    rintro ⟨r1, f1⟩ s1 ⟨hI, v3, v4⟩
    simp only at v3 v4 ⊢
    rw [st.len v3]
    refine (countLoop_leaves st _ _ _ _ hI (by omega) v4 v3 (by omega)).bind ?_
    rintro ⟨lc, ec, f2, r2⟩ s2 ⟨hI, v5, v6, hcnt⟩
    simp only at v5 v6 hcnt ⊢
    by_cases hc0 : lc = 0
    · rw [if_pos (by simpa using hc0)]
      exact (ih hI (by omega) v6).mono fun _ s h => st.more h (by omega)
    rw [if_neg (by simpa using hc0)]
    have hq := questions_split (budget := budget) (a := lc - 1) (b := hi - (lo + 1 + (lc - 1 + (ec + 1)))) (m := hi - lo) (by omega)
    refine .lift (usub_ok (by omega)) ?_
    refine (st.swap hI (by omega) v5 v6 (by omega) (by omega)).bind ?_
    rintro ⟨f3, r3⟩ s3 ⟨hI, v7, v8⟩
    simp only at v7 v8 ⊢
    rw [st.len v8]
    refine (minLoop_leaves st _ _ hI (by omega) v7 v8 (by omega)).bind ?_
    rintro ⟨f4, r4⟩ s4 ⟨hI, v9, v10⟩
    simp only at v9 v10 ⊢
    obtain ⟨g1, gr, e6, v11, v12⟩ := st.splitAt (lc - 1 + (ec + 1)) v10 (by omega)
    obtain ⟨le, eq, e7, v13, v14⟩ := st.splitAt (lc - 1) v11 (by omega)
    refine .lift e6 (.lift (st.check v12) (.lift e7 (.lift (st.check v14) (.lift (st.check v13) ?_))))
    simp only
    rw [st.len v13, st.len v14, st.len v12]
    have hfuel : lo + 1 + (lc - 1) - (lo + 1) + (lo + 1 + (lc - 1 + (ec + 1)) - (lo + 1 + (lc - 1))) +
      (hi - (lo + 1 + (lc - 1 + (ec + 1)))) + 2 + budget = hi - lo + 1 + budget := by omega
    rw [hfuel]
    refine (partLoop_leaves st _ hI (p := ⟨le, eq, gr, 0, 0, 0⟩) (by simp only [moved]; omega)
      ⟨v13, v14, v12, Nat.le_add_right _ _, by show _ + 0 ≤ hi; omega,
        by show lo + 1 + (lc - 1) + 0 < _; omega⟩).bind ?_
    rintro p5 s5 ⟨hI, hp5⟩
    simp only [moved] at hI
    have hl : lo + 1 + (lc - 1) - (lo + 1) = lc - 1 := by omega
    refine (ih hI (by rw [hl]; omega) hp5.vl).bind ?_
    intro rng6 s6 hI
    rw [hl] at hI
    split
    · exact (ih hI (by omega) hp5.vg).mono fun _ s h => st.more h (by omega)
    · exact .pure (st.more hI (by omega))

end USortFocus

open RVec

theorem Callback.ask_leaves {P : υ → σ × γ → Prop} {Q : σ × γ → Prop} (cmp : Callback γ α) (x y : α)
    {f : Ordering → U (σ × γ) υ} {s : σ × γ} (hq : Q (s.1, (cmp s.2 x y).2))
    (h : ∀ c, Leaves P Q (f c) (s.1, (cmp s.2 x y).2)) : Leaves P Q (cmp.ask x y >>= f) s := by
  refine Leaves.bind (P := fun _ s' => s' = (s.1, (cmp s.2 x y).2)) ?_ ?_
  · unfold Leaves Callback.ask
    revert hq
    rcases cmp s.2 x y with ⟨_ | c, g⟩
    · exact fun hq => ⟨.inl rfl, hq⟩
    · exact fun _ => rfl
  · rintro c _ rfl
    exact h c

/-- The state of a comparator that started from `state` and was asked about the pairs `asked`, one after the other. -/
def Callback.after (cmp : Callback γ α) (state : γ) (asked : List (α × α)) : γ :=
  asked.foldl (fun g p => (cmp g p.1 p.2).2) state

/-- The state of the comparator after at most `n` questions, all about items in `S`. -/
def Callback.Asked (cmp : Callback γ α) (state : γ) (S : List α) (n : Nat) (g : γ) : Prop :=
  ∃ asked, g = cmp.after state asked ∧ asked.length ≤ n ∧ ∀ p ∈ asked, p.1 ∈ S ∧ p.2 ∈ S

theorem Callback.Asked.nil {cmp : Callback γ α} {state : γ} {S : List α} : cmp.Asked state S 0 state :=
  ⟨[], rfl, Nat.le_refl _, fun _ h => nomatch h⟩

theorem Callback.Asked.more {cmp : Callback γ α} {state g : γ} {S : List α} {n m : Nat} (h : cmp.Asked state S n g)
    (hm : n ≤ m) : cmp.Asked state S m g := by
  obtain ⟨xs, h1, h2, h3⟩ := h
  exact ⟨xs, h1, by omega, h3⟩

theorem Callback.Asked.ask {cmp : Callback γ α} {state g : γ} {S : List α} {n : Nat} (h : cmp.Asked state S n g) {x y : α}
    (hx : x ∈ S) (hy : y ∈ S) : cmp.Asked state S (n + 1) (cmp g x y).2 := by
  obtain ⟨xs, rfl, h2, h3⟩ := h
  refine ⟨xs ++ [(x, y)], by simp [Callback.after], by simpa using h2, ?_⟩
  intro p hp
  rcases List.mem_append.1 hp with hp | hp
  · exact h3 p hp
  · rw [List.mem_singleton] at hp
    subst hp
    exact ⟨hx, hy⟩

theorem Within.getElem_mem {l L : List α} {lo hi i : Nat} (w : Within lo hi l L) (h1 : lo ≤ i) (h2 : i < hi) (h : hi ≤ l.length)
    (hi' : i < L.length) : L[i] ∈ slice l lo hi := by
  rw [← (w.slice_perm (by omega) h).mem_iff, slice, List.mem_iff_getElem]
  exact ⟨i - lo, by simp; omega, by simp [show lo + (i - lo) = i by omega]⟩

/-- What `sort_range_by` keeps. -/
def KeepsWithin (cmp : Callback γ α) (state : γ) (cs : List Cell) (lo hi : Nat) (l : List α) (n : Nat) (s : RVec α × γ) : Prop :=
  ∃ L, Holds cs s.1 L ∧ Within lo hi l L ∧ cmp.Asked state (slice l lo hi) n s.2

/-- The focus is over the positions `a..b` of the places `cs`, inside of `lo..hi`. -/
def ViewsIn (cs : List Cell) (lo hi : Nat) (f : FMut Cell) (a b : Nat) : Prop :=
  Views cs f a b ∧ lo ≤ a ∧ b ≤ hi ∧ hi ≤ cs.length

theorem single_steady (cmp : Callback γ α) (state : γ) (cs : List Cell) (lo hi : Nat) (l : List α) :
    (USortFocus.single cmp).Steady (KeepsWithin cmp state cs lo hi l) (ViewsIn cs lo hi) where
  more h hm := by
    obtain ⟨L, h1, h2, h3⟩ := h
    exact ⟨L, h1, h2, h3.more hm⟩
  bound h := h.1.le
  len h := h.1.len
  check _ := rfl
  splitAt k h hk := by
    obtain ⟨f1, f2, e, v1, v2⟩ := h.1.splitAt hk
    exact ⟨f1, f2, e, ⟨v1, h.2.1, by have := h.2.2; omega, h.2.2.2⟩, ⟨v2, by have := h.2.1; omega, h.2.2⟩⟩
  compare := by
    intro s f g a b c d i n N j hI hN h1 h2 hi'
    obtain ⟨p, f', e1, hc, v1⟩ := h1.1.index hi'
    refine .lift e1 ?_
    by_cases hj : c + j < d
    · obtain ⟨q, g', e2, hd, v2⟩ := h2.1.index hj
      refine .lift e2 ?_
      obtain ⟨L, hR, w, q⟩ := hI
      have hx : L[a + i]? = some (L[a + i]'(by rw [hR.length]; have := h1.1.le'; omega)) := List.getElem?_eq_getElem _
      have hy : L[c + j]? = some (L[c + j]'(by rw [hR.length]; have := h2.1.le'; omega)) := List.getElem?_eq_getElem _
      refine Leaves.bind (P := fun x s' => x = s ∧ s' = s) ⟨rfl, rfl⟩ ?_
      rintro _ _ ⟨rfl, rfl⟩
      refine .lift (hR.read hc hx) (.lift (hR.read hd hy) ?_)
      have l0 := hR.length
      have l3 := w.length
      have a1 := h1.2
      have a2 := h2.2
      have q' := q.ask (x := L[a + i]'(by omega)) (y := L[c + j]'(by omega))
        (w.getElem_mem (by omega) (by omega) (by omega) _) (w.getElem_mem (by omega) (by omega) (by omega) _)
      refine Callback.ask_leaves cmp _ _ ⟨L, hR, w, q'.more hN⟩ fun c => ?_
      exact .pure ⟨⟨L, hR, w, q'⟩, ⟨v1, h1.2⟩, ⟨v2, h2.2⟩, hj⟩
    · obtain ⟨L, hR, w, q⟩ := hI
      exact .fail (h2.1.index_out (by omega)) ⟨L, hR, w, q.more (by omega)⟩
  swap := by
    intro s f g a b c d i j n N hI hN h1 h2 hi' hj
    obtain ⟨p, f', e1, hc, v1⟩ := h1.1.index hi'
    obtain ⟨q, g', e2, hd, v2⟩ := h2.1.index hj
    obtain ⟨L, hR, w, q⟩ := hI
    obtain ⟨s', e, hR'⟩ := hR.swap hc hd
    refine .lift e1 (.lift e2 ?_)
    refine Leaves.bind (P := fun x s' => x = s ∧ s' = s) ⟨rfl, rfl⟩ ?_
    rintro x t ⟨hx, ht⟩
    subst x t
    refine .lift e ?_
    refine Leaves.bind (P := fun _ (t : RVec α × γ) => t = (s', s.2)) (show (s', s.2) = (s', s.2) from rfl) ?_
    rintro _ _ rfl
    have l0 := hR.length
    have l1 := h1.1.le'
    have l2 := h2.1.le'
    have a1 := h1.2
    have a2 := h2.2
    exact .pure ⟨⟨_, hR', w.trans (Within.swap (by omega) (by omega) (by omega) (by omega) (by omega)), q⟩,
      ⟨v1, h1.2⟩, ⟨v2, h2.2⟩⟩

/-- What `dual_sort_range_by` keeps. -/
def PairKeepsWithin (cmp : Callback γ α) (state : γ) (cv cw : List Cell) (n lo hi : Nat) (rv : List α) (rw : List β) (l : List (α × β))
    (k : Nat) (s : (RVec α × RVec β) × γ) : Prop :=
  ∃ L, PairHolds cv cw n rv rw s.1 L ∧ Within lo hi l L ∧ cmp.Asked state ((slice l lo hi).map Prod.fst) k s.2

/-- The two foci are over the same positions inside of `lo..hi`. -/
def PairViewsIn (cv cw : List Cell) (n lo hi : Nat) (f : FMut Cell × FMut Cell) (a b : Nat) : Prop :=
  PairViews cv cw n f a b ∧ lo ≤ a ∧ b ≤ hi ∧ hi ≤ n

theorem dual_steady (cmp : Callback γ α) (state : γ) (cv cw : List Cell) (n lo hi : Nat) (rv : List α) (rw' : List β)
    (l : List (α × β)) :
    (USortFocus.dual cmp).Steady (PairKeepsWithin cmp state cv cw n lo hi rv rw' l) (PairViewsIn cv cw n lo hi) where
  more h hm := by
    obtain ⟨L, h1, h2, h3⟩ := h
    exact ⟨L, h1, h2, h3.more hm⟩
  bound h := h.1.fst.le
  len h := h.1.fst.len
  check h := massert_ok (by rw [h.1.fst.len, h.1.snd.len]; simp)
  splitAt := by
    intro f a b k h hk
    obtain ⟨f1, f2, e1, v1, v2⟩ := h.1.fst.splitAt hk
    obtain ⟨g1, g2, e2, w1, w2⟩ := h.1.snd.splitAt hk
    have := h.1.le
    have := h.2
    refine ⟨(f1, g1), (f2, g2), ?_, ⟨⟨v1, w1, by omega⟩, by omega, by omega, by omega⟩,
      ⟨⟨v2, w2, h.1.le⟩, by omega, by omega, by omega⟩⟩
    simp only [USortFocus.dual, e1, e2, ok_bind]
  compare := by
    intro s f g a b c d i k N j hI hN h1 h2 hi'
    obtain ⟨p, f', e1, hc, v1⟩ := h1.1.fst.index hi'
    refine .lift e1 ?_
    by_cases hj : c + j < d
    · obtain ⟨q, g', e2, hd, v2⟩ := h2.1.fst.index hj
      refine .lift e2 ?_
      obtain ⟨L, hR, w, q'⟩ := hI
      have l0 := hR.length
      have l1 := h1.1.le
      have l2 := h2.1.le
      have l3 := w.length
      have a1 := h1.2
      have a2 := h2.2
      have hx : (L.map Prod.fst ++ rv)[a + i]? = some (L[a + i]'(by omega)).1 := by
        rw [List.getElem?_append_left (by simp; omega), List.getElem?_map, List.getElem?_eq_getElem (by omega)]; rfl
      have hy : (L.map Prod.fst ++ rv)[c + j]? = some (L[c + j]'(by omega)).1 := by
        rw [List.getElem?_append_left (by simp; omega), List.getElem?_map, List.getElem?_eq_getElem (by omega)]; rfl
      refine Leaves.bind (P := fun x s' => x = s ∧ s' = s) ⟨rfl, rfl⟩ ?_
      rintro _ _ ⟨rfl, rfl⟩
      refine .lift (hR.fst.read hc hx) (.lift (hR.fst.read hd hy) ?_)
      have q2 := q'.ask (x := (L[a + i]'(by omega)).1) (y := (L[c + j]'(by omega)).1)
        (List.mem_map_of_mem (w.getElem_mem (by omega) (by omega) (by omega) _))
        (List.mem_map_of_mem (w.getElem_mem (by omega) (by omega) (by omega) _))
      refine Callback.ask_leaves cmp _ _ ⟨L, hR, w, q2.more hN⟩ fun c => ?_
      exact .pure ⟨⟨L, hR, w, q2⟩, ⟨⟨v1, h1.1.snd, h1.1.le⟩, h1.2⟩, ⟨⟨v2, h2.1.snd, h2.1.le⟩, h2.2⟩, hj⟩
    · obtain ⟨L, hR, w, q⟩ := hI
      exact .fail (h2.1.fst.index_out (by omega)) ⟨L, hR, w, q.more (by omega)⟩
  swap := by
    intro s f g a b c d i j k N hI hN h1 h2 hi' hj
    obtain ⟨L, hR, w, q'⟩ := hI
    have l0 := hR.length
    have l1 := h1.1.le
    have l2 := h2.1.le
    obtain ⟨p, f', e1, hc, v1⟩ := h1.1.fst.index hi'
    obtain ⟨q, g', e2, hd, v2⟩ := h2.1.fst.index hj
    obtain ⟨p2, f2, e3, hc2, w1⟩ := h1.1.snd.index hi'
    obtain ⟨q2, g2, e4, hd2, w2⟩ := h2.1.snd.index hj
    obtain ⟨s1, e5, r1⟩ := hR.fst.swap hc hd
    obtain ⟨s2, e6, r2⟩ := hR.snd.swap hc2 hd2
    refine .lift e1 (.lift e2 ?_)
    refine Leaves.bind (P := fun x s' => x = s ∧ s' = s) ⟨rfl, rfl⟩ ?_
    rintro x t ⟨hx, ht⟩
    subst x t
    refine .lift e5 ?_
    refine Leaves.bind (P := fun _ _ => True) trivial ?_
    intro _ _ _
    refine .lift e3 (.lift e4 (.lift e6 ?_))
    have a1 := h1.2
    have a2 := h2.2
    refine Leaves.bind (P := fun _ (t : (RVec α × RVec β) × γ) => t = ((s1, s2), s.2))
      (show ((s1, s2), s.2) = ((s1, s2), s.2) from rfl) ?_
    rintro _ _ rfl
    refine .pure ⟨⟨swapAt L (a + i) (c + j), ⟨?_, ?_, by rw [swapAt_length, l0]⟩, w.trans
      (Within.swap (by omega) (by omega) (by omega) (by omega) (by omega)), q'⟩, ⟨⟨v1, w1, h1.1.le⟩, h1.2⟩, ⟨⟨v2, w2, h2.1.le⟩, h2.2⟩⟩
    · rw [swapAt_append _ (by simp; omega) (by simp; omega), ← swapAt_map] at r1; exact r1
    · rw [swapAt_append _ (by simp; omega) (by simp; omega), ← swapAt_map] at r2; exact r2

/-! ### With a comparator that does not panic and answers like a function -/

/-- When `m'` returns, so does `m`. -/
structure Follows (K : τ → σ → υ → Prop) (m : U (σ × γ) τ) (s : σ) (m' : M υ) : Prop where
  of : ∀ y, m' = .ok y → ∀ g : γ, ∃ x s' g', (show M τ × σ × γ from m (s, g)) = (.ok x, s', g') ∧ K x s' y

theorem Follows.pure {K : τ → σ → υ → Prop} {x : τ} {s : σ} {y : υ} (h : K x s y) :
    Follows (γ := γ) K (pure x) s (.ok y) := by
  refine ⟨fun y' e g => ?_⟩
  cases e
  exact ⟨x, s, g, rfl, h⟩

theorem Follows.fail {K : τ → σ → υ → Prop} {m : U (σ × γ) τ} {s : σ} {e : Fault} : Follows K m s (.error e) := by
  exact ⟨fun y e => by cases e⟩

theorem Follows.bind {K : τ → σ → υ → Prop} {K' : τ' → σ → υ' → Prop} {m : U (σ × γ) τ} {m' : M υ} {s : σ}
    {f : τ → U (σ × γ) τ'} {f' : υ → M υ'} (h : Follows K m s m') (hf : ∀ x s' y, K x s' y → Follows K' (f x) s' (f' y)) :
    Follows K' (m >>= f) s (m' >>= f') := by
  refine ⟨fun y e g => ?_⟩
  cases m' with
  | error _ => cases e
  | ok z =>
    obtain ⟨x, s', g', h1, h2⟩ := h.of z rfl g
    obtain ⟨x', s'', g'', h3, h4⟩ := (hf x s' z h2).of y e g'
    refine ⟨x', s'', g'', ?_, h4⟩
    rw [U.bind_apply, h1]
    exact h3

theorem Follows.lift {K : τ' → σ → υ' → Prop} {m : M υ} {s : σ} {f : υ → U (σ × γ) τ'} {f' : υ → M υ'}
    (hf : ∀ x, m = .ok x → Follows K (f x) s (f' x)) : Follows K ((liftM m : U (σ × γ) υ) >>= f) s (m >>= f') := by
  cases m with
  | error _ => exact .fail
  | ok z => exact hf z rfl

theorem Follows.ite {K : τ → σ → υ → Prop} {m1 m2 : U (σ × γ) τ} {m1' m2' : M υ} {s : σ} {c : Prop} [Decidable c]
    (h1 : Follows K m1 s m1') (h2 : Follows K m2 s m2') :
    Follows K (if c then m1 else m2) s (if c then m1' else m2') := by
  split
  · exact h1
  · exact h2

/-- The operations of the two sides do the same. -/
structure USortFocus.Like (o : USortFocus (σ × γ) φ) (o' : SortFocus σ φ) : Prop where
  len : o.len = o'.len
  check : o.check = o'.check
  splitAt : o.splitAt = o'.splitAt
  compare (s a i b j) : Follows (fun x s' y => s' = s ∧ x = y) (o.compare a i b j) s (o'.compare s a i b j)
  swap (s a i b j) : Follows (fun x s' y => (s', x) = y) (o.swap a i b j) s (o'.swap s a i b j)

namespace USortFocus.Like

variable {o : USortFocus (σ × γ) φ} {o' : SortFocus σ φ} (S : Like o o')
include S

theorem countLoop (s : σ) : ∀ k i f r l e,
    Follows (fun x s' y => s' = s ∧ x = y) (o.countLoop k i f r l e) s (o'.countLoop s k i f r l e) := by
  intro k
  induction k with
  | zero => intros; exact .pure ⟨rfl, rfl⟩
  | succ k ih =>
    intro i f r l e
    rw [USortFocus.countLoop, SortFocus.countLoop]
    refine (S.compare s r i f 0).bind ?_
    rintro ⟨c, f', g'⟩ _ _ ⟨rfl, rfl⟩
    cases c
    · exact ih ..
    · exact ih ..
    · exact ih ..

theorem minLoop (lc : Nat) : ∀ k i s f r,
    Follows (fun x s' y => (s', x) = y) (o.minLoop lc k i f r) s (o'.minLoop lc k i s f r) := by
  intro k
  induction k with
  | zero => intros; exact .pure rfl
  | succ k ih =>
    intro i s f r
    rw [USortFocus.minLoop, SortFocus.minLoop]
    refine .ite (ih ..) ?_
    refine (S.compare s r i f 0).bind ?_
    rintro ⟨c, f', g'⟩ _ _ ⟨rfl, rfl⟩
    refine .ite ?_ (ih ..)
    refine (S.swap ..).bind ?_
    rintro x s' _ rfl
    exact ih ..

theorem advanceLess (s : σ) : ∀ k p,
    Follows (fun x s' y => s' = s ∧ x = y) (o.advanceLess k p) s (o'.advanceLess s k p) := by
  intro k
  induction k with
  | zero => intros; exact .fail
  | succ k ih =>
    intro p
    rw [USortFocus.advanceLess, SortFocus.advanceLess, S.len]
    refine .ite ?_ (.pure ⟨rfl, rfl⟩)
    refine (S.compare ..).bind ?_
    rintro ⟨c, f', g'⟩ _ _ ⟨rfl, rfl⟩
    cases c
    · exact ih ..
    · exact .pure ⟨rfl, rfl⟩
    · exact .pure ⟨rfl, rfl⟩

theorem advanceGreater (s : σ) : ∀ k p,
    Follows (fun x s' y => s' = s ∧ x = y) (o.advanceGreater k p) s (o'.advanceGreater s k p) := by
  intro k
  induction k with
  | zero => intros; exact .fail
  | succ k ih =>
    intro p
    rw [USortFocus.advanceGreater, SortFocus.advanceGreater, S.len]
    refine .ite ?_ (.pure ⟨rfl, rfl⟩)
    refine (S.compare ..).bind ?_
    rintro ⟨c, f', g'⟩ _ _ ⟨rfl, rfl⟩
    cases c
    · exact .pure ⟨rfl, rfl⟩
    · exact .pure ⟨rfl, rfl⟩
    · exact ih ..

theorem advanceEqual (s : σ) (i : Nat) : ∀ k a b e,
    Follows (fun x s' y => s' = s ∧ x = y) (o.advanceEqual i k a b e) s (o'.advanceEqual s i k a b e) := by
  intro k
  induction k with
  | zero => intros; exact .fail
  | succ k ih =>
    intro a b e
    rw [USortFocus.advanceEqual, SortFocus.advanceEqual]
    refine (S.compare ..).bind ?_
    rintro ⟨c, f', g'⟩ _ _ ⟨rfl, rfl⟩
    exact .ite (ih ..) (.pure ⟨rfl, rfl⟩)

theorem partStep (s : σ) (p : SortFocus.Parts φ) :
    Follows (fun x s' y => (s', x) = y) (o.partStep p) s (o'.partStep s p) := by
  rw [USortFocus.partStep, SortFocus.partStep, S.len]
  refine (S.advanceLess s _ p).bind ?_
  rintro a _ _ ⟨rfl, rfl⟩
  refine (S.advanceGreater _ _ a.2).bind ?_
  rintro b _ _ ⟨rfl, rfl⟩
  refine .ite ?_ (.ite ?_ (.ite ?_ (.pure rfl)))
  · refine (S.advanceEqual ..).bind ?_
    rintro r _ _ ⟨rfl, rfl⟩
    refine (S.swap ..).bind ?_
    rintro q s' _ rfl
    exact .pure rfl
  · refine (S.advanceEqual ..).bind ?_
    rintro r _ _ ⟨rfl, rfl⟩
    refine (S.swap ..).bind ?_
    rintro q s' _ rfl
    exact .pure rfl
  · refine (S.compare ..).bind ?_
    rintro c _ _ ⟨rfl, rfl⟩
    refine .lift fun _ _ => ?_
    refine (S.compare ..).bind ?_
    rintro d _ _ ⟨rfl, rfl⟩
    refine .lift fun _ _ => ?_
    refine (S.swap ..).bind ?_
    rintro q s' _ rfl
    exact .pure rfl

theorem partLoop (more : Nat) : ∀ k s p,
    Follows (fun x s' y => (s', x) = y) (o.partLoop (k + more) p) s (o'.partLoop k s p) := by
  intro k
  induction k with
  | zero => intros; exact .fail
  | succ k ih =>
    intro s p
    rw [Nat.succ_add, USortFocus.partLoop, SortFocus.partLoop, S.len]
    refine .ite ?_ (.pure rfl)
    refine (S.partStep s p).bind ?_
    rintro q s' _ rfl
    exact ih ..

theorem sort (next : ρ → Nat × ρ) (budget : Nat) : ∀ k s rng f,
    Follows (fun x s' y => (s', x) = y) (o.sort next budget k rng f) s (o'.sort next k s rng f) := by
  intro k
  induction k with
  | zero => intros; exact .fail
  | succ k ih =>
    intro s rng f
    rw [USortFocus.sort, SortFocus.sort, S.len, S.check, S.splitAt]
    refine .ite (.pure rfl) ?_
    refine .lift fun p _ => .lift fun _ _ => .lift fun _ _ => ?_
    refine Follows.bind (K := fun x s' y => (s', x) = y) (.ite (S.swap ..) (.pure rfl)) ?_
    rintro q s' _ rfl
    refine (S.countLoop ..).bind ?_
    rintro c _ _ ⟨rfl, rfl⟩
    refine .ite (ih ..) ?_
    refine .lift fun lc _ => ?_
    refine (S.swap ..).bind ?_
    rintro w s' _ rfl
    refine (S.minLoop ..).bind ?_
    rintro m s' _ rfl
    refine .lift fun g _ => .lift fun _ _ => .lift fun e _ => .lift fun _ _ => .lift fun _ _ => ?_
    refine (S.partLoop ..).bind ?_
    rintro r s' _ rfl
    refine (ih ..).bind ?_
    rintro x s' _ rfl
    exact .ite (ih ..) (.pure rfl)

end USortFocus.Like

theorem Callback.ask_follows {υ : Type} {K : τ → σ → υ → Prop} {cb : Callback γ α} {cmp : α → α → Ordering}
    (h : ∀ g x y, (cb g x y).1 = some (cmp x y)) {s : σ} {x y : α} {f : Ordering → U (σ × γ) τ} {m : M υ}
    (hf : Follows K (f (cmp x y)) s m) : Follows K (cb.ask x y >>= f) s m := by
  refine Follows.bind (m' := .ok ()) (f' := fun _ => m) (K := fun c s' _ => c = cmp x y ∧ s' = s) ?_ ?_
  · refine ⟨fun _ _ g => ?_⟩
    refine ⟨cmp x y, s, (cb g x y).2, ?_, rfl, rfl⟩
    have := h g x y
    unfold Callback.ask
    simp only
    rcases hc : cb g x y with ⟨_ | c, g'⟩
    · rw [hc] at this; cases this
    · rw [hc] at this; cases this; rfl
  · rintro _ _ _ ⟨rfl, rfl⟩
    exact hf

theorem Follows.get {K : τ → σ → υ → Prop} {s : σ} {f : σ × γ → U (σ × γ) τ} {m : M υ}
    (h : ∀ g, Follows K (f (s, g)) s m) : Follows K ((get : U (σ × γ) (σ × γ)) >>= f) s m := by
  refine ⟨fun y e g => ?_⟩
  obtain ⟨x, s', g', h1, h2⟩ := (h g).of y e g
  refine ⟨x, s', g', ?_, h2⟩
  rw [U.bind_apply]
  exact h1

theorem Follows.set {K : τ → σ → υ → Prop} {s s' : σ} {g' : γ} {f : PUnit → U (σ × γ) τ} {m : M υ}
    (h : Follows K (f ⟨⟩) s' m) : Follows K ((set (s', g') : U (σ × γ) PUnit) >>= f) s m := by
  refine ⟨fun y e g => ?_⟩
  obtain ⟨x, t, g'', h1, h2⟩ := h.of y e g'
  refine ⟨x, t, g'', ?_, h2⟩
  rw [U.bind_apply]
  exact h1

theorem single_like {cb : Callback γ α} {cmp : α → α → Ordering} (h : ∀ g x y, (cb g x y).1 = some (cmp x y)) :
    (USortFocus.single cb).Like (SortFocus.single cmp) where
  len := rfl
  check := rfl
  splitAt := rfl
  compare s a i b j := by
    refine .lift fun x _ => .lift fun y _ => .get fun g => .lift fun p _ => .lift fun q _ => ?_
    exact Callback.ask_follows h (.pure ⟨rfl, rfl⟩)
  swap s a i b j := by
    refine .lift fun x _ => .lift fun y _ => .get fun g => .lift fun v _ => ?_
    exact .set (.pure rfl)

theorem dual_like {cb : Callback γ α} {cmp : α → α → Ordering} (h : ∀ g x y, (cb g x y).1 = some (cmp x y)) :
    (USortFocus.dual (β := β) cb).Like (SortFocus.dual cmp) where
  len := rfl
  check := rfl
  splitAt := rfl
  compare s a i b j := by
    refine .lift fun x _ => .lift fun y _ => .get fun g => .lift fun p _ => .lift fun q _ => ?_
    exact Callback.ask_follows h (.pure ⟨rfl, rfl⟩)
  swap s a i b j := by
    refine .lift fun x _ => .lift fun y _ => .get fun g => .lift fun v _ => .set ?_
    refine .lift fun p _ => .lift fun q _ => .lift fun w _ => ?_
    exact .set (.pure rfl)

theorem sortRangeBy_follows {cb : Callback γ α} {cmp : α → α → Ordering} (h : ∀ g x y, (cb g x y).1 = some (cmp x y))
    (v : RVec α) (sb eb : Bound) (next : ρ → Nat × ρ) (budget : Nat) (rng : ρ) :
    Follows (fun _ s' y => s' = y) (v.sortRangeByU cb sb eb next budget rng) v (v.sortRangeBy cmp sb eb next rng) := by
  refine .lift fun lo _ => .lift fun hi _ => .lift fun f _ => ?_
  refine ((single_like h).sort next budget _ v rng f).bind ?_
  rintro x s' _ rfl
  exact .pure rfl

theorem dualSortRangeBy_follows {cb : Callback γ α} {cmp : α → α → Ordering} (h : ∀ g x y, (cb g x y).1 = some (cmp x y))
    (v : RVec α) (w : RVec β) (sb eb : Bound) (next : ρ → Nat × ρ) (budget : Nat) (rng : ρ) :
    Follows (fun _ s' y => s' = y) (v.dualSortRangeByU w cb sb eb next budget rng) (v, w)
      (v.dualSortRangeBy w cmp sb eb next rng) := by
  refine .lift fun lo _ => .lift fun hi _ => .lift fun f _ => .lift fun g _ => ?_
  refine ((dual_like h).sort next budget _ (v, w) rng (f, g)).bind ?_
  rintro x s' _ rfl
  exact .pure rfl

end Librrb
