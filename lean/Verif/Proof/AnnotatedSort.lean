import Verif.Model.AnnotatedSort
import Verif.Proof.AnnotatedFocus

/-!
# Sorting and reversing annotated vectors does what it does to plain ones, as long as it returns
-/
namespace Librrb

/-- If the first returns then so does the second, and the results are in the relation `K`; the other way round too if `F` holds. -/
def SimS {γ σ υ : Type} (F : Prop) (K : γ → σ → υ → Prop) (x : AM σ γ) (s : σ) (y : M υ) : Prop :=
  (∀ r s', x s = .ok (r, s') → ∃ b, y = .ok b ∧ K r s' b) ∧ (F → ∀ b, y = .ok b → ∃ r s', x s = .ok (r, s') ∧ K r s' b)

namespace SimS
variable {γ γ' σ υ υ' β : Type}

theorem pure {F : Prop} {K : γ → σ → υ → Prop} {r : γ} {s : σ} {b : υ} (h : K r s b) : SimS F K (Pure.pure r) s (.ok b) :=
  ⟨fun _ _ e => by cases e; exact ⟨b, rfl, h⟩, fun _ _ e => by cases e; exact ⟨r, s, rfl, h⟩⟩

theorem error {F : Prop} {K : γ → σ → υ → Prop} {s : σ} {e e' : Fault} : SimS F K (throw e) s (.error e') :=
  ⟨fun _ _ h => (by cases h), fun _ _ h => (by cases h)⟩

theorem bind {F : Prop} {K : γ → σ → υ → Prop} {L : γ' → σ → υ' → Prop} {x : AM σ γ} {s : σ} {y : M υ} {f : γ → AM σ γ'} {g : υ → M υ'}
    (h : SimS F K x s y) (hf : ∀ r s' b, K r s' b → SimS F L (f r) s' (g b)) : SimS F L (x >>= f) s (y >>= g) := by
  constructor
  · intro r s' e
    obtain ⟨⟨a, s1⟩, e1, e⟩ := RVec.bind_ok (show (x s >>= fun p => f p.1 p.2) = .ok (r, s') from e)
    obtain ⟨b, e2, hk⟩ := h.1 _ _ e1
    rw [e2]
    exact (hf _ _ _ hk).1 _ _ e
  · intro hF c e
    obtain ⟨b, e1, e⟩ := RVec.bind_ok e
    obtain ⟨r, s', e2, hk⟩ := h.2 hF _ e1
    obtain ⟨r', s'', e3, hl⟩ := (hf _ _ _ hk).2 hF _ e
    refine ⟨r', s'', ?_, hl⟩
    show (x s >>= fun p => f p.1 p.2) = _
    rw [e2]
    exact e3

theorem lift {F : Prop} {L : γ' → σ → υ' → Prop} {m : M β} {s : σ} {f : β → AM σ γ'} {g : β → M υ'}
    (hf : ∀ b, m = .ok b → SimS F L (f b) s (g b)) : SimS F L ((liftM m : AM σ β) >>= f) s (m >>= g) := by
  cases m with
  | error e => exact ⟨fun _ _ h => (by cases h), fun _ _ h => (by cases h)⟩
  | ok b => exact hf b rfl

theorem skip {F : Prop} {J : σ → Prop} {L : γ' → σ → υ' → Prop} {x : AM σ γ} {s : σ} {y : M υ'} {f : γ → AM σ γ'}
    (h : SimS F (fun _ s' (_ : Unit) => J s') x s (.ok ())) (hf : ∀ r s', J s' → SimS F L (f r) s' y) : SimS F L (x >>= f) s y := by
  have := h.bind (g := fun _ => y) fun r s' _ k => hf r s' k
  exact this

theorem tail {F : Prop} {K : γ → σ → υ → Prop} {L : γ' → σ → υ → Prop} {x : AM σ γ} {s : σ} {y : M υ} {f : γ → AM σ γ'}
    (h : SimS F K x s y) (hf : ∀ r s' b, K r s' b → SimS F L (f r) s' (.ok b)) : SimS F L (x >>= f) s y := by
  have := h.bind (g := fun b => .ok b) hf
  cases y <;> exact this

theorem mono {F : Prop} {K L : γ → σ → υ → Prop} {x : AM σ γ} {s : σ} {y : M υ} (h : SimS F K x s y) (hk : ∀ r s' b, K r s' b → L r s' b) :
    SimS F L x s y := by
  refine ⟨fun r s' e => ?_, fun hF b e => ?_⟩
  · obtain ⟨b, e1, h1⟩ := h.1 _ _ e; exact ⟨b, e1, hk _ _ _ h1⟩
  · obtain ⟨r, s', e1, h1⟩ := h.2 hF _ e; exact ⟨r, s', e1, hk _ _ _ h1⟩

end SimS

namespace ASortFocus

/-- The operations do to states `J` what the plain ones do, with foci that meet `V`. -/
structure Like (a : ASortFocus σ φ) (o : SortFocus τ φ) (J : σ → τ → Prop) (V : φ → Prop) (F : Prop) : Prop where
  len : a.len = o.len
  check : a.check = o.check
  splitAt {s t f} (k : Nat) : J s t → V f → SimS F (fun r s' b => r = b ∧ J s' t ∧ V r.1 ∧ V r.2) (a.splitAt f k) s (o.splitAt f k)
  compare {s t f g} (i j : Nat) : J s t → V f → V g →
    SimS F (fun r s' b => r = b ∧ J s' t ∧ V r.2.1 ∧ V r.2.2) (a.compare f i g j) s (o.compare t f i g j)
  swap {s t f g} (i j : Nat) : J s t → V f → V g →
    SimS F (fun r s' b => r = b.2 ∧ J s' b.1 ∧ V r.1 ∧ V r.2) (a.swap f i g j) s (o.swap t f i g j)
  drop {s t f} : J s t → V f → SimS F (fun _ s' _ => J s' t) (a.drop f) s (.ok ())

/-- The parts meet `V`. -/
def PartsMeet (V : φ → Prop) (p : SortFocus.Parts φ) : Prop := V p.less ∧ V p.equal ∧ V p.greater

namespace Like
variable {a : ASortFocus σ φ} {o : SortFocus τ φ} {J : σ → τ → Prop} {V : φ → Prop} {F : Prop}

theorem countLoop (L : Like a o J V F) : ∀ (n index less equal : Nat) {s : σ} {t : τ} {first rest : φ}, J s t → V first → V rest →
    SimS F (fun r s' b => r = b ∧ J s' t ∧ V r.2.2.1 ∧ V r.2.2.2) (a.countLoop n index first rest less equal) s
      (o.countLoop t n index first rest less equal)
  | 0, index, less, equal, s, t, first, rest, hj, h1, h2 => .pure ⟨rfl, hj, h1, h2⟩
  | n + 1, index, less, equal, s, t, first, rest, hj, h1, h2 => by
    rw [ASortFocus.countLoop, SortFocus.countLoop]
    refine (L.compare index 0 hj h2 h1).bind ?_
    rintro ⟨c, f, g⟩ s' _ ⟨rfl, hj, v1, v2⟩
    cases c <;> exact countLoop L n _ _ _ hj v2 v1

theorem minLoop (L : Like a o J V F) (lessCount : Nat) : ∀ (n index : Nat) {s : σ} {t : τ} {first rest : φ}, J s t → V first → V rest →
    SimS F (fun r s' b => r = b.2 ∧ J s' b.1 ∧ V r.1 ∧ V r.2) (a.minLoop lessCount n index first rest) s
      (o.minLoop lessCount n index t first rest)
  | 0, index, s, t, first, rest, hj, h1, h2 => .pure ⟨rfl, hj, h1, h2⟩
  | n + 1, index, s, t, first, rest, hj, h1, h2 => by
    rw [ASortFocus.minLoop, SortFocus.minLoop]
    split
    · exact minLoop L lessCount n _ hj h1 h2
    · refine (L.compare index 0 hj h2 h1).bind ?_
      rintro ⟨c, f, g⟩ s' _ ⟨rfl, hj, v1, v2⟩
      dsimp only at v1 v2 ⊢
      split
      · refine (L.swap 0 index hj v2 v1).bind ?_
        rintro ⟨f', g'⟩ s'' ⟨t', _⟩ ⟨rfl, hj, v3, v4⟩
        exact minLoop L lessCount n _ hj v3 v4
      · exact minLoop L lessCount n _ hj v2 v1

theorem advanceLess (L : Like a o J V F) : ∀ (fuel : Nat) {s : σ} {t : τ} {p : SortFocus.Parts φ}, J s t → PartsMeet V p →
    SimS F (fun r s' b => r = b ∧ J s' t ∧ PartsMeet V r.2) (a.advanceLess fuel p) s (o.advanceLess t fuel p)
  | 0, s, t, p, hj, hp => .error
  | fuel + 1, s, t, p, hj, hp => by
    rw [ASortFocus.advanceLess, SortFocus.advanceLess, L.len]
    split
    · refine (L.compare _ _ hj hp.1 hp.2.1).bind ?_
      rintro ⟨c, f, g⟩ s' _ ⟨rfl, hj, v1, v2⟩
      cases c with
      | eq => exact .pure ⟨rfl, hj, v1, v2, hp.2.2⟩
      | gt => exact .pure ⟨rfl, hj, v1, v2, hp.2.2⟩
      | lt => exact advanceLess L fuel hj ⟨v1, v2, hp.2.2⟩
    · exact .pure ⟨rfl, hj, hp⟩

theorem advanceGreater (L : Like a o J V F) : ∀ (fuel : Nat) {s : σ} {t : τ} {p : SortFocus.Parts φ}, J s t → PartsMeet V p →
    SimS F (fun r s' b => r = b ∧ J s' t ∧ PartsMeet V r.2) (a.advanceGreater fuel p) s (o.advanceGreater t fuel p)
  | 0, s, t, p, hj, hp => .error
  | fuel + 1, s, t, p, hj, hp => by
    rw [ASortFocus.advanceGreater, SortFocus.advanceGreater, L.len]
    split
    · refine (L.compare _ _ hj hp.2.2 hp.2.1).bind ?_
      rintro ⟨c, f, g⟩ s' _ ⟨rfl, hj, v1, v2⟩
      cases c with
      | eq => exact .pure ⟨rfl, hj, hp.1, v2, v1⟩
      | lt => exact .pure ⟨rfl, hj, hp.1, v2, v1⟩
      | gt => exact advanceGreater L fuel hj ⟨hp.1, v2, v1⟩
    · exact .pure ⟨rfl, hj, hp⟩

theorem advanceEqual (L : Like a o J V F) (i : Nat) : ∀ (fuel : Nat) {s : σ} {t : τ} {side equal : φ} {ep : Nat}, J s t → V side → V equal →
    SimS F (fun r s' b => r = b ∧ J s' t ∧ V r.2.1 ∧ V r.2.2) (a.advanceEqual i fuel side equal ep) s (o.advanceEqual t i fuel side equal ep)
  | 0, s, t, side, equal, ep, hj, h1, h2 => .error
  | fuel + 1, s, t, side, equal, ep, hj, h1, h2 => by
    rw [ASortFocus.advanceEqual, SortFocus.advanceEqual]
    refine (L.compare _ _ hj h1 h2).bind ?_
    rintro ⟨c, f, g⟩ s' _ ⟨rfl, hj, v1, v2⟩
    dsimp only at v1 v2 ⊢
    split
    · exact advanceEqual L i fuel hj v1 v2
    · exact .pure ⟨rfl, hj, v1, v2⟩

theorem partStep (L : Like a o J V F) {s : σ} {t : τ} {p : SortFocus.Parts φ} (hj : J s t) (hp : PartsMeet V p) :
    SimS F (fun r s' b => r = b.2 ∧ J s' b.1 ∧ PartsMeet V r) (a.partStep p) s (o.partStep t p) := by
  rw [ASortFocus.partStep, SortFocus.partStep, L.len]
  refine (L.advanceLess _ hj hp).bind ?_
  rintro ⟨x, p1⟩ s1 _ ⟨rfl, hj, hp⟩
  refine (L.advanceGreater _ hj hp).bind ?_
  rintro ⟨y, p2⟩ s2 _ ⟨rfl, hj, hp⟩
  dsimp only
  obtain ⟨h1, h2, h3⟩ := hp
  split
  · refine (L.advanceEqual _ _ hj h3 h2).bind ?_
    rintro ⟨e, f, g⟩ s3 _ ⟨rfl, hj, v1, v2⟩
    refine (L.swap _ _ hj v1 v2).bind ?_
    rintro ⟨f', g'⟩ s4 ⟨t', _⟩ ⟨rfl, hj, v3, v4⟩
    exact .pure ⟨rfl, hj, h1, v4, v3⟩
  · split
    · refine (L.advanceEqual _ _ hj h1 h2).bind ?_
      rintro ⟨e, f, g⟩ s3 _ ⟨rfl, hj, v1, v2⟩
      refine (L.swap _ _ hj v1 v2).bind ?_
      rintro ⟨f', g'⟩ s4 ⟨t', _⟩ ⟨rfl, hj, v3, v4⟩
      exact .pure ⟨rfl, hj, v3, v4, h3⟩
    · split
      · refine (L.compare _ _ hj h1 h2).bind ?_
        rintro ⟨c, f, g⟩ s3 _ ⟨rfl, hj, v1, v2⟩
        refine .lift fun _ _ => ?_
        refine (L.compare _ _ hj h3 v2).bind ?_
        rintro ⟨d, f', g'⟩ s4 _ ⟨rfl, hj, v3, v4⟩
        refine .lift fun _ _ => ?_
        refine (L.swap _ _ hj v1 v3).bind ?_
        rintro ⟨f2, g2⟩ s5 ⟨t', _⟩ ⟨rfl, hj, v5, v6⟩
        exact .pure ⟨rfl, hj, v5, v4, v6⟩
      · exact .pure ⟨rfl, hj, h1, h2, h3⟩

theorem partLoop (L : Like a o J V F) : ∀ (fuel : Nat) {s : σ} {t : τ} {p : SortFocus.Parts φ}, J s t → PartsMeet V p →
    SimS F (fun r s' b => r = b.2 ∧ J s' b.1 ∧ PartsMeet V r) (a.partLoop fuel p) s (o.partLoop fuel t p)
  | 0, s, t, p, hj, hp => .error
  | fuel + 1, s, t, p, hj, hp => by
    rw [ASortFocus.partLoop, SortFocus.partLoop, L.len]
    split
    · refine (L.partStep hj hp).bind ?_
      rintro p1 s1 ⟨t1, _⟩ ⟨rfl, hj, hp⟩
      exact partLoop L fuel hj hp
    · exact .pure ⟨rfl, hj, hp⟩

theorem sort (L : Like a o J V F) (next : ρ → Nat × ρ) : ∀ (fuel : Nat) {s : σ} {t : τ} {rng : ρ} {f : φ}, J s t → V f →
    SimS F (fun r s' b => r = b.2 ∧ J s' b.1) (a.sort next fuel rng f) s (o.sort next fuel t rng f)
  | 0, s, t, rng, f, hj, hf => .error
  | fuel + 1, s, t, rng, f, hj, hf => by
    rw [ASortFocus.sort, SortFocus.sort, L.len, L.check]
    split
    · exact .pure ⟨rfl, hj⟩
    refine (L.splitAt 1 hj hf).bind ?_
    rintro ⟨p1, p2⟩ s1 _ ⟨rfl, hj, v1, v2⟩
    refine .lift fun _ _ => .lift fun _ _ => ?_
    refine SimS.bind (K := fun r s' b => r = b.2 ∧ J s' b.1 ∧ V r.1 ∧ V r.2) ?_ ?_
    · split
      · exact L.swap _ _ hj v2 v1
      · exact .pure ⟨rfl, hj, v2, v1⟩
    rintro ⟨q1, q2⟩ s2 ⟨t2, _⟩ ⟨rfl, hj, v1, v2⟩
    refine (L.countLoop _ _ _ _ hj v2 v1).bind ?_
    rintro ⟨lc, ec, c1, c2⟩ s3 _ ⟨rfl, hj, v1, v2⟩
    dsimp only at hj v1 v2 ⊢
    split
    · refine (sort L next fuel hj v2).tail ?_
      rintro x s4 ⟨t4, _⟩ ⟨rfl, hj⟩
      dsimp only at hj
      refine (L.drop hj v2).skip fun _ s5 hj => (L.drop hj v1).skip fun _ s6 hj => ?_
      exact .pure ⟨rfl, hj⟩
    · refine .lift fun lessCount _ => ?_
      refine (L.swap _ _ hj v1 v2).bind ?_
      rintro ⟨w1, w2⟩ s4 ⟨t4, _⟩ ⟨rfl, hj, v1, v2⟩
      refine (L.minLoop _ _ _ hj v1 v2).bind ?_
      rintro ⟨m1, m2⟩ s5 ⟨t5, _⟩ ⟨rfl, hj, v1, v2⟩
      refine (L.splitAt _ hj v2).bind ?_
      rintro ⟨g1, g2⟩ s6 _ ⟨rfl, hj, u1, u2⟩
      refine .lift fun _ _ => ?_
      refine (L.splitAt _ hj u1).bind ?_
      rintro ⟨e1, e2⟩ s7 _ ⟨rfl, hj, x1, x2⟩
      refine .lift fun _ _ => .lift fun _ _ => ?_
      refine (L.partLoop _ hj ⟨x1, x2, u2⟩).bind ?_
      rintro r s8 ⟨t8, _⟩ ⟨rfl, hj, y1, y2, y3⟩
      dsimp only at hj v1 v2 u1 y1 y2 y3 ⊢
      refine (sort L next fuel hj y1).bind ?_
      rintro x s9 ⟨t9, _⟩ ⟨rfl, hj⟩
      dsimp only at hj ⊢
      have key : SimS F (fun r s' b => r = b.2 ∧ J s' b.1)
          (if (o.len r.greater != 0) = true then a.sort next fuel x r.greater else Pure.pure x) s9
          (if (o.len r.greater != 0) = true then o.sort next fuel t9 x r.greater else .ok (t9, x)) := by
        split
        · exact sort L next fuel hj y3
        · exact .pure ⟨rfl, hj⟩
      refine key.tail ?_
      rintro x' s10 ⟨t10, _⟩ ⟨rfl, hj⟩
      dsimp only at hj
      refine (L.drop hj y2).skip fun _ _ hj => (L.drop hj y1).skip fun _ _ hj => (L.drop hj y3).skip fun _ _ hj => ?_
      refine (L.drop hj u1).skip fun _ _ hj => (L.drop hj v2).skip fun _ _ hj => (L.drop hj v1).skip fun _ _ hj => ?_
      exact .pure ⟨rfl, hj⟩

end Like
end ASortFocus

/-! ### The foci -/

/-- `SimS` for computations that give the state back with the result. -/
def SimM {γ υ : Type} (F : Prop) (K : γ → υ → Prop) (x : M γ) (y : M υ) : Prop :=
  (∀ r, x = .ok r → ∃ b, y = .ok b ∧ K r b) ∧ (F → ∀ b, y = .ok b → ∃ r, x = .ok r ∧ K r b)

namespace SimM
variable {γ γ' υ υ' β σ : Type}

theorem toSim {F : Prop} {K : γ → σ → υ → Prop} {x : AM σ γ} {s : σ} {y : M υ} (h : SimM F (fun p b => K p.1 p.2 b) (x s) y) :
    SimS F K x s y := by
  refine ⟨fun r s' e => h.1 _ e, fun hF b e => ?_⟩
  obtain ⟨⟨r, s'⟩, e1, h1⟩ := h.2 hF b e
  exact ⟨r, s', e1, h1⟩

theorem ofSim {F : Prop} {K : γ → σ → υ → Prop} {x : AM σ γ} {s : σ} {y : M υ} (h : SimS F K x s y) :
    SimM F (fun p b => K p.1 p.2 b) (x s) y := by
  refine ⟨fun r e => h.1 _ _ e, fun hF b e => ?_⟩
  obtain ⟨r, s', e1, h1⟩ := h.2 hF b e
  exact ⟨(r, s'), e1, h1⟩

theorem ok {F : Prop} {K : γ → υ → Prop} {r : γ} {b : υ} (h : K r b) : SimM F K (.ok r) (.ok b) :=
  ⟨fun _ e => by cases e; exact ⟨b, rfl, h⟩, fun _ _ e => by cases e; exact ⟨r, rfl, h⟩⟩

theorem bind {F : Prop} {K : γ → υ → Prop} {L : γ' → υ' → Prop} {x : M γ} {y : M υ} {f : γ → M γ'} {g : υ → M υ'}
    (h : SimM F K x y) (hf : ∀ r b, K r b → SimM F L (f r) (g b)) : SimM F L (x >>= f) (y >>= g) := by
  constructor
  · intro r e
    obtain ⟨a, e1, e⟩ := RVec.bind_ok e
    obtain ⟨b, e2, hk⟩ := h.1 _ e1
    rw [e2]
    exact (hf _ _ hk).1 _ e
  · intro hF c e
    obtain ⟨b, e1, e⟩ := RVec.bind_ok e
    obtain ⟨r, e2, hk⟩ := h.2 hF _ e1
    rw [e2]
    exact (hf _ _ hk).2 hF _ e

theorem lift {F : Prop} {L : γ' → υ' → Prop} {m : M β} {f : β → M γ'} {g : β → M υ'}
    (hf : ∀ b, m = .ok b → SimM F L (f b) (g b)) : SimM F L (m >>= f) (m >>= g) := by
  cases m with
  | error e => exact ⟨fun _ h => (by cases h), fun _ _ h => (by cases h)⟩
  | ok b => exact hf b rfl

theorem skip {F : Prop} {L : γ' → υ' → Prop} {x : M γ} {y : M υ'} {f : γ → M γ'} (h : F → ∃ r, x = .ok r)
    (hf : ∀ r, x = .ok r → SimM F L (f r) y) : SimM F L (x >>= f) y := by
  constructor
  · intro r e
    obtain ⟨a, e1, e⟩ := RVec.bind_ok e
    exact (hf _ e1).1 _ e
  · intro hF c e
    obtain ⟨r, e2⟩ := h hF
    rw [e2]
    exact (hf _ e2).2 hF _ e

theorem tail {F : Prop} {K : γ → υ → Prop} {L : γ' → υ → Prop} {x : M γ} {y : M υ} {f : γ → M γ'}
    (h : SimM F K x y) (hf : ∀ r b, K r b → SimM F L (f r) (.ok b)) : SimM F L (x >>= f) y := by
  have := h.bind (g := fun b => .ok b) hf
  cases y <;> exact this

theorem mono {F : Prop} {K L : γ → υ → Prop} {x : M γ} {y : M υ} (h : SimM F K x y) (hk : ∀ r b, K r b → L r b) : SimM F L x y := by
  refine ⟨fun r e => ?_, fun hF b e => ?_⟩
  · obtain ⟨b, e1, h1⟩ := h.1 _ e; exact ⟨b, e1, hk _ _ h1⟩
  · obtain ⟨r, e1, h1⟩ := h.2 hF _ e; exact ⟨r, e1, hk _ _ h1⟩

end SimM

theorem AVec.swapCells_erase (v : AVec) (c d : Cell) : Refines AVec.erase (v.swapCells c d) (v.erase.swapCells c d) := by
  unfold AVec.swapCells RVec.swapCells
  refine .same fun x => .same fun y => ?_
  exact Refines.bind (AVec.writeCell_erase v y c) fun v' => AVec.writeCell_erase v' x d

/-- What a use of the focus may drop. -/
def FMut.Drops (f : FMut Cell) (bs : List (BNode Cell)) : Prop :=
  bs = f.pathNodes ∨ (∃ i, bs = f.moveDrops i) ∨ ∃ k, f.splitDrops k = .ok bs

/-- The foci `V` of the vectors `Q`, with places `P`; if `F` then whatever is done with a focus of a plain vector can be done with
one of an annotated vector. -/
structure Foci (Q : AVec → Prop) (V : FMut Cell → Prop) (P : Cell → Prop) (F : Prop) : Prop where
  index {f i c f'} : V f → f.index i = .ok (c, f') → P c ∧ V f'
  split {f k f1 f2} : V f → f.splitAt k = .ok (f1, f2) → V f1 ∧ V f2
  swap {v v' c d} : Q v → P c → P d → v.swapCells c d = .ok v' → Q v'
  keep {v v' f bs} : Q v → V f → f.Drops bs → v.dropBorrowed bs = .ok v' → Q v'
  moves {v f i c f'} : F → Q v → V f → f.index i = .ok (c, f') → ∃ v', v.dropBorrowed (f.moveDrops i) = .ok v'
  splits {v f k f1 f2} : F → Q v → V f → f.splitAt k = .ok (f1, f2) → ∃ ds v', f.splitDrops k = .ok ds ∧ v.dropBorrowed ds = .ok v'
  ends {v f} : F → Q v → V f → ∃ v', v.dropBorrowed f.pathNodes = .ok v'
  swaps {v u c d} : F → Q v → P c → P d → v.erase.swapCells c d = .ok u → ∃ v', v.swapCells c d = .ok v'

/-- The focus of the vector can be dropped, and then `E` holds. -/
def Closes (Q E : AVec → Prop) (F : Prop) (f : FMut Cell) : Prop :=
  ∀ v, Q v → (F → ∃ v', v.dropBorrowed f.rootedNodes = .ok v') ∧ ∀ v', v.dropBorrowed f.rootedNodes = .ok v' → E v'

/-- Nothing is asked of the vector or of the foci, and nothing is claimed about what returns. -/
theorem Foci.all : Foci (fun _ => True) (fun _ => True) (fun _ => True) False where
  index _ _ := ⟨trivial, trivial⟩
  split _ _ := ⟨trivial, trivial⟩
  swap _ _ _ _ := trivial
  keep _ _ _ _ := trivial
  moves h := h.elim
  splits h := h.elim
  ends h := h.elim
  swaps h := h.elim

theorem Closes.all (f : FMut Cell) : Closes (fun _ => True) (fun _ => True) False f := fun _ _ => ⟨fun h => h.elim, fun _ _ => trivial⟩

namespace Foci
variable {Q Q' : AVec → Prop} {V V' : FMut Cell → Prop} {P P' : Cell → Prop} {F : Prop}

theorem focusIndex (L : Foci Q V P F) {v : AVec} {f : FMut Cell} (hq : Q v) (hf : V f) (i : Nat) :
    SimM F (fun r b => r.1 = b.1 ∧ r.2.2 = b.2 ∧ r.2.1.erase = v.erase ∧ Q r.2.1 ∧ P b.1 ∧ V b.2) (v.focusIndex f i) (f.index i) := by
  have key : ∀ {v' c? f' c}, v.dropBorrowed (f.moveDrops i) = .ok v' → f.get i = .ok (c?, f') → unwrap c? = .ok c →
      v.focusIndex f i = .ok (c, v', f') ∧ f.index i = .ok (c, f') := by
    intro v' c? f' c e1 e2 e3
    constructor
    · simp only [AVec.focusIndex, AVec.focusGet, e1, e2, e3, ok_bind]
    · simp only [FMut.index, e2, e3, ok_bind]
  constructor
  · intro r e
    unfold AVec.focusIndex AVec.focusGet at e
    obtain ⟨q, e0, e⟩ := RVec.bind_ok e
    obtain ⟨v', e1, e0⟩ := RVec.bind_ok e0
    obtain ⟨⟨c?, f'⟩, e2, e0⟩ := RVec.bind_ok e0
    cases e0
    obtain ⟨c, e3, e⟩ := RVec.bind_ok e
    cases e
    obtain ⟨-, e4⟩ := key e1 e2 e3
    exact ⟨_, e4, rfl, rfl, AVec.dropBorrowed_erase _ e1, L.keep hq hf (.inr (.inl ⟨i, rfl⟩)) e1, L.index hf e4⟩
  · rintro hF ⟨c, f'⟩ e
    obtain ⟨v', e1⟩ := L.moves hF hq hf e
    have e' := e
    unfold FMut.index at e'
    obtain ⟨⟨c?, f2⟩, e2, e'⟩ := RVec.bind_ok e'
    obtain ⟨c', e3, e'⟩ := RVec.bind_ok e'
    cases e'
    exact ⟨_, (key e1 e2 e3).1, rfl, rfl, AVec.dropBorrowed_erase _ e1, L.keep hq hf (.inr (.inl ⟨i, rfl⟩)) e1, L.index hf e⟩

theorem focusSplit (L : Foci Q V P F) {v : AVec} {f : FMut Cell} (hq : Q v) (hf : V f) (k : Nat) :
    SimM F (fun r b => r.2 = b ∧ r.1.erase = v.erase ∧ Q r.1 ∧ V b.1 ∧ V b.2) (v.focusSplit f k) (f.splitAt k) := by
  unfold AVec.focusSplit
  constructor
  · intro r e
    obtain ⟨ds, e1, e⟩ := RVec.bind_ok e
    obtain ⟨v', e2, e⟩ := RVec.bind_ok e
    obtain ⟨⟨f1, f2⟩, e3, e⟩ := RVec.bind_ok e
    cases e
    exact ⟨_, e3, rfl, AVec.dropBorrowed_erase _ e2, L.keep hq hf (.inr (.inr ⟨k, e1⟩)) e2, L.split hf e3⟩
  · rintro hF ⟨f1, f2⟩ e
    obtain ⟨ds, v', e1, e2⟩ := L.splits hF hq hf e
    simp only [e1, e2, e, ok_bind]
    exact ⟨_, rfl, rfl, AVec.dropBorrowed_erase _ e2, L.keep hq hf (.inr (.inr ⟨k, e1⟩)) e2, L.split hf e⟩

theorem swapCells (L : Foci Q V P F) {v : AVec} {c d : Cell} (hq : Q v) (hc : P c) (hd : P d) :
    SimM F (fun v' u => v'.erase = u ∧ Q v') (v.swapCells c d) (v.erase.swapCells c d) := by
  constructor
  · intro v' e
    exact ⟨_, AVec.swapCells_erase v c d _ e, rfl, L.swap hq hc hd e⟩
  · intro hF u e
    obtain ⟨v', e1⟩ := L.swaps hF hq hc hd e
    have := AVec.swapCells_erase v c d _ e1
    rw [e] at this
    cases this
    exact ⟨_, e1, rfl, L.swap hq hc hd e1⟩

theorem drop (L : Foci Q V P F) {υ : Type} {y : M υ} {v : AVec} {f : FMut Cell} (hq : Q v) (hf : V f)
    {γ : Type} {K : γ → υ → Prop} {k : AVec → M γ} (hk : ∀ v' : AVec, v'.erase = v.erase → Q v' → SimM F K (k v') y) :
    SimM F K (v.dropBorrowed f.pathNodes >>= k) y :=
  .skip (fun hF => L.ends hF hq hf) fun v' e => hk v' (AVec.dropBorrowed_erase _ e) (L.keep hq hf (.inl rfl) e)

theorem single (L : Foci Q V P F) (cmp : Nat → Nat → Ordering) :
    (ASortFocus.single cmp).Like (SortFocus.single cmp) (fun v u => v.erase = u ∧ Q v) V F where
  len := rfl
  check := rfl
  splitAt := by
    rintro v _ f k ⟨rfl, hq⟩ hf
    refine SimM.toSim ?_
    refine (L.focusSplit hq hf k).tail ?_
    rintro ⟨v', r⟩ b ⟨rfl, h1, hq, h2, h3⟩
    exact .ok ⟨rfl, ⟨h1, hq⟩, h2, h3⟩
  compare := by
    rintro v _ f g i j ⟨rfl, hq⟩ hf hg
    refine SimM.toSim ?_
    refine (L.focusIndex hq hf i).bind ?_
    rintro ⟨c, v1, f1⟩ ⟨_, _⟩ ⟨rfl, rfl, h1, hq, hc, hf1⟩
    dsimp only at h1 hq hc hf1 ⊢
    refine (L.focusIndex hq hg j).bind ?_
    rintro ⟨d, v2, g1⟩ ⟨_, _⟩ ⟨rfl, rfl, h2, hq, hd, hg1⟩
    dsimp only at h2 hq hd hg1 ⊢
    rw [h2, h1]
    refine .lift fun x _ => .lift fun y _ => .ok ⟨rfl, ⟨by rw [h2, h1], hq⟩, hf1, hg1⟩
  swap := by
    rintro v _ f g i j ⟨rfl, hq⟩ hf hg
    refine SimM.toSim ?_
    refine (L.focusIndex hq hf i).bind ?_
    rintro ⟨c, v1, f1⟩ ⟨_, _⟩ ⟨rfl, rfl, h1, hq, hc, hf1⟩
    dsimp only at h1 hq hc hf1 ⊢
    refine (L.focusIndex hq hg j).bind ?_
    rintro ⟨d, v2, g1⟩ ⟨_, _⟩ ⟨rfl, rfl, h2, hq, hd, hg1⟩
    dsimp only at h2 hq hd hg1 ⊢
    rw [← h1, ← h2]
    refine (L.swapCells hq hc hd).bind ?_
    rintro v3 _ ⟨rfl, hq3⟩
    exact .ok ⟨rfl, ⟨rfl, hq3⟩, hf1, hg1⟩
  drop := by
    rintro v _ f ⟨rfl, hq⟩ hf
    refine SimM.toSim ?_
    exact L.drop hq hf fun v' h hq => .ok ⟨h, hq⟩

theorem dual (L : Foci Q V P F) (L' : Foci Q' V' P' F) (cmp : Nat → Nat → Ordering) :
    (ASortFocus.dual cmp).Like (SortFocus.dual cmp) (fun s t => (s.1.erase = t.1 ∧ Q s.1) ∧ s.2.erase = t.2 ∧ Q' s.2)
      (fun f => V f.1 ∧ V' f.2) F where
  len := rfl
  check := rfl
  splitAt := by
    rintro ⟨v, w⟩ ⟨_, _⟩ ⟨f, g⟩ k ⟨⟨rfl, hq⟩, rfl, hq'⟩ ⟨hf, hg⟩
    refine SimM.toSim ?_
    refine (L.focusSplit hq hf k).bind ?_
    rintro ⟨v', r⟩ b ⟨rfl, h1, hq, h2, h3⟩
    refine (L'.focusSplit hq' hg k).bind ?_
    rintro ⟨w', r'⟩ b' ⟨rfl, h1', hq', h2', h3'⟩
    exact .ok ⟨rfl, ⟨⟨h1, hq⟩, h1', hq'⟩, ⟨h2, h2'⟩, ⟨h3, h3'⟩⟩
  compare := by
    rintro ⟨v, w⟩ ⟨_, _⟩ ⟨f, f'⟩ ⟨g, g'⟩ i j ⟨⟨rfl, hq⟩, rfl, hq'⟩ ⟨hf, hf'⟩ ⟨hg, hg'⟩
    refine SimM.toSim ?_
    refine (L.focusIndex hq hf i).bind ?_
    rintro ⟨c, v1, f1⟩ ⟨_, _⟩ ⟨rfl, rfl, h1, hq, hc, hf1⟩
    dsimp only at h1 hq hc hf1 ⊢
    refine (L.focusIndex hq hg j).bind ?_
    rintro ⟨d, v2, g1⟩ ⟨_, _⟩ ⟨rfl, rfl, h2, hq, hd, hg1⟩
    dsimp only at h2 hq hd hg1 ⊢
    rw [h2, h1]
    refine .lift fun x _ => .lift fun y _ => .ok ⟨rfl, ⟨⟨by rw [h2, h1], hq⟩, rfl, hq'⟩, ⟨hf1, hf'⟩, ⟨hg1, hg'⟩⟩
  swap := by
    rintro ⟨v, w⟩ ⟨_, _⟩ ⟨f, f'⟩ ⟨g, g'⟩ i j ⟨⟨rfl, hq⟩, rfl, hq'⟩ ⟨hf, hf'⟩ ⟨hg, hg'⟩
    refine SimM.toSim ?_
    refine (L.focusIndex hq hf i).bind ?_
    rintro ⟨c, v1, f1⟩ ⟨_, _⟩ ⟨rfl, rfl, h1, hq, hc, hf1⟩
    dsimp only at h1 hq hc hf1 ⊢
    refine (L.focusIndex hq hg j).bind ?_
    rintro ⟨d, v2, g1⟩ ⟨_, _⟩ ⟨rfl, rfl, h2, hq, hd, hg1⟩
    dsimp only at h2 hq hd hg1 ⊢
    rw [← h1, ← h2]
    refine (L.swapCells hq hc hd).bind ?_
    rintro v3 _ ⟨rfl, hq3⟩
    refine (L'.focusIndex hq' hf' i).bind ?_
    rintro ⟨c, w1, f2⟩ ⟨_, _⟩ ⟨rfl, rfl, h1', hq', hc', hf2⟩
    dsimp only at h1' hq' hc' hf2 ⊢
    refine (L'.focusIndex hq' hg' j).bind ?_
    rintro ⟨d, w2, g2⟩ ⟨_, _⟩ ⟨rfl, rfl, h2', hq', hd', hg2⟩
    dsimp only at h2' hq' hd' hg2 ⊢
    rw [← h1', ← h2']
    refine (L'.swapCells hq' hc' hd').bind ?_
    rintro w3 _ ⟨rfl, hq4⟩
    exact .ok ⟨rfl, ⟨⟨rfl, hq3⟩, rfl, hq4⟩, ⟨hf1, hf2⟩, ⟨hg1, hg2⟩⟩
  drop := by
    rintro ⟨v, w⟩ ⟨_, _⟩ ⟨f, g⟩ ⟨⟨rfl, hq⟩, rfl, hq'⟩ ⟨hf, hg⟩
    refine SimM.toSim ?_
    refine L.drop hq hf fun v' h hq => ?_
    exact L'.drop hq' hg fun w' h' hq' => .ok ⟨⟨h, hq⟩, h', hq'⟩

/-- The foci of a range. -/
theorem window (L : Foci Q V P F) {v : AVec} (hq : Q v) (hw : ∀ f, v.erase.cells.focusMut = .ok f → V f) (lo hi : Nat) :
    SimM F (fun r b => r.2.2.2 = b ∧ r.1.erase = v.erase ∧ Q r.1 ∧ v.erase.cells.focusMut = .ok r.2.1 ∧ V r.2.2.1 ∧ V b)
      (v.window lo hi) (v.erase.window lo hi) := by
  unfold AVec.window RVec.window
  refine .lift fun whole e => ?_
  refine (L.focusSplit hq (hw _ e) hi).bind ?_
  rintro ⟨v1, a1, a2⟩ _ ⟨rfl, h1, hq, va1, va2⟩
  dsimp only at h1 hq va1 va2 ⊢
  refine L.drop hq va2 fun v2 h2 hq => ?_
  refine (L.focusSplit hq va1 lo).bind ?_
  rintro ⟨v3, b1, b2⟩ _ ⟨rfl, h3, hq, vb1, vb2⟩
  dsimp only at h3 hq vb1 vb2 ⊢
  refine L.drop hq vb1 fun v4 h4 hq => ?_
  exact .ok ⟨rfl, by rw [h4, h3, h2, h1], hq, e, va1, vb2⟩

theorem reverseLoop (L : Foci Q V P F) (k : Nat) : ∀ (n i : Nat) {v : AVec} {f g : FMut Cell}, Q v → V f → V g →
    SimM F (fun r u => r.1.erase = u ∧ Q r.1 ∧ V r.2.1 ∧ V r.2.2) (AVec.reverseLoop k n i v f g) (RVec.reverseLoop k n i v.erase f g)
  | 0, i, v, f, g, hq, hf, hg => .ok ⟨rfl, hq, hf, hg⟩
  | n + 1, i, v, f, g, hq, hf, hg => by
    rw [AVec.reverseLoop, RVec.reverseLoop]
    refine (L.focusIndex hq hf i).bind ?_
    rintro ⟨c, v1, f1⟩ ⟨_, _⟩ ⟨rfl, rfl, h1, hq, hc, hf1⟩
    dsimp only at h1 hq hc hf1 ⊢
    refine .lift fun k1 _ => .lift fun k2 _ => ?_
    refine (L.focusIndex hq hg k2).bind ?_
    rintro ⟨d, v2, g1⟩ ⟨_, _⟩ ⟨rfl, rfl, h2, hq, hd, hg1⟩
    dsimp only at h2 hq hd hg1 ⊢
    rw [← h1, ← h2]
    refine (L.swapCells hq hc hd).bind ?_
    rintro v3 _ ⟨rfl, hq3⟩
    exact reverseLoop L k n _ hq3 hf1 hg1

/-- The end of the foci of a range. -/
theorem dropWindow (L : Foci Q V P F) {E : AVec → Prop} {v : AVec} {whole f2 f3 : FMut Cell} (hq : Q v) (h2 : V f2) (h3 : V f3)
    (he : Closes Q E F whole) : SimM F (fun v' u => v'.erase = u ∧ E v') (v.dropWindow (whole, f2, f3)) (.ok v.erase) := by
  have hd : v.dropWindow (whole, f2, f3) =
      (v.dropBorrowed f3.pathNodes >>= fun v => v.dropBorrowed f2.pathNodes >>= fun v => v.dropBorrowed whole.rootedNodes) := rfl
  rw [hd]
  refine L.drop hq h3 fun v1 e1 hq => ?_
  refine L.drop hq h2 fun v2 e2 hq => ?_
  constructor
  · intro v3 e
    exact ⟨_, rfl, (AVec.dropBorrowed_erase _ e).trans (e2.trans e1), (he v2 hq).2 _ e⟩
  · intro hF b e
    cases e
    obtain ⟨v3, e3⟩ := (he v2 hq).1 hF
    exact ⟨v3, e3, (AVec.dropBorrowed_erase _ e3).trans (e2.trans e1), (he v2 hq).2 _ e3⟩

end Foci

namespace AVec

theorem sortRangeBy_sim {Q E : AVec → Prop} {V : FMut Cell → Prop} {P : Cell → Prop} {F : Prop} (L : Foci Q V P F) {v : AVec}
    (hq : Q v) (hw : ∀ f, v.erase.cells.focusMut = .ok f → V f ∧ Closes Q E F f)
    (cmp : Nat → Nat → Ordering) (sb eb : Bound) (next : ρ → Nat × ρ) (rng : ρ) :
    SimM F (fun v' u => v'.erase = u ∧ E v') (v.sortRangeBy cmp sb eb next rng) (v.erase.sortRangeBy cmp sb eb next rng) := by
  unfold sortRangeBy RVec.sortRangeBy
  refine .lift fun start _ => .lift fun stop _ => ?_
  refine (L.window hq (fun f e => (hw f e).1) start stop).bind ?_
  rintro ⟨v1, whole, f2, f3⟩ _ ⟨rfl, h1, hq, h2, h3, h4⟩
  dsimp only at h1 hq h2 h3 h4 ⊢
  refine SimM.bind (SimM.ofSim ((L.single cmp).sort next (f3.len + 1) (s := v1) (t := v.erase) (rng := rng) ⟨h1, hq⟩ h4)) ?_
  rintro ⟨r, v2⟩ ⟨u, _⟩ ⟨rfl, h5, h6⟩
  dsimp only at h5 h6 ⊢
  subst h5
  exact L.dropWindow h6 h3 h4 (hw _ h2).2

theorem reverseRange_sim {Q E : AVec → Prop} {V : FMut Cell → Prop} {P : Cell → Prop} {F : Prop} (L : Foci Q V P F) {v : AVec}
    (hq : Q v) (hw : ∀ f, v.erase.cells.focusMut = .ok f → V f ∧ Closes Q E F f) (sb eb : Bound) :
    SimM F (fun v' u => v'.erase = u ∧ E v') (v.reverseRange sb eb) (v.erase.reverseRange sb eb) := by
  unfold reverseRange RVec.reverseRange
  refine .lift fun start _ => .lift fun stop _ => ?_
  refine (L.window hq (fun f e => (hw f e).1) start stop).bind ?_
  rintro ⟨v1, whole, f2, f3⟩ _ ⟨rfl, h1, hq, h2, h3, h4⟩
  dsimp only at h1 hq h2 h3 h4 ⊢
  rw [← h1]
  refine (L.focusSplit hq h4 _).bind ?_
  rintro ⟨v2, a, b⟩ _ ⟨rfl, h5, hq, h6, h7⟩
  dsimp only at h5 hq h6 h7 ⊢
  rw [← h5]
  refine (L.reverseLoop _ _ _ hq h6 h7).tail ?_
  rintro ⟨v3, a, b⟩ _ ⟨rfl, hq, h6, h7⟩
  dsimp only at hq h6 h7 ⊢
  refine L.drop hq h7 fun v4 e4 hq => L.drop hq h6 fun v5 e5 hq => ?_
  rw [← e4, ← e5]
  exact L.dropWindow hq h3 h4 (hw _ h2).2

theorem dualSortRangeBy_sim {Q E Q' E' : AVec → Prop} {V V' : FMut Cell → Prop} {P P' : Cell → Prop} {F : Prop} (L : Foci Q V P F)
    (L' : Foci Q' V' P' F) {v w : AVec} (hq : Q v) (hw : ∀ f, v.erase.cells.focusMut = .ok f → V f ∧ Closes Q E F f)
    (hq' : Q' w) (hw' : ∀ f, w.erase.cells.focusMut = .ok f → V' f ∧ Closes Q' E' F f)
    (cmp : Nat → Nat → Ordering) (sb eb : Bound) (next : ρ → Nat × ρ) (rng : ρ) :
    SimM F (fun r u => (r.1.erase = u.1 ∧ E r.1) ∧ r.2.erase = u.2 ∧ E' r.2) (v.dualSortRangeBy w cmp sb eb next rng)
      (v.erase.dualSortRangeBy w.erase cmp sb eb next rng) := by
  unfold dualSortRangeBy RVec.dualSortRangeBy
  refine .lift fun start _ => .lift fun stop _ => ?_
  refine (L.window hq (fun f e => (hw f e).1) start stop).bind ?_
  rintro ⟨v1, whole, f2, f3⟩ _ ⟨rfl, h1, hq, h2, h3, h4⟩
  dsimp only at h1 hq h2 h3 h4 ⊢
  refine (L'.window hq' (fun f e => (hw' f e).1) start stop).bind ?_
  rintro ⟨w1, whole', g2, g3⟩ _ ⟨rfl, k1, hq', k2, k3, k4⟩
  dsimp only at k1 hq' k2 k3 k4 ⊢
  refine SimM.bind (SimM.ofSim ((L.dual L' cmp).sort next (f3.len + 1) (s := (v1, w1)) (t := (v.erase, w.erase)) (rng := rng) (f := (f3, g3))
    ⟨⟨h1, hq⟩, k1, hq'⟩ ⟨h4, k4⟩)) ?_
  rintro ⟨r, v2, w2⟩ ⟨⟨_, _⟩, _⟩ ⟨rfl, ⟨rfl, h6⟩, rfl, k6⟩
  dsimp only at h6 k6 ⊢
  have hd := L'.dropWindow k6 k3 k4 (hw' _ k2).2
  refine SimM.skip (fun hF => ?_) fun w3 e3 => ?_
  · obtain ⟨w3, e3, -⟩ := hd.2 hF _ rfl
    exact ⟨w3, e3⟩
  obtain ⟨_, ew, e3, e4⟩ := hd.1 _ e3
  cases ew
  refine (L.dropWindow h6 h3 h4 (hw _ h2).2).bind (g := fun u => .ok (u, w2.erase)) ?_
  rintro v3 _ ⟨rfl, h7⟩
  exact .ok ⟨⟨rfl, h7⟩, e3, e4⟩

theorem sortRangeBy_erase (v : AVec) (cmp : Nat → Nat → Ordering) (sb eb : Bound) (next : ρ → Nat × ρ) (rng : ρ) :
    Refines erase (v.sortRangeBy cmp sb eb next rng) (v.erase.sortRangeBy cmp sb eb next rng) := by
  intro v' e
  obtain ⟨u, e1, rfl, -⟩ := (sortRangeBy_sim .all (v := v) trivial (fun _ _ => ⟨trivial, .all _⟩) cmp sb eb next rng).1 _ e
  exact e1

theorem reverseRange_erase (v : AVec) (sb eb : Bound) : Refines erase (v.reverseRange sb eb) (v.erase.reverseRange sb eb) := by
  intro v' e
  obtain ⟨u, e1, rfl, -⟩ := (reverseRange_sim .all (v := v) trivial (fun _ _ => ⟨trivial, .all _⟩) sb eb).1 _ e
  exact e1

theorem dualSortRangeBy_erase (v w : AVec) (cmp : Nat → Nat → Ordering) (sb eb : Bound) (next : ρ → Nat × ρ) (rng : ρ) :
    Refines (fun r => (r.1.erase, r.2.erase)) (v.dualSortRangeBy w cmp sb eb next rng) (v.erase.dualSortRangeBy w.erase cmp sb eb next rng) := by
  intro r e
  obtain ⟨⟨_, _⟩, e1, ⟨rfl, -⟩, rfl, -⟩ := (dualSortRangeBy_sim .all .all (v := v) (w := w) trivial (fun _ _ => ⟨trivial, .all _⟩) trivial
    (fun _ _ => ⟨trivial, .all _⟩) cmp sb eb next rng).1 _ e
  exact e1

end AVec
end Librrb
