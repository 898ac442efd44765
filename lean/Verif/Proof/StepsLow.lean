import Verif.Proof.StepsVec
import Mathlib.Combinatorics.Pigeonhole
import Mathlib.Data.Finset.Prod

/-!
# How many steps a call takes in the heap: what a cut takes at least

`debug_check_invariants` walks over all nodes below the node that is cut, so that a cut at the position `i` of a node takes at
least `i / 64` steps.
-/
namespace Librrb

open RingOk (bind_inv unwrap_inv)

variable {Z : Zone} {K L N K' : Nat}

theorem steps_ok {x : HM α γ} {k : γ → HM α δ} {h h1 : Heap α} {g : γ} (e : x h = .ok (g, h1)) :
    (x >>= k).steps h = x.steps h + (k g).steps h1 := by
  rw [HM.steps_bind, e]

theorem steps_bind_le (x : HM α γ) (k : γ → HM α δ) (h : Heap α) : x.steps h ≤ (x >>= k).steps h := by
  rw [HM.steps_bind]; omega

theorem lift_inv {x : M γ} {h h' : Heap α} {g : γ} (e : (liftM x : HM α γ) h = .ok (g, h')) : x = .ok g ∧ h' = h := by
  cases x with
  | error f => cases e
  | ok a => cases e; exact ⟨rfl, rfl⟩

namespace Entry

theorem debugCheckLoop_low {check : Addr → Nat → Nat → HM α Unit} (s : SizeTable) {c : CB Addr} (hc : RingOk Z.has c) (lv : Nat)
    {h : Heap α} (hs : ∀ a n l, Still (check a n l))
    (hk : ∀ a n l u h', Z.has a → check a n l h = .ok (u, h') → n ≤ 64 * (check a n l).steps h) :
    ∀ (fuel : Nat) (it : CB.Iter) (st : Nat × Nat) {r : Nat × Nat} {h' : Heap α},
      debugCheckLoop check s c lv fuel it st h = .ok (r, h') →
        r.2 ≤ st.2 + 64 * (debugCheckLoop check s c lv fuel it st).steps h
  | 0, _, _, _, _, e => by cases e
  | fuel + 1, it, st, r, h', e => by
    unfold debugCheckLoop at e ⊢
    obtain ⟨⟨o, it'⟩, h1, e1, e2⟩ := hm_bind_inv e
    rw [steps_ok e1]
    obtain ⟨en, rfl⟩ := lift_inv e1
    cases o with
    | none => cases e2; simp
    | some k =>
      have hz : Z.has k := by
        unfold CB.Iter.next at en
        split at en
        · cases en
        · obtain ⟨x, e3, e4⟩ := bind_inv en
          cases e4
          exact hc.mem _ (RingOk.readSlot_mem e3)
      dsimp only at e2 ⊢
      obtain ⟨o, h2, e3, e4⟩ := hm_bind_inv e2
      rw [steps_ok e3]
      obtain ⟨-, rfl⟩ := lift_inv e3
      obtain ⟨n, h3, e5, e6⟩ := hm_bind_inv e4
      rw [steps_ok e5]
      obtain ⟨-, rfl⟩ := lift_inv e5
      obtain ⟨l, h4, e7, e8⟩ := hm_bind_inv e6
      rw [steps_ok e7]
      obtain ⟨-, rfl⟩ := lift_inv e7
      obtain ⟨u, h5, e9, e10⟩ := hm_bind_inv e8
      rw [steps_ok e9]
      have h6 := hk _ _ _ _ _ hz e9
      cases (hs _ _ _).run _ _ _ e9
      have := debugCheckLoop_low s hc lv hs hk fuel _ _ e10
      dsimp only at this
      omega

theorem debugCheckAux_low : ∀ (fuel : Nat) {a : Addr} (n l : Nat) {h h' : Heap α} {u : Unit}, Tame Z K h → Z.has a →
    debugCheckAux fuel a n l h = .ok (u, h') → n ≤ 64 * (debugCheckAux fuel a n l : HM α Unit).steps h
  | 0, _, _, _, _, _, _, _, _, e => by cases e
  | fuel + 1, a, n, l, h, h', u, t, ha, e => by
    unfold debugCheckAux at e ⊢
    obtain ⟨b, h1, e1, e2⟩ := hm_bind_inv e
    rw [steps_ok e1]
    have hl : (load a : HM α _).steps h = 1 := by
      obtain ⟨-, c, hc, -⟩ := load_inv e1
      simp [load, HM.steps, hc]
    obtain ⟨-, -, hb⟩ := (load_cost (Z := Z) (K := K) ha).run _ _ _ t e1
    cases (load_still a).run _ _ _ e1
    cases b with
    | leaf b =>
      dsimp only at e2 ⊢
      obtain ⟨u', h2, e3, e4⟩ := hm_bind_inv e2
      have := HVec.massert_inv (lift_inv e3).1
      simp only [beq_iff_eq] at this
      have hw : b.len ≤ 64 := RingOk.len hb
      omega
    | internal s tg c =>
      dsimp only at e2 ⊢
      obtain ⟨u1, h2, e3, e4⟩ := hm_bind_inv e2
      rw [steps_ok e3]
      obtain ⟨-, rfl⟩ := lift_inv e3
      obtain ⟨u2, h3, e5, e6⟩ := hm_bind_inv e4
      rw [steps_ok e5]
      obtain ⟨-, rfl⟩ := lift_inv e5
      obtain ⟨r, h4, e7, e8⟩ := hm_bind_inv e6
      rw [steps_ok e7]
      have := debugCheckLoop_low s (Z := Z) hb.2 l (debugCheckAux_still fuel)
        (fun a n l u h' ha e => debugCheckAux_low fuel n l t ha e) _ _ _ e7
      have h9 := HVec.massert_inv (lift_inv e8).1
      simp only [beq_iff_eq] at h9
      dsimp only at this
      omega

theorem debugCheck_low {a : Addr} (n l : Nat) {h h' : Heap α} {u : Unit} (t : Tame Z K h) (ha : Z.has a)
    (e : debugCheck a n l h = .ok (u, h')) : n ≤ 64 * (debugCheck a n l : HM α Unit).steps h := by
  unfold debugCheck at e ⊢
  obtain ⟨m, h1, e1, e2⟩ := hm_bind_inv e
  rw [steps_ok e1]
  cases (level_still a).run _ _ _ e1
  have := debugCheckAux_low _ n l t ha e2
  omega

/-- The parts into which a node is cut; see `splitAtPositionAux`. -/
theorem splitAtPositionAux_low (fuel : Nat) {a : Addr} (i : Nat) {h h' : Heap α} {r : Addr × Addr} (t : Tame Z K h) (ha : Z.has a)
    (e : splitAtPositionAux fuel a i h = .ok (r, h')) : i ≤ 64 * (splitAtPositionAux fuel a i : HM α _).steps h := by
  cases fuel with
  | zero => cases e
  | succ fuel =>
    unfold splitAtPositionAux at e ⊢
    obtain ⟨b, h1, e1, e2⟩ := hm_bind_inv e
    obtain ⟨t1, -, hb⟩ := (borrow_cost ha).run _ _ _ t e1
    rw [steps_ok e1]
    obtain ⟨b1, b2⟩ := b
    have h1s : 1 ≤ (borrow a : HM α _).steps h := by
      have h1 : 1 ≤ (isOne a : HM α _).steps h := by
        unfold isOne HM.steps
        cases h.cell a <;> simp
      have h2 : (isOne a : HM α _).steps h ≤ (loadMut a : HM α _).steps h := steps_bind_le _ _ h
      have h3 : (loadMut a : HM α _).steps h ≤ (borrow a : HM α _).steps h := steps_bind_le _ _ h
      omega
    cases b2 with
    | leaf l =>
      dsimp only at e2
      obtain ⟨q, h2, e3, e4⟩ := hm_bind_inv e2
      obtain ⟨e5, -⟩ := lift_inv e3
      have : i ≤ l.len := by
        unfold Body.splitAtChild at e5
        dsimp only at e5
        split at e5
        · assumption
        · cases e5
      have hw : l.len ≤ 64 := RingOk.len hb.2
      omega
    | internal s tg c =>
      dsimp only at e2 ⊢
      obtain ⟨n, h2, e3, e4⟩ := hm_bind_inv e2
      rw [steps_ok e3]
      obtain ⟨-, rfl⟩ := lift_inv e3
      obtain ⟨u, h3, e5, e6⟩ := hm_bind_inv e4
      rw [steps_ok e5]
      obtain ⟨-, rfl⟩ := lift_inv e5
      obtain ⟨o, h4, e7, e8⟩ := hm_bind_inv e6
      rw [steps_ok e7]
      obtain ⟨-, rfl⟩ := lift_inv e7
      obtain ⟨p, h5, e9, e10⟩ := hm_bind_inv e8
      rw [steps_ok e9]
      obtain ⟨-, rfl⟩ := lift_inv e9
      obtain ⟨q, h6, e11, e12⟩ := hm_bind_inv e10
      rw [steps_ok e11]
      obtain ⟨es, rfl⟩ := lift_inv e11
      obtain ⟨g1, g2⟩ := hb.2.splitAtChild es
      obtain ⟨w, h7, e13, e14⟩ := hm_bind_inv e12
      rw [steps_ok e13]
      obtain ⟨ep, rfl⟩ := lift_inv e13
      obtain ⟨g3, g4, -⟩ := g2.popChild ep
      obtain ⟨m, h8, e15, e16⟩ := hm_bind_inv e14
      rw [steps_ok e15]
      cases (len_still _).run _ _ _ e15
      obtain ⟨fin, h9, e17, e18⟩ := hm_bind_inv e16
      rw [steps_ok e17]
      have hfin : Tame Z K h9 ∧ Z.has fin.1 := by
        refine (fun (hx : Cost Z K (2 * fuel + 1) _ K fun r => Z.has r.1 ∧ Z.has r.2) =>
          ⟨(hx.run _ _ _ t1 e17).1, (hx.run _ _ _ t1 e17).2.2.1⟩) ?_
        split
        · reading
          refine Cost.lift fun b e => ?_
          refine Cost.bind (giveBack_cost g1) (by omega) fun _ _ => ?_
          refine Cost.bind (alloc_cost (g4.pushChild g3 e)) (by omega) fun n hn => ?_
          exact Cost.pure (Nat.le_refl _) ⟨hb.1, hn⟩
        · split
          · reading
            refine Cost.lift fun b e => ?_
            refine Cost.bind (giveBack_cost (g1.pushChild g3 e)) (by omega) fun _ _ => ?_
            refine Cost.bind (alloc_cost g4) (by omega) fun n hn => ?_
            exact Cost.pure (Nat.le_refl _) ⟨hb.1, hn⟩
          · refine Cost.bind (splitAtPositionAux_cost fuel _ g3) (by omega) fun u hu => ?_
            reading
            refine Cost.lift fun b e => ?_
            reading
            refine Cost.lift fun b' e' => ?_
            refine Cost.bind (giveBack_cost (g1.pushChild hu.1 e)) (by omega) fun _ _ => ?_
            refine Cost.bind (alloc_cost (g4.pushChild hu.2 e')) (by omega) fun n hn => ?_
            exact Cost.pure (Nat.le_refl _) ⟨hb.1, hn⟩
      obtain ⟨l1, h10, e19, e20⟩ := hm_bind_inv e18
      rw [steps_ok e19]
      cases (level_still _).run _ _ _ e19
      obtain ⟨u2, h11, e21, e22⟩ := hm_bind_inv e20
      rw [steps_ok e21]
      have := debugCheck_low i l1 hfin.1 hfin.2 e21
      omega

theorem splitAtPosition_low {a : Addr} (i : Nat) {h h' : Heap α} {r : Addr × Addr} (t : Tame Z K h) (ha : Z.has a)
    (e : splitAtPosition a i h = .ok (r, h')) : i ≤ 64 * (splitAtPosition a i : HM α _).steps h := by
  unfold splitAtPosition at e ⊢
  obtain ⟨m, h1, e1, e2⟩ := hm_bind_inv e
  rw [steps_ok e1]
  cases (level_still a).run _ _ _ e1
  have := splitAtPositionAux_low _ i t ha e2
  omega

end Entry

namespace HVec

theorem usub_eq {a b d : Nat} (e : usub a b = .ok d) : a = d + b := by
  unfold usub at e
  split at e
  · cases e; omega
  · cases e

theorem findLoop_from {h : Heap α} {k : Nat} : ∀ (ls rs : List Addr) (i f b : Nat) {r : Option (Side × Nat) × Nat} {h1 : Heap α},
    findLoop k ls rs i f b h = .ok (r, h1) → ∀ s j, r.1 = some (s, j) → i ≤ j
  | [], rs, i, f, b, r, h1, e, s, j, ej => by
    unfold findLoop at e
    obtain ⟨u, h2, e1, e2⟩ := hm_bind_inv e
    obtain ⟨d, h3, e3, e4⟩ := hm_bind_inv e2
    cases e4; cases ej
  | l :: ls, [], i, f, b, r, h1, e, s, j, ej => by
    unfold findLoop at e
    obtain ⟨u, h2, e1, e2⟩ := hm_bind_inv e
    obtain ⟨d, h3, e3, e4⟩ := hm_bind_inv e2
    cases e4; cases ej
  | l :: ls, x :: rs, i, f, b, r, h1, e, s, j, ej => by
    unfold findLoop at e
    obtain ⟨n, h2, e1, e2⟩ := hm_bind_inv e
    cases (Entry.len_still l).run _ _ _ e1
    split at e2
    · obtain ⟨d, h3, e3, e4⟩ := hm_bind_inv e2
      cases e4; cases ej; exact Nat.le_refl _
    · obtain ⟨m, h3, e3, e4⟩ := hm_bind_inv e2
      cases (Entry.len_still x).run _ _ _ e3
      obtain ⟨b', h4, e5, e6⟩ := hm_bind_inv e4
      obtain ⟨-, rfl⟩ := lift_inv e5
      split at e6
      · obtain ⟨d, h5, e7, e8⟩ := hm_bind_inv e6
        cases e8; cases ej; exact Nat.le_refl _
      · have := findLoop_from ls rs _ _ _ e6 s j ej
        omega

theorem findLoop_inj {h : Heap α} {k k' : Nat} : ∀ (ls rs : List Addr) (i f b : Nat) {r : Option (Side × Nat) × Nat} {h1 h2 : Heap α},
    findLoop k ls rs i f b h = .ok (r, h1) → findLoop k' ls rs i f b h = .ok (r, h2) → k = k' := by
  have root : ∀ {f b : Nat} {r : Option (Side × Nat) × Nat} {h1 h2 : Heap α},
      (do massert (decide (k ≥ f) && decide (k < b))
          let d ← usub k f
          pure (none, d) : HM α (Option (Side × Nat) × Nat)) h = .ok (r, h1) →
      (do massert (decide (k' ≥ f) && decide (k' < b))
          let d ← usub k' f
          pure (none, d) : HM α (Option (Side × Nat) × Nat)) h = .ok (r, h2) → k = k' := by
    intro f b r h1 h2 e e'
    obtain ⟨u, g2, e1, e2⟩ := hm_bind_inv e
    obtain ⟨d, g3, e3, e4⟩ := hm_bind_inv e2
    obtain ⟨u', g2', e1', e2'⟩ := hm_bind_inv e'
    obtain ⟨d', g3', e3', e4'⟩ := hm_bind_inv e2'
    cases e4; cases e4'
    rw [usub_eq (lift_inv e3).1, usub_eq (lift_inv e3').1]
  intro ls
  induction ls with
  | nil => intro rs i f b r h1 h2 e e'; unfold findLoop at e e'; exact root e e'
  | cons l ls ih =>
    intro rs
    cases rs with
    | nil => intro i f b r h1 h2 e e'; unfold findLoop at e e'; exact root e e'
    | cons x rs =>
      intro i f b r h1 h2 e e'
      unfold findLoop at e e'
      obtain ⟨n, g1, e1, e2⟩ := hm_bind_inv e
      obtain ⟨n', g1', e1', e2'⟩ := hm_bind_inv e'
      cases (Entry.len_still l).run _ _ _ e1
      cases e1.symm.trans e1'
      split at e2
      next hk =>
        obtain ⟨d, g2, e3, e4⟩ := hm_bind_inv e2
        cases e4
        split at e2'
        next hk' =>
          obtain ⟨d', g2', e3', e4'⟩ := hm_bind_inv e2'
          cases e4'
          rw [usub_eq (lift_inv e3).1, usub_eq (lift_inv e3').1]
        next hk' =>
          obtain ⟨m, g3, e5, e6⟩ := hm_bind_inv e2'
          cases (Entry.len_still x).run _ _ _ e5
          obtain ⟨b', g4, e7, e8⟩ := hm_bind_inv e6
          obtain ⟨-, rfl⟩ := lift_inv e7
          split at e8
          · obtain ⟨d', g2', e3', e4'⟩ := hm_bind_inv e8
            cases e4'
          · have := findLoop_from _ _ _ _ _ e8 _ _ rfl
            omega
      next hk =>
        obtain ⟨m, g3, e5, e6⟩ := hm_bind_inv e2
        cases (Entry.len_still x).run _ _ _ e5
        obtain ⟨b1, g4, e7, e8⟩ := hm_bind_inv e6
        obtain ⟨eb, rfl⟩ := lift_inv e7
        split at e2'
        next hk' =>
          obtain ⟨d', g2', e3', e4'⟩ := hm_bind_inv e2'
          cases e4'
          split at e8
          · obtain ⟨d', g2', e3', e4'⟩ := hm_bind_inv e8
            cases e4'
          · have := findLoop_from _ _ _ _ _ e8 _ _ rfl
            omega
        next hk' =>
          obtain ⟨m', g3', e5', e6'⟩ := hm_bind_inv e2'
          cases e5.symm.trans e5'
          obtain ⟨b1', g4', e7', e8'⟩ := hm_bind_inv e6'
          obtain ⟨eb', rfl⟩ := lift_inv e7'
          cases eb.symm.trans eb'
          split at e8
          · obtain ⟨d, g2, e3, e4⟩ := hm_bind_inv e8
            cases e4
            split at e8'
            · obtain ⟨d', g2', e3', e4'⟩ := hm_bind_inv e8'
              cases e4'
              rw [usub_eq (lift_inv e3).1, usub_eq (lift_inv e3').1]
            · have := findLoop_from _ _ _ _ _ e8' _ _ rfl
              omega
          · split at e8'
            · obtain ⟨d', g2', e3', e4'⟩ := hm_bind_inv e8'
              cases e4'
              have := findLoop_from _ _ _ _ _ e8 _ _ rfl
              omega
            · exact ih _ _ _ _ e8 e8'

/-- The number of a node of a vector. -/
def place (n : Nat) : Option (Side × Nat) → Nat
  | some (.front, j) => 2 * j
  | some (.back, j) => 2 * j + 1
  | none => 2 * n

theorem place_inj {n : Nat} : ∀ {p q : Option (Side × Nat)}, place n p ≤ 2 * n → place n q ≤ 2 * n → place n p = place n q →
    (∀ s j, p = some (s, j) → j < n) → (∀ s j, q = some (s, j) → j < n) → p = q
  | none, none, _, _, _, _, _ => rfl
  | some (.front, i), none, _, _, e, hp, _ => by have := hp _ _ rfl; simp only [place] at e; omega
  | some (.back, i), none, _, _, e, hp, _ => by have := hp _ _ rfl; simp only [place] at e; omega
  | none, some (.front, i), _, _, e, _, hp => by have := hp _ _ rfl; simp only [place] at e; omega
  | none, some (.back, i), _, _, e, _, hp => by have := hp _ _ rfl; simp only [place] at e; omega
  | some (.front, i), some (.front, j), _, _, e, _, _ => by simp only [place] at e; rw [show i = j by omega]
  | some (.back, i), some (.back, j), _, _, e, _, _ => by simp only [place] at e; rw [show i = j by omega]
  | some (.front, i), some (.back, j), _, _, e, _, _ => by simp only [place] at e; omega
  | some (.back, i), some (.front, j), _, _, e, _, _ => by simp only [place] at e; omega

/-- A cut at `k` inside of the vector finds a node, and then takes at least a 64th of the position there. -/
theorem splitOff_low {v : HVec} (hv : VecOk Z L v) {k : Nat} {h h' : Heap α} {r : HVec × HVec} (t : Tame Z K h) (h0 : 0 < k)
    (hk : k < v.len) (e : splitOff v k h = .ok (r, h')) :
    ∃ (p : Option (Side × Nat)) (d : Nat), findLoop k v.left v.right 0 0 v.len h = .ok ((p, d), h) ∧
      (∀ s j, p = some (s, j) → j < L) ∧ d ≤ 64 * (splitOff v k : HM α _).steps h := by
  unfold splitOff at e ⊢
  rw [if_neg (by simp; omega), if_neg (by omega)] at e ⊢
  obtain ⟨o, h1, e1, e2⟩ := hm_bind_inv e
  rw [steps_ok e1]
  cases (findNodeInfoForIndex_still v k).run _ _ _ e1
  obtain ⟨⟨p, d⟩, h2, e3, e4⟩ := hm_bind_inv e2
  rw [steps_ok e3]
  obtain ⟨eo, rfl⟩ := lift_inv e3
  cases unwrap_inv eo
  have hloop : findLoop k v.left v.right 0 0 v.len h2 = .ok ((p, d), h2) := by
    unfold findNodeInfoForIndex at e1
    rw [if_neg (by omega)] at e1
    obtain ⟨q, h3, e5, e6⟩ := hm_bind_inv e1
    cases e6
    exact e5
  obtain ⟨c, h3, e5, e6⟩ := hm_bind_inv e4
  rw [steps_ok e5]
  suffices hs : (∀ s j, p = some (s, j) → j < L) ∧ d ≤ 64 * (cut v p d k : HM α _).steps h2 by
    exact ⟨p, d, hloop, hs.1, by dsimp only; omega⟩
  have h1 := hv.leftLen
  have h2' := hv.rightLen
  unfold cut at e5 ⊢
  obtain ⟨n, h4, e7, e8⟩ := hm_bind_inv e5
  rw [steps_ok e7]
  obtain ⟨-, rfl⟩ := lift_inv e7
  obtain ⟨fresh, h5, e9, e10⟩ := hm_bind_inv e8
  rw [steps_ok e9]
  obtain ⟨t1, -, -⟩ := (alloc_cost (Z := Z) (K := K) (α := α) .emptyLeaf).run _ _ _ t e9
  match p, e10 with
  | some (.front, j), e10 =>
    dsimp only at e10 ⊢
    obtain ⟨a, h6, e11, e12⟩ := hm_bind_inv e10
    rw [steps_ok e11]
    obtain ⟨ea, rfl⟩ := lift_inv e11
    have ea := unwrap_inv ea
    obtain ⟨q, h7, e13, e14⟩ := hm_bind_inv e12
    rw [steps_ok e13]
    have := Entry.splitAtPosition_low d t1 (hv.left _ (List.mem_of_getElem? ea)) e13
    have hj := (List.getElem?_eq_some_iff.1 ea).1
    exact ⟨fun s j e => by cases e; omega, by omega⟩
  | some (.back, j), e10 =>
    dsimp only at e10 ⊢
    obtain ⟨a, h6, e11, e12⟩ := hm_bind_inv e10
    rw [steps_ok e11]
    obtain ⟨ea, rfl⟩ := lift_inv e11
    have ea := unwrap_inv ea
    obtain ⟨q, h7, e13, e14⟩ := hm_bind_inv e12
    rw [steps_ok e13]
    have := Entry.splitAtPosition_low d t1 (hv.right _ (List.mem_of_getElem? ea)) e13
    have hj := (List.getElem?_eq_some_iff.1 ea).1
    exact ⟨fun s j e => by cases e; omega, by omega⟩
  | none, e10 =>
    dsimp only at e10 ⊢
    obtain ⟨q, h7, e13, e14⟩ := hm_bind_inv e10
    rw [steps_ok e13]
    have := Entry.splitAtPosition_low d t1 hv.root e13
    exact ⟨fun s j e => (by cases e), by omega⟩

/-- A cut takes a step. -/
theorem splitOff_pos {v : HVec} {k : Nat} {h h' : Heap α} {r : HVec × HVec} (e : splitOff v k h = .ok (r, h')) :
    1 ≤ (splitOff v k : HM α _).steps h := by
  have hnew : ∀ (f : HVec → HVec × HVec), 1 ≤ (do let e ← HVec.new; pure (f e) : HM α _).steps h := fun f =>
    Nat.le_trans (Nat.le_trans (by simp [alloc, HM.steps]) (steps_bind_le (alloc .emptyLeaf) _ h)) (steps_bind_le _ _ h)
  unfold splitOff at e ⊢
  split
  · exact hnew _
  · split
    · exact hnew _
    next h1 h2 =>
      rw [if_neg h1, if_neg h2] at e
      obtain ⟨o, h1, e1, e2⟩ := hm_bind_inv e
      rw [steps_ok e1]
      obtain ⟨⟨p, d⟩, h2, e3, e4⟩ := hm_bind_inv e2
      rw [steps_ok e3]
      have : 1 ≤ (cut v p d k : HM α _).steps h2 := by
        obtain ⟨c, h3, e5, e6⟩ := hm_bind_inv e4
        unfold cut at e5 ⊢
        obtain ⟨n, h4, e7, e8⟩ := hm_bind_inv e5
        rw [steps_ok e7]
        exact Nat.le_trans (Nat.le_trans (by simp [alloc, HM.steps]) (steps_bind_le _ _ h4)) (Nat.le_add_left _ _)
      exact Nat.le_trans (Nat.le_trans (Nat.le_trans this (steps_bind_le _ _ h2)) (Nat.le_add_left _ _)) (Nat.le_add_left _ _)

/-- If every cut succeeds, one of them takes many steps. -/
theorem splitOff_slow {v : HVec} (hv : VecOk Z L v) {h : Heap α} (t : Tame Z K h) {S : Nat}
    (hok : ∀ k, 0 < k → k < v.len → ∃ r h', splitOff v k h = .ok (r, h'))
    (hS : ∀ k, 0 < k → k < v.len → (splitOff v k : HM α _).steps h ≤ S) : v.len ≤ (2 * L + 1) * (64 * S + 1) + 1 := by
  have key : ∀ k, ∃ (p : Option (Side × Nat)) (d : Nat), 0 < k → k < v.len →
      findLoop k v.left v.right 0 0 v.len h = .ok ((p, d), h) ∧ (∀ s j, p = some (s, j) → j < L) ∧ d ≤ 64 * S := by
    intro k
    by_cases hk : 0 < k ∧ k < v.len
    · obtain ⟨r, h', e⟩ := hok k hk.1 hk.2
      obtain ⟨p, d, h1, h2, h3⟩ := splitOff_low hv t hk.1 hk.2 e
      exact ⟨p, d, fun _ _ => ⟨h1, h2, h3.trans (Nat.mul_le_mul_left _ (hS k hk.1 hk.2))⟩⟩
    · exact ⟨none, 0, fun h1 h2 => absurd ⟨h1, h2⟩ hk⟩
  choose p d hpd using key
  by_contra hlt
  have hle : ∀ k, 0 < k → k < v.len → place L (p k) ≤ 2 * L := by
    intro k h1 h2
    have := (hpd k h1 h2).2.1
    match hp : p k with
    | none => exact Nat.le_refl _
    | some (.front, j) => have := this _ _ hp; simp only [place]; omega
    | some (.back, j) => have := this _ _ hp; simp only [place]; omega
  have hmaps : ∀ k ∈ Finset.range (v.len - 1), (place L (p (k + 1)), d (k + 1)) ∈ Finset.range (2 * L + 1) ×ˢ Finset.range (64 * S + 1) := by
    intro k hk
    have hk := Finset.mem_range.1 hk
    have h1 := hle (k + 1) (by omega) (by omega)
    have h2 := (hpd (k + 1) (by omega) (by omega)).2.2
    simp only [Finset.mem_product, Finset.mem_range]
    omega
  obtain ⟨x, hx, y, hy, hne, he⟩ := Finset.exists_ne_map_eq_of_card_lt_of_maps_to (by
    rw [Finset.card_product, Finset.card_range, Finset.card_range, Finset.card_range]; omega) hmaps
  have hx := Finset.mem_range.1 hx
  have hy := Finset.mem_range.1 hy
  obtain ⟨a1, a2, -⟩ := hpd (x + 1) (by omega) (by omega)
  obtain ⟨b1, b2, -⟩ := hpd (y + 1) (by omega) (by omega)
  have ep := place_inj (hle _ (by omega) (by omega)) (hle _ (by omega) (by omega)) (Prod.mk.inj he).1 a2 b2
  rw [ep, (Prod.mk.inj he).2] at a1
  have := findLoop_inj _ _ _ _ _ a1 b1
  omega

end HVec
end Librrb
