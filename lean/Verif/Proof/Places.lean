import Verif.Proof.Cells

/-! # Mutable foci of reachable vectors -/
namespace Librrb
open RVec

theorem Built.place {v : RVec α} {l : List α} (b : Built v) (h : Shows v l) {i : Nat} (hi : i < l.length) :
    ∃ c, v.cells.toList[i]? = some c ∧ PlaceOf v l i c := by
  obtain ⟨k, iv⟩ := b.inv
  obtain rfl := (shows_iff iv).1 h
  obtain ⟨c, e1, e2, e3⟩ := place_ok iv hi
  refine ⟨c, e1, ⟨_, List.getElem?_eq_getElem hi, e2⟩, fun y => ?_⟩
  obtain ⟨v', e4, e5, -⟩ := e3 y
  have b' := b.set e4
  obtain ⟨k', iv'⟩ := b'.inv
  refine ⟨v', e5, b', ?_⟩
  obtain ⟨w, e6, iw, tw⟩ := set_ok iv y hi
  rw [e4] at e6
  cases e6
  exact (shows_iff iv').2 tw

/-- A write through a place of a reachable vector. -/
theorem Built.write {v : RVec α} {l : List α} (b : Built v) (h : Shows v l) {i : Nat} (hi : i < l.length)
    {c} (hc : v.cells.toList[i]? = some c) (y : α) :
    v.readCell c = .ok l[i] ∧ ∃ v', v.writeCell y c = .ok v' ∧ Built v' ∧ Shows v' (l.set i y) ∧
      v'.cells.toList = v.cells.toList := by
  obtain ⟨k, iv⟩ := b.inv
  obtain rfl := (shows_iff iv).1 h
  obtain ⟨c', e1, e2, e3⟩ := place_ok iv hi
  rw [hc] at e1
  cases e1
  refine ⟨e2, ?_⟩
  obtain ⟨v', e4, e5, e6⟩ := e3 y
  have b' := b.set e4
  obtain ⟨k', iv'⟩ := b'.inv
  obtain ⟨w, e7, iw, tw⟩ := set_ok iv y hi
  rw [e4] at e7
  cases e7
  exact ⟨v', e5, b', (shows_iff iv').2 tw, e6⟩

theorem Built.cells_nodup {v : RVec α} (b : Built v) : v.cells.toList.Nodup := by
  obtain ⟨k, iv⟩ := b.inv
  exact RVec.cells_nodup iv

theorem Built.cells_length {v : RVec α} {l : List α} (b : Built v) (h : Shows v l) :
    v.cells.toList.length = l.length := by
  obtain ⟨k, iv⟩ := b.inv
  obtain rfl := (shows_iff iv).1 h
  exact RVec.cells_length iv

theorem slice_take (l : List α) {lo hi i : Nat} (h : lo + i ≤ hi) :
    ((l.take hi).drop lo).take i = (l.take (lo + i)).drop lo := by
  rw [List.take_drop, List.take_take, Nat.min_eq_left h]

theorem slice_drop (l : List α) {lo hi i : Nat} :
    ((l.take hi).drop lo).drop i = (l.take hi).drop (lo + i) := by
  rw [List.drop_drop]

theorem slice_getElem? (l : List α) {lo hi i : Nat} :
    ((l.take hi).drop lo)[i]? = if lo + i < hi then l[lo + i]? else none := by
  rw [List.getElem?_drop, List.getElem?_take]

theorem slice_length (l : List α) {lo hi : Nat} (h : hi ≤ l.length) : ((l.take hi).drop lo).length = hi - lo := by
  simp; omega

theorem FMut.Fresh.not_stale {f : FMut κ} (h : FMut.Fresh f) (idx : Nat) :
    f.root = none → inRange f.llo f.lhi idx = false := by
  intro hr
  rcases h with h | h
  · exact absurd hr h
  · rw [inRange_false]; omega

theorem MBuilt.ok {v : RVec α} {l : List α} (b : Built v) (h : Shows v l) {tame : Prop} {f : FMut Cell} {lo hi : Nat}
    (hf : MBuilt v tame f lo hi) : lo ≤ hi ∧ hi ≤ l.length ∧ FMut.Ok f ((v.cells.toList.take hi).drop lo) ∧
      (tame → FMut.Fresh f) := by
  have hcl := b.cells_length h
  obtain ⟨k, iv⟩ := b.inv
  induction hf with
  | new e =>
    obtain ⟨f', e', ho, hfr⟩ := focusMut_ok (iv.mapAddr fun c _ => c)
    rw [show v.mapAddr (fun c _ => c) = v.cells from rfl] at e' ho
    rw [e] at e'
    cases e'
    refine ⟨Nat.zero_le _, by rw [h.1]; exact Nat.le_refl _, ?_, fun _ => hfr⟩
    rw [h.1, ← hcl]
    simpa using ho
  | get hb ht e ih =>
    rename_i f lo hi i r
    obtain ⟨h1, h2, h3, h4⟩ := ih
    have hsl := slice_length (lo := lo) v.cells.toList (hi := hi) (by omega)
    by_cases hi' : i < hi - lo
    · by_cases hst : f.root = none → inRange f.llo f.lhi i = false
      · obtain ⟨f', e', ho, hr⟩ := FMut.get_ok h3 (by omega) hst
        rw [e] at e'; cases e'
        exact ⟨h1, h2, ho, fun _ => .inl hr⟩
      · simp only [not_forall, Bool.not_eq_false] at hst
        obtain ⟨s1, s2⟩ := hst
        rw [FMut.get_stale h3 s1 s2] at e; cases e
    · obtain ⟨f', e', ho⟩ := FMut.get_out h3 (idx := i) (by omega)
      rw [e] at e'; cases e'
      exact ⟨h1, h2, ho, fun t => absurd (ht t) hi'⟩
  | splitFirst hb e ih =>
    rename_i f lo hi i r
    obtain ⟨h1, h2, h3, h4⟩ := ih
    have hsl := slice_length (lo := lo) v.cells.toList (hi := hi) (by omega)
    by_cases hi' : i ≤ hi - lo
    · obtain ⟨f1, f2, e', o1, o2, hfr⟩ := FMut.splitAt_ok h3 (index := i) (by omega)
      rw [e] at e'; cases e'
      rw [slice_take _ (by omega)] at o1
      exact ⟨by omega, by omega, o1, fun t => (hfr (h4 t)).1⟩
    · rw [FMut.splitAt_panic h3 (by omega)] at e; cases e
  | splitSecond hb e ih =>
    rename_i f lo hi i r
    obtain ⟨h1, h2, h3, h4⟩ := ih
    have hsl := slice_length (lo := lo) v.cells.toList (hi := hi) (by omega)
    by_cases hi' : i ≤ hi - lo
    · obtain ⟨f1, f2, e', o1, o2, hfr⟩ := FMut.splitAt_ok h3 (index := i) (by omega)
      rw [e] at e'; cases e'
      rw [slice_drop] at o2
      exact ⟨by omega, by omega, o2, fun t => (hfr (h4 t)).2⟩
    · rw [FMut.splitAt_panic h3 (by omega)] at e; cases e

/-- What the operation with the index counted from `lo` on does to a sequence. -/
def shiftedSpec (lo : Nat) : FOp α → List α → List α
  | .read _, l => l
  | .write i x, l => l.set (lo + i) x

/-- One operation through a focus over the positions `lo..hi`. -/
theorem FOp.run_ok {v : RVec α} {l : List α} (b : Built v) (h : Shows v l) {f : FMut Cell} {lo hi : Nat}
    (hhi : hi ≤ l.length) (hf : FMut.Ok f ((v.cells.toList.take hi).drop lo)) (o : FOp α) :
    (o.index < hi - lo → f.Fresh → ∃ v' f', o.run (v, f) = .ok (l[lo + o.index]?, (v', f')) ∧ Built v' ∧
      Shows v' (shiftedSpec lo o l) ∧ v'.cells.toList = v.cells.toList ∧
      FMut.Ok f' ((v.cells.toList.take hi).drop lo) ∧ f'.Fresh) ∧
    (hi - lo ≤ o.index → ∃ f', o.run (v, f) = .ok (none, (v, f')) ∧ FMut.Ok f' ((v.cells.toList.take hi).drop lo)) ∧
    (∀ r, o.run (v, f) = .ok r → o.index < hi - lo → ∃ f', r = (l[lo + o.index]?, (r.2.1, f')) ∧ Built r.2.1 ∧
      Shows r.2.1 (shiftedSpec lo o l) ∧ r.2.1.cells.toList = v.cells.toList ∧
      FMut.Ok f' ((v.cells.toList.take hi).drop lo)) := by
  have hcl := b.cells_length h
  have hsl := slice_length (lo := lo) v.cells.toList (hi := hi) (by omega)
  have main : o.index < hi - lo → (f.root = none → inRange f.llo f.lhi o.index = false) →
      ∃ v' f', o.run (v, f) = .ok (l[lo + o.index]?, (v', f')) ∧ Built v' ∧
      Shows v' (shiftedSpec lo o l) ∧ v'.cells.toList = v.cells.toList ∧
      FMut.Ok f' ((v.cells.toList.take hi).drop lo) ∧ f'.Fresh := by
    intro hi' hst
    obtain ⟨f', e, ho, hr⟩ := FMut.get_ok hf (idx := o.index) (by omega) hst
    have hc : v.cells.toList[lo + o.index]? = some ((v.cells.toList.take hi).drop lo)[o.index] := by
      rw [← List.getElem?_eq_getElem, slice_getElem?, if_pos (by omega)]
    cases o with
    | read i =>
      have hi' : i < hi - lo := hi'
      simp only [FOp.index] at hc e ⊢
      obtain ⟨e1, -⟩ := b.write h (i := lo + i) (by omega) hc (l[lo + i]'(by omega))
      refine ⟨v, f', ?_, b, h, rfl, ho, .inl hr⟩
      simp only [FOp.run, FOp.index, e, ok_bind, FOp.access, e1]
      rw [List.getElem?_eq_getElem (by omega)]
    | write i x =>
      have hi' : i < hi - lo := hi'
      simp only [FOp.index] at hc e ⊢
      obtain ⟨e1, v', e2, b', h', hc'⟩ := b.write h (i := lo + i) (by omega) hc x
      refine ⟨v', f', ?_, b', h', hc', ho, .inl hr⟩
      simp only [FOp.run, FOp.index, e, ok_bind, FOp.access, e1, e2]
      rw [List.getElem?_eq_getElem (by omega)]
  refine ⟨fun hi' hfr => main hi' (hfr.not_stale _), ?_, ?_⟩
  · intro hi'
    obtain ⟨f', e, ho⟩ := FMut.get_out hf (idx := o.index) (by omega)
    exact ⟨f', by simp only [FOp.run, e, ok_bind, FOp.access], ho⟩
  · intro r e hi'
    by_cases hst : f.root = none → inRange f.llo f.lhi o.index = false
    · obtain ⟨v', f', e', a1, a2, a3, a4, -⟩ := main hi' hst
      rw [e] at e'; cases e'
      exact ⟨f', rfl, a1, a2, a3, a4⟩
    · simp only [not_forall, Bool.not_eq_false] at hst
      obtain ⟨s1, s2⟩ := hst
      rw [FOp.run, FMut.get_stale hf s1 s2] at e; cases e


/-- A script of operations through one focus with indices inside of it, and one more anywhere. -/
theorem FOp.runAll_ok {lo hi : Nat} {cs : List Cell} : ∀ (ops : List (FOp α)) {v : RVec α} {l : List α} {f : FMut Cell},
    Built v → Shows v l → v.cells.toList = cs → hi ≤ l.length → FMut.Ok f ((cs.take hi).drop lo) → f.Fresh →
    (∀ o ∈ ops, o.index < hi - lo) →
    ∃ v' f', runAll FOp.run ops (v, f) = .ok ((FOp.specAll ops ((l.take hi).drop lo)).1, (v', f')) ∧ Built v' ∧
      Shows v' (l.take lo ++ (FOp.specAll ops ((l.take hi).drop lo)).2 ++ l.drop (max lo hi)) ∧
      v'.cells.toList = cs ∧ FMut.Ok f' ((cs.take hi).drop lo) ∧ f'.Fresh := by
  intro ops
  induction ops with
  | nil =>
    intro v l f b h hc hhi hf hfr _
    refine ⟨v, f, rfl, b, ?_, hc, hf, hfr⟩
    have : l.take lo ++ (l.take hi).drop lo ++ l.drop (max lo hi) = l := by
      by_cases hle : lo ≤ hi
      · rw [Nat.max_eq_right hle]
        conv => rhs; rw [← List.take_append_drop hi l, ← List.take_append_drop lo (l.take hi)]
        rw [List.take_take, Nat.min_eq_left hle]
      · rw [Nat.max_eq_left (by omega), List.drop_of_length_le (by simp; omega)]
        simp
    simpa [FOp.specAll, this] using h
  | cons o ops ih =>
    intro v l f b h hc hhi hf hfr hops
    have ho := hops o (by simp)
    subst hc
    obtain ⟨v1, f1, e1, b1, h1, c1, o1, fr1⟩ := (FOp.run_ok b h hhi hf o).1 ho hfr
    have hl1 : (shiftedSpec lo o l).length = l.length := by cases o <;> simp [shiftedSpec]
    obtain ⟨v2, f2, e2, b2, h2, c2, o2, fr2⟩ := ih b1 h1 c1 (by omega) o1 fr1 fun q hq => hops q (by simp [hq])
    have hs : ((shiftedSpec lo o l).take hi).drop lo = (o.spec ((l.take hi).drop lo)).2 ∧
        (shiftedSpec lo o l).take lo = l.take lo ∧ (shiftedSpec lo o l).drop (max lo hi) = l.drop (max lo hi) := by
      cases o with
      | read i => exact ⟨rfl, rfl, rfl⟩
      | write i x =>
        have ho : i < hi - lo := ho
        simp only [shiftedSpec, FOp.spec]
        refine ⟨?_, ?_, ?_⟩
        · rw [List.take_set, List.drop_set, if_neg (by omega)]
          congr 1
          omega
        · rw [List.take_set, List.set_eq_of_length_le (by simp; omega)]
        · rw [List.drop_set, if_pos (by omega)]
    rw [hs.1, hs.2.1, hs.2.2] at h2
    rw [hs.1] at e2
    refine ⟨v2, f2, ?_, b2, h2, c2, o2, fr2⟩
    rw [runAll, e1, ok_bind]
    simp only
    rw [e2, ok_bind]
    have : l[lo + o.index]? = (o.spec ((l.take hi).drop lo)).1 := by
      cases o <;> simp only [FOp.spec, slice_getElem?, FOp.index] <;> rw [if_pos (by simp only [FOp.index] at ho; omega)]
    rw [this]
    rfl

/-! ### Several workers -/

/-- A schedule of operations on a sequence, every worker counting from the start of its own part. -/
def flatRun (lo : ι → Nat) : List (ι × FOp α) → List α → List (Option α) × List α
  | [], l => ([], l)
  | o :: os, l => (l[lo o.1 + o.2.index]? :: (flatRun lo os (shiftedSpec (lo o.1) o.2 l)).1,
      (flatRun lo os (shiftedSpec (lo o.1) o.2 l)).2)

theorem shiftedSpec_length (lo : Nat) (o : FOp α) (l : List α) : (shiftedSpec lo o l).length = l.length := by
  cases o <;> simp [shiftedSpec]

theorem flatRun_length (lo : ι → Nat) (sched : List (ι × FOp α)) (l : List α) :
    (flatRun lo sched l).1.length = sched.length ∧ (flatRun lo sched l).2.length = l.length := by
  induction sched generalizing l with
  | nil => exact ⟨rfl, rfl⟩
  | cons o os ih =>
    have := ih (shiftedSpec (lo o.1) o.2 l)
    rw [shiftedSpec_length] at this
    simp only [flatRun, List.length_cons]
    omega

theorem runWorker_ok [DecidableEq ι] {lo hi : ι → Nat} {cs : List Cell} : ∀ (sched : List (ι × FOp α)) {v : RVec α} {l : List α}
    {F : ι → FMut Cell}, Built v → Shows v l → v.cells.toList = cs → (∀ k, hi k ≤ l.length) →
    (∀ k, FMut.Ok (F k) ((cs.take (hi k)).drop (lo k)) ∧ (F k).Fresh) →
    (∀ o ∈ sched, o.2.index < hi o.1 - lo o.1) →
    ∃ v' F', runAll FOp.runWorker sched (v, F) = .ok ((flatRun lo sched l).1, (v', F')) ∧ Built v' ∧
      Shows v' (flatRun lo sched l).2 := by
  intro sched
  induction sched with
  | nil => intro v l F b h _ _ _ _; exact ⟨v, F, rfl, b, h⟩
  | cons o os ih =>
    intro v l F b h hc hhi hF ho
    subst hc
    obtain ⟨v1, f1, e1, b1, h1, c1, o1, fr1⟩ := (FOp.run_ok b h (hhi o.1) (hF o.1).1 o.2).1 (ho o (by simp)) (hF o.1).2
    obtain ⟨v2, F2, e2, b2, h2⟩ := ih (F := fun k => if k = o.1 then f1 else F k) b1 h1 c1
      (by intro k; rw [shiftedSpec_length]; exact hhi k)
      (by
        intro k
        by_cases hk : k = o.1
        · subst hk; simp only [if_true]; exact ⟨o1, fr1⟩
        · simp only [hk, if_false]; exact hF k)
      (fun q hq => ho q (by simp [hq]))
    refine ⟨v2, F2, ?_, b2, h2⟩
    rw [runAll, FOp.runWorker]
    simp only
    rw [e1, ok_bind, ok_bind]
    simp only
    rw [e2, ok_bind]
    rfl

/-- In a schedule of workers on parts that do not overlap, what a worker sees and leaves is what it
would see and leave alone; positions outside of all parts keep their items. -/
theorem flatRun_proj [DecidableEq ι] {lo hi : ι → Nat} (hdis : ∀ j k, j ≠ k → hi j ≤ lo k ∨ hi k ≤ lo j) :
    ∀ (sched : List (ι × FOp α)) (l : List α), (∀ o ∈ sched, o.2.index < hi o.1 - lo o.1) →
    (∀ k, answersOf k sched (flatRun lo sched l).1 = (FOp.specAll (opsOf k sched) ((l.take (hi k)).drop (lo k))).1 ∧
      ((flatRun lo sched l).2.take (hi k)).drop (lo k) = (FOp.specAll (opsOf k sched) ((l.take (hi k)).drop (lo k))).2) ∧
    ∀ i, (∀ k, i < lo k ∨ hi k ≤ i) → (flatRun lo sched l).2[i]? = l[i]? := by
  intro sched
  induction sched with
  | nil => intro l _; exact ⟨fun k => ⟨rfl, rfl⟩, fun i _ => rfl⟩
  | cons o os ih =>
    intro l ho
    obtain ⟨ih1, ih2⟩ := ih (shiftedSpec (lo o.1) o.2 l) fun q hq => ho q (by simp [hq])
    obtain ⟨w, o⟩ := o
    have ho1 : o.index < hi w - lo w := ho (w, o) (by simp)
    have same : ((shiftedSpec (lo w) o l).take (hi w)).drop (lo w) = (o.spec ((l.take (hi w)).drop (lo w))).2 := by
      cases o with
      | read i => rfl
      | write i x =>
        have ho1 : i < hi w - lo w := ho1
        simp only [shiftedSpec, FOp.spec]
        rw [List.take_set, List.drop_set, if_neg (by omega)]
        congr 1; omega
    have other : ∀ k, k ≠ w → ((shiftedSpec (lo w) o l).take (hi k)).drop (lo k) = (l.take (hi k)).drop (lo k) := by
      intro k hk
      cases o with
      | read i => rfl
      | write i x =>
        have ho1 : i < hi w - lo w := ho1
        simp only [shiftedSpec]
        apply List.ext_getElem?
        intro j
        rw [slice_getElem?, slice_getElem?]
        by_cases hj : lo k + j < hi k
        · rw [if_pos hj, if_pos hj, List.getElem?_set_ne]
          rcases hdis k w hk with h | h <;> omega
        · rw [if_neg hj, if_neg hj]
    refine ⟨fun k => ?_, fun i hi' => ?_⟩
    · obtain ⟨a1, a2⟩ := ih1 k
      by_cases hk : k = w
      · subst hk
        rw [same] at a1 a2
        have hl : l[lo k + o.index]? = (o.spec ((l.take (hi k)).drop (lo k))).1 := by
          cases o <;> simp only [FOp.spec, slice_getElem?, FOp.index] <;> rw [if_pos (by simp only [FOp.index] at ho1; omega)]
        constructor
        · simp only [answersOf, opsOf, flatRun, List.zip_cons_cons] at a1 ⊢
          simp only [List.filter_cons, decide_true, if_true, List.map_cons, FOp.specAll, a1, hl]
        · simp only [flatRun, a2, opsOf, List.filter_cons, decide_true, if_true, List.map_cons, FOp.specAll]
      · rw [other k hk] at a1 a2
        have hk' : ¬ w = k := fun e => hk e.symm
        constructor
        · simp only [answersOf, opsOf, flatRun, List.zip_cons_cons] at a1 ⊢
          simp only [List.filter_cons, hk', decide_false, Bool.false_eq_true, if_false, a1]
        · simp only [flatRun, a2, opsOf, List.filter_cons, hk', decide_false, Bool.false_eq_true, if_false]
    · show (flatRun lo os (shiftedSpec (lo w) o l)).2[i]? = l[i]?
      rw [ih2 i hi']
      cases o with
      | read i => rfl
      | write j x =>
        have ho1 : j < hi w - lo w := ho1
        simp only [shiftedSpec]
        rw [List.getElem?_set_ne]
        rcases hi' w with h | h <;> omega

/-! ### iter_mut -/
namespace VIterMut

/-- The iterator still has the places of the positions `front..back` to hand out. -/
def Has (cs : List Cell) (it : VIterMut Cell) : Prop :=
  it.front ≤ it.back ∧ it.back ≤ cs.length ∧ FMut.Ok it.focus cs ∧ it.focus.Fresh ∧ cs.length < USIZE_LIMIT

theorem new_ok {v : RVec α} {h : Nat} (i : InvH v h) : ∃ it, new v.cells = .ok it ∧ Has v.cells.toList it ∧
    it.front = 0 ∧ it.back = v.cells.toList.length := by
  obtain ⟨f, e, ho, hfr⟩ := focusMut_ok (i.mapAddr fun c _ => c)
  rw [show v.mapAddr (fun c _ => c) = v.cells from rfl] at e ho
  have hl : v.cells.len = v.cells.toList.length := (i.mapAddr fun c _ => c).len
  exact ⟨⟨0, v.cells.len, f⟩, by rw [new, e, ok_bind], ⟨by simp, by rw [hl]; exact Nat.le_refl _, ho, hfr, ho.lt⟩, rfl, hl⟩

theorem step_ok {cs : List Cell} (s : Side) (it : VIterMut Cell) (h : Has cs it) :
    ∃ it', step s it = .ok ((takeEnd s ((cs.take it.back).drop it.front)).1, it') ∧ Has cs it' ∧
      (cs.take it'.back).drop it'.front = (takeEnd s ((cs.take it.back).drop it.front)).2 ∧
      (it.front = it.back → it' = it) ∧
      (it.front ≠ it.back → (it'.front, it'.back) = match s with
        | .front => (it.front + 1, it.back)
        | .back => (it.front, it.back - 1)) := by
  obtain ⟨h1, h2, hf, hfr, hlt⟩ := h
  by_cases hc : it.front = it.back
  · have e0 : (cs.take it.back).drop it.front = [] := List.drop_of_length_le (by simp; omega)
    rw [e0, takeEnd_nil]
    refine ⟨it, ?_, ⟨h1, h2, hf, hfr, hlt⟩, e0, fun _ => rfl, fun h => absurd hc h⟩
    cases s <;> simp [step, next, nextBack, hc]
  · cases s with
    | front =>
      obtain ⟨f', e, hf', hr⟩ := FMut.get_ok hf (idx := it.front) (by omega) (hfr.not_stale _)
      have e1 : (cs.take it.back).drop it.front = cs[it.front] :: (cs.take it.back).drop (it.front + 1) := by
        rw [List.drop_eq_getElem_cons (by simp; omega)]
        simp
      rw [e1]
      exact ⟨⟨it.front + 1, it.back, f'⟩, by simp [step, next, hc, e, takeEnd],
        ⟨by simp; omega, h2, hf', .inl hr, hlt⟩, by simp [takeEnd], fun h => absurd h hc, fun _ => rfl⟩
    | back =>
      obtain ⟨f', e, hf', hr⟩ := FMut.get_ok hf (idx := it.back - 1) (by omega) (hfr.not_stale _)
      have e1 : (cs.take it.back).drop it.front = (cs.take (it.back - 1)).drop it.front ++ [cs[it.back - 1]] := by
        conv => lhs; rw [show it.back = (it.back - 1) + 1 by omega]
        rw [List.take_succ_eq_append_getElem (by omega), List.drop_append_of_le_length (by simp; omega)]
      rw [e1]
      exact ⟨⟨it.front, it.back - 1, f'⟩, by simp [step, nextBack, hc, usub_ok (show 1 ≤ it.back by omega), e, takeEnd],
        ⟨by simp; omega, by simp; omega, hf', .inl hr, hlt⟩, by simp [takeEnd], fun h => absurd h hc, fun _ => rfl⟩

end VIterMut

/-- The items with those that were already handed out replaced by their images. -/
def halfMapped (g : α → α) (l : List α) (a b : Nat) : List α :=
  (l.take a).map g ++ (l.take b).drop a ++ (l.drop b).map g

theorem halfMapped_getElem? (g : α → α) (l : List α) {a b : Nat} (h1 : a ≤ b) (h2 : b ≤ l.length) (i : Nat) :
    (halfMapped g l a b)[i]? = if a ≤ i ∧ i < b then l[i]? else l[i]?.map g := by
  unfold halfMapped
  by_cases c1 : i < a
  · rw [List.append_assoc, List.getElem?_append_left (by simp; omega), List.getElem?_map, List.getElem?_take, if_pos c1,
      if_neg (by omega)]
  · by_cases c2 : i < b
    · rw [List.getElem?_append_left (by simp; omega), List.getElem?_append_right (by simp; omega), slice_getElem?]
      simp only [List.length_map, List.length_take]
      rw [Nat.min_eq_left (by omega), if_pos (by omega), if_pos (by omega)]
      congr 1; omega
    · rw [List.getElem?_append_right (by simp; omega), if_neg (by omega), List.getElem?_map, List.getElem?_drop]
      simp only [List.length_append, List.length_map, List.length_take, List.length_drop]
      congr 2
      omega

theorem mapStep_ok (g : α → α) {cs : List Cell} {l : List α} (s : Side) {v : RVec α} {it : VIterMut Cell}
    (hl : cs.length = l.length) (b : Built v) (h : Shows v (halfMapped g l it.front it.back)) (hc : v.cells.toList = cs)
    (hi : VIterMut.Has cs it) :
    ∃ v' it', mapStep g s (v, it) = .ok ((takeEnd s ((l.take it.back).drop it.front)).1, (v', it')) ∧ Built v' ∧
      Shows v' (halfMapped g l it'.front it'.back) ∧ v'.cells.toList = cs ∧ VIterMut.Has cs it' ∧
      (l.take it'.back).drop it'.front = (takeEnd s ((l.take it.back).drop it.front)).2 ∧
      (it.front = it.back → it' = it) ∧
      (it.front ≠ it.back → (it'.front, it'.back) = match s with
        | .front => (it.front + 1, it.back)
        | .back => (it.front, it.back - 1)) := by
  obtain ⟨it', e, hi', -, n1, n2⟩ := VIterMut.step_ok s it hi
  obtain ⟨h1, h2, -⟩ := hi
  have hh := halfMapped_getElem? g l h1 (by omega)
  have hhl : (halfMapped g l it.front it.back).length = l.length := by simp [halfMapped]; omega
  by_cases hne : it.front = it.back
  · obtain rfl := n1 hne
    have e0 : ∀ {β : Type} (m : List β), m.length = cs.length → (m.take it'.back).drop it'.front = [] := by
      intro β m hm
      exact List.drop_of_length_le (by simp; omega)
    rw [e0 cs rfl, takeEnd_nil] at e
    rw [e0 l hl.symm, takeEnd_nil]
    refine ⟨v, it', ?_, b, h, hc, hi', e0 l hl.symm, fun _ => rfl, fun h => absurd hne h⟩
    rw [mapStep]
    simp only
    rw [e, ok_bind]
  · have n2 := n2 hne
    have main : ∀ j, j < l.length → it.front ≤ j → j < it.back →
        ∀ (_ : (takeEnd s ((cs.take it.back).drop it.front)).1 = cs[j]?)
          (_ : (takeEnd s ((l.take it.back).drop it.front)).1 = l[j]?)
          (_ : halfMapped g l it'.front it'.back = (halfMapped g l it.front it.back).set j (g (l[j]?.getD (l[0]'(by omega))))),
        (l.take it'.back).drop it'.front = (takeEnd s ((l.take it.back).drop it.front)).2 →
        ∃ v' it', mapStep g s (v, it) = .ok ((takeEnd s ((l.take it.back).drop it.front)).1, (v', it')) ∧ Built v' ∧
          Shows v' (halfMapped g l it'.front it'.back) ∧ v'.cells.toList = cs ∧ VIterMut.Has cs it' ∧
          (l.take it'.back).drop it'.front = (takeEnd s ((l.take it.back).drop it.front)).2 ∧
          (it.front = it.back → it' = it) ∧
          (it.front ≠ it.back → (it'.front, it'.back) = match s with
            | .front => (it.front + 1, it.back)
            | .back => (it.front, it.back - 1)) := by
      intro j hj j1 j2 q1 q2 q3 q4
      have n2' := n2
      have hcj : v.cells.toList[j]? = some cs[j] := by rw [hc, List.getElem?_eq_getElem (by omega)]
      have hval : (halfMapped g l it.front it.back)[j]'(by omega) = l[j] := by
        have := hh j
        rw [if_pos ⟨j1, j2⟩, List.getElem?_eq_getElem (by omega), List.getElem?_eq_getElem hj] at this
        exact Option.some.inj this
      obtain ⟨r1, v', r2, b', r3, r4⟩ := b.write h (i := j) (by omega) hcj (g l[j])
      refine ⟨v', it', ?_, b', ?_, r4.trans hc, hi', q4, fun h => absurd h hne, fun _ => n2'⟩
      · rw [q1, List.getElem?_eq_getElem (by omega)] at e
        rw [mapStep]
        simp only
        rw [e, ok_bind]
        simp only
        rw [r1, ok_bind, hval, r2, ok_bind, q2, List.getElem?_eq_getElem hj]
      · rw [q3, List.getElem?_eq_getElem hj]
        exact r3
    cases s with
    | front =>
      simp only [Prod.mk.injEq] at n2
      have hd : ∀ {β : Type} (m : List β) (hm : m.length = l.length), (m.take it.back).drop it.front =
          m[it.front]'(by omega) :: (m.take it.back).drop (it.front + 1) := by
        intro β m hm
        rw [List.drop_eq_getElem_cons (by simp; omega)]
        simp
      refine main it.front (by omega) (Nat.le_refl _) (by omega) ?_ ?_ ?_ ?_
      · rw [hd cs hl, List.getElem?_eq_getElem (by omega)]; rfl
      · rw [hd l rfl, List.getElem?_eq_getElem (by omega)]; rfl
      · apply List.ext_getElem?
        intro i
        rw [n2.1, n2.2, List.getElem?_set, halfMapped_getElem? g l (by omega) (by omega), hh, hhl,
          List.getElem?_eq_getElem (show it.front < l.length by omega)]
        by_cases hi : it.front = i
        · subst hi
          rw [if_neg (by omega), if_pos rfl, if_pos (by omega), List.getElem?_eq_getElem (by omega)]; rfl
        · rw [if_neg hi]
          by_cases c : it.front ≤ i ∧ i < it.back
          · rw [if_pos c, if_pos (by omega)]
          · rw [if_neg c, if_neg (by omega)]
      · rw [n2.1, n2.2, hd l rfl]; rfl
    | back =>
      simp only [Prod.mk.injEq] at n2
      have hd : ∀ {β : Type} (m : List β) (hm : m.length = l.length), (m.take it.back).drop it.front =
          (m.take (it.back - 1)).drop it.front ++ [m[it.back - 1]'(by omega)] := by
        intro β m hm
        conv => lhs; rw [show it.back = (it.back - 1) + 1 by omega]
        rw [List.take_succ_eq_append_getElem (by omega), List.drop_append_of_le_length (by simp; omega)]
      refine main (it.back - 1) (by omega) (by omega) (by omega) ?_ ?_ ?_ ?_
      · rw [hd cs hl, List.getElem?_eq_getElem (by omega)]; simp [takeEnd]
      · rw [hd l rfl, List.getElem?_eq_getElem (by omega)]; simp [takeEnd]
      · apply List.ext_getElem?
        intro i
        rw [n2.1, n2.2, List.getElem?_set, halfMapped_getElem? g l (by omega) (by omega), hh, hhl,
          List.getElem?_eq_getElem (show it.back - 1 < l.length by omega)]
        by_cases hi : it.back - 1 = i
        · subst hi
          rw [if_neg (by omega), if_pos rfl, if_pos (by omega), List.getElem?_eq_getElem (by omega)]; rfl
        · rw [if_neg hi]
          by_cases c : it.front ≤ i ∧ i < it.back
          · rw [if_pos c, if_pos (by omega)]
          · rw [if_neg c, if_neg (by omega)]
      · rw [n2.1, n2.2, hd l rfl]; simp [takeEnd]

theorem mapEnds_nil (g : α → α) (ss : List Side) : mapEnds g ss [] = [] := by
  cases ss with
  | nil => rfl
  | cons s ss => cases s <;> rfl

theorem mapScript_ok (g : α → α) {cs : List Cell} {l : List α} (ss : List Side) : ∀ {v : RVec α} {it : VIterMut Cell},
    cs.length = l.length → Built v → Shows v (halfMapped g l it.front it.back) → v.cells.toList = cs → VIterMut.Has cs it →
    ∃ v' it', runScript (mapStep g) ss (v, it) = .ok ((drain ss ((l.take it.back).drop it.front)).1, (v', it')) ∧ Built v' ∧
      Shows v' ((l.take it.front).map g ++ mapEnds g ss ((l.take it.back).drop it.front) ++ (l.drop it.back).map g) := by
  induction ss with
  | nil => intro v it _ b h _ _; exact ⟨v, it, rfl, b, h⟩
  | cons s ss ih =>
    intro v it hl b h hc hi
    have h1 := hi.1
    have h2 := hi.2.1
    obtain ⟨v1, it1, e1, b1, s1, c1, hi1, t1, n1, n2⟩ := mapStep_ok g s hl b h hc hi
    obtain ⟨v2, it2, e2, b2, s2⟩ := ih hl b1 s1 c1 hi1
    refine ⟨v2, it2, by simp [runScript, e1, e2, drain, t1], b2, ?_⟩
    by_cases hne : it.front = it.back
    · obtain rfl := n1 hne
      have e0 : (l.take it1.back).drop it1.front = [] := List.drop_of_length_le (by simp; omega)
      rw [e0, mapEnds_nil] at s2 ⊢
      exact s2
    · have n2 := n2 hne
      cases s with
      | front =>
        simp only [Prod.mk.injEq] at n2
        rw [n2.1, n2.2] at s2
        have hd : (l.take it.back).drop it.front = l[it.front]'(by omega) :: (l.take it.back).drop (it.front + 1) := by
          rw [List.drop_eq_getElem_cons (by simp; omega)]
          simp
        rw [hd]
        rw [List.take_succ_eq_append_getElem (by omega), List.map_append] at s2
        simpa [mapEnds] using s2
      | back =>
        simp only [Prod.mk.injEq] at n2
        rw [n2.1, n2.2] at s2
        have hd : (l.take it.back).drop it.front = (l.take (it.back - 1)).drop it.front ++ [l[it.back - 1]'(by omega)] := by
          conv => lhs; rw [show it.back = (it.back - 1) + 1 by omega]
          rw [List.take_succ_eq_append_getElem (by omega), List.drop_append_of_le_length (by simp; omega)]
        have hd2 : l.drop (it.back - 1) = l[it.back - 1]'(by omega) :: l.drop it.back := by
          rw [List.drop_eq_getElem_cons (by omega)]
          congr 2
          omega
        rw [hd2] at s2
        rw [hd]
        simpa [mapEnds] using s2

end Librrb
