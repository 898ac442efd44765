import Verif.Proof.SortAny
import Verif.Proof.Search
import Verif.Proof.Places

/-!
# Calls that touch only live slots
-/
namespace Librrb

namespace Safe

theorem of_ok {r : M γ} {x : γ} (h : r = .ok x) : Safe r := by subst h; exact ⟨nofun, nofun⟩

theorem of_error {r : M γ} {e : Fault} (h : r = .error e) (he : e = .panic ∨ e = .overflow ∨ e = .diverge) : Safe r := by
  subst h
  rcases he with rfl | rfl | rfl <;> exact ⟨nofun, nofun⟩

theorem ok (x : γ) : Safe (.ok x : M γ) := of_ok rfl

theorem bind {x : M β} {f : β → M γ} (h : Safe x) (hf : ∀ a, x = .ok a → Safe (f a)) : Safe (x >>= f) := by
  cases x with
  | ok a => exact hf a rfl
  | error e => exact ⟨fun h' => h.1 (by cases h'; rfl), fun h' => h.2 (by cases h'; rfl)⟩

theorem uadd (a b : Nat) : Safe (uadd a b) := by
  unfold Librrb.uadd
  split
  · exact ok _
  · exact of_error rfl (by simp)

theorem usub (a b : Nat) : Safe (usub a b) := by
  unfold Librrb.usub
  split
  · exact ok _
  · exact of_error rfl (by simp)

theorem massert (c : Bool) : Safe (massert c) := by
  unfold Librrb.massert
  split
  · exact ok _
  · exact of_error rfl (by simp)

theorem unwrap (x : Option γ) : Safe (unwrap x) := by
  cases x with
  | none => exact of_error rfl (by simp)
  | some x => exact ok x

end Safe

theorem Fine.safe {P : γ → Prop} {r : M γ} (h : Fine P r) : Safe r := by
  cases r with
  | ok x => exact .ok x
  | error e =>
    rcases h with rfl | rfl
    · exact .of_error rfl (by simp)
    · exact .of_error rfl (by simp)

open RVec

/-! ### Foci -/

theorem PFocus.fromTree_empty {n : Nat} {nd : Node α} (h : nd.Wf (n + 1)) (he : nd.toList = []) :
    PFocus.fromTree nd = .error .panic := by
  have hlen := h.len
  obtain ⟨ks, hk⟩ := Node.wf_succ.1 h
  have htl := hk.toList
  obtain ⟨s, c, rfl, h1, h2, h3⟩ := hk
  have hks : ks = [] := by
    cases ks with
    | nil => rfl
    | cons k ks =>
      rw [htl] at he
      simp only [List.flatMap_cons, List.append_eq_nil_iff] at he
      exact absurd he.1 (h3 k (by simp)).2
  subst hks
  simp only [fromTree]
  rw [hlen, he]
  simp only [ok_bind, treePath, Node.childRefForPosition]
  rw [SizeTable.positionInfoFor_ok h1]
  rfl

theorem Focus.narrowedTree_safe {v : RVec α} {h : Nat} (i : InvH v h) (lo hi : Nat) : Safe (Focus.narrowedTree v lo hi) := by
  unfold narrowedTree
  generalize (if lo ≥ v.len then v.len else lo) = a
  generalize (if hi ≥ v.len then v.len else hi) = b
  obtain ⟨p, e, hp⟩ := pickLoop_ok i (lo := a) (hi := b) v.spineIter [] ⟨none, v.root, 0, 0⟩ rfl
  simp only [flat_nil, List.length_nil] at e
  simp only [e, ok_bind]
  have key : ∀ nd : Node α, (∃ n, nd.Wf n) → Safe (PFocus.fromTree nd) := by
    rintro nd ⟨n, hw⟩
    by_cases hn : n ≠ 0 → nd.toList ≠ []
    · obtain ⟨pf, e', -⟩ := PFocus.fromTree_ok hw hn
      exact .of_ok e'
    · simp only [Classical.not_imp, ne_eq, not_not] at hn
      obtain ⟨m, rfl⟩ : ∃ m, n = m + 1 := ⟨n - 1, by omega⟩
      exact .of_error (PFocus.fromTree_empty hw hn.2) (by simp)
  refine .bind (key _ ?_) fun _ _ => .ok _
  rcases hp with ⟨rfl, hq⟩ | ⟨A, nd, B, hit, hnd, -⟩
  · exact ⟨_, i.root⟩
  · rw [hnd]
    exact spineIter_wf i (p := (p.pos, nd)) (by simp [hit])

theorem Focus.get_safe {f : Focus α} {v : RVec α} {lo hi h : Nat} (i : InvH v h) (ho : Focus.Ok f v lo hi) (idx : Nat) :
    Safe (f.get idx) := by
  by_cases hlt : idx + lo < USIZE_LIMIT
  · obtain ⟨f', e, -⟩ := get_ok i ho idx hlt
    exact .of_ok e
  · unfold get
    rw [ho.range.1, Librrb.uadd, if_neg hlt]
    exact .of_error rfl (by simp)

theorem Focus.index_safe {f : Focus α} {v : RVec α} {lo hi h : Nat} (i : InvH v h) (ho : Focus.Ok f v lo hi) (idx : Nat) :
    Safe (f.index idx) ∧ ∀ r, f.index idx = .ok r → Focus.Ok r.2 v lo hi := by
  constructor
  · exact .bind (get_safe i ho idx) fun r _ => .bind (.unwrap _) fun _ _ => .ok _
  · intro r e
    unfold index at e
    obtain ⟨q, e1, e⟩ := bind_ok e
    obtain ⟨x, -, e⟩ := bind_ok e
    cases e
    exact get_eq i ho e1

theorem Focus.narrow_safe {f : Focus α} {v : RVec α} {lo hi h : Nat} (i : InvH v h) (ho : Focus.Ok f v lo hi) (sb eb : Bound) :
    Safe (f.narrow sb eb) := by
  unfold narrow
  have h1 : Safe (narrowStart sb) := by
    cases sb with
    | excluded x => exact .uadd _ _
    | _ => exact .ok _
  have h2 : Safe (f.narrowEnd eb) := by
    cases eb with
    | included x => exact .uadd _ _
    | excluded x => exact .ok _
    | unbounded => exact .usub _ _
  refine .bind h1 fun _ _ => .bind h2 fun _ _ => .bind (.massert _) fun _ _ => .bind (.uadd _ _) fun _ _ =>
    .bind (.uadd _ _) fun _ _ => .bind (.usub _ _) fun _ _ => ?_
  rw [ho.tree]
  exact narrowedTree_safe i _ _

theorem Focus.splitAt_safe {f : Focus α} {v : RVec α} {lo hi h : Nat} (i : InvH v h) (ho : Focus.Ok f v lo hi) (idx : Nat) :
    Safe (f.splitAt idx) := by
  unfold splitAt
  rw [ho.tree]
  exact .bind (.usub _ _) fun _ _ => .bind (.massert _) fun _ _ => .bind (narrowedTree_safe i _ _) fun _ _ =>
    .bind (narrowedTree_safe i _ _) fun _ _ => .ok _

/-! ### Searches -/

namespace RVec

theorem rangeStart_safe (sb : Bound) : Safe (rangeStart sb) := by
  cases sb with
  | excluded x => exact .uadd _ _
  | _ => exact .ok _

theorem rangeEnd_safe (n : Nat) (eb : Bound) : Safe (rangeEnd n eb) := by
  cases eb with
  | included x => exact .uadd _ _
  | _ => exact .ok _

theorem searchEnd_safe (n : Nat) (eb : Bound) : Safe (searchEnd n eb) := by
  cases eb with
  | included x => exact .usub _ _
  | _ => exact .ok _

theorem expandStart_safe {v : RVec α} {h : Nat} (i : InvH v h) (f : α → Ordering) :
    ∀ (fuel : Nat) {fo : Focus α} (a b : Nat), Focus.Ok fo v 0 v.toList.length →
    Safe (expandStart f fuel fo a b) ∧ ∀ r, expandStart f fuel fo a b = .ok r → Focus.Ok r.2 v 0 v.toList.length := by
  intro fuel
  induction fuel with
  | zero => intro fo a b ho; exact ⟨.of_error rfl (by simp), by intro r e; cases e⟩
  | succ fuel ih =>
    intro fo a b ho
    unfold expandStart
    constructor
    · refine .bind (.uadd _ _) fun s _ => ?_
      split
      · exact .bind (Focus.index_safe i ho _).1 fun _ _ => .ok _
      · refine .bind (Focus.index_safe i ho _).1 fun r er => ?_
        have ho' := (Focus.index_safe i ho _).2 r er
        split
        · exact (ih _ _ ho').1
        · exact (ih _ _ ho').1
    · intro r e
      obtain ⟨s, -, e⟩ := bind_ok e
      split at e
      · obtain ⟨q, eq, e⟩ := bind_ok e
        cases e
        exact (Focus.index_safe i ho _).2 q eq
      · obtain ⟨q, eq, e⟩ := bind_ok e
        have ho' := (Focus.index_safe i ho _).2 q eq
        split at e
        · exact (ih _ _ ho').2 r e
        · exact (ih _ _ ho').2 r e

theorem expandEnd_safe {v : RVec α} {h : Nat} (i : InvH v h) (f : α → Ordering) :
    ∀ (fuel : Nat) {fo : Focus α} (a b : Nat), Focus.Ok fo v 0 v.toList.length → Safe (expandEnd f fuel fo a b) := by
  intro fuel
  induction fuel with
  | zero => intro fo a b ho; exact .of_error rfl (by simp)
  | succ fuel ih =>
    intro fo a b ho
    unfold expandEnd
    refine .bind (.uadd _ _) fun s _ => ?_
    split
    · exact .ok _
    · refine .bind (Focus.index_safe i ho _).1 fun r er => ?_
      have ho' := (Focus.index_safe i ho _).2 r er
      split
      · exact ih _ _ ho'
      · exact ih _ _ ho'

theorem equalRangeForIndex_safe {v : RVec α} {h : Nat} (i : InvH v h) (index : Nat) (f : α → Ordering) (sb eb : Bound) :
    Safe (v.equalRangeForIndexInRangeBy index f sb eb) := by
  obtain ⟨fo, e, ho⟩ := Focus.new_ok i
  unfold equalRangeForIndexInRangeBy
  refine .bind (rangeStart_safe _) fun a _ => .bind (searchEnd_safe _ _) fun b _ => ?_
  split
  · exact .ok _
  rw [e, ok_bind]
  refine .bind (Focus.index_safe i ho _).1 fun r er => ?_
  have ho' := (Focus.index_safe i ho _).2 r er
  split
  · exact .ok _
  have key : Safe (if index != a then expandStart f (index - a + 1) r.2 a index else .ok (index, r.2)) ∧
      ∀ q, (if index != a then expandStart f (index - a + 1) r.2 a index else .ok (index, r.2)) = .ok q →
        Focus.Ok q.2 v 0 v.toList.length := by
    split
    · exact expandStart_safe i f _ _ _ ho'
    · exact ⟨.ok _, fun q e => by cases e; exact ho'⟩
  exact .bind key.1 fun q eq => .bind (expandEnd_safe i f _ _ _ (key.2 q eq)) fun _ _ => .bind (.uadd _ _) fun _ _ => .ok _

theorem searchLoop_safe {v : RVec α} {h : Nat} (i : InvH v h) (f : α → Ordering) :
    ∀ (fuel : Nat) {fo : Focus α} (a b : Nat), Focus.Ok fo v 0 v.toList.length → Safe (searchLoop v f fuel fo a b) := by
  intro fuel
  induction fuel with
  | zero => intro fo a b ho; exact .of_error rfl (by simp)
  | succ fuel ih =>
    intro fo a b ho
    unfold searchLoop
    refine .bind (.uadd _ _) fun s _ => ?_
    split
    · refine .bind (Focus.index_safe i ho _).1 fun r _ => ?_
      split <;> exact .ok _
    · refine .bind (Focus.index_safe i ho _).1 fun r er => ?_
      have ho' := (Focus.index_safe i ho _).2 r er
      split
      · exact ih _ _ ho'
      · exact ih _ _ ho'
      · exact .bind (equalRangeForIndex_safe i _ _ _ _) fun _ _ => .ok _

theorem equalRangeInRange_safe {v : RVec α} {h : Nat} (i : InvH v h) (f : α → Ordering) (sb eb : Bound) :
    Safe (v.equalRangeInRangeBy f sb eb) := by
  obtain ⟨fo, e, ho⟩ := Focus.new_ok i
  unfold equalRangeInRangeBy
  refine .bind (rangeStart_safe _) fun a _ => .bind (searchEnd_safe _ _) fun b _ => ?_
  rw [e, ok_bind]
  exact searchLoop_safe i f _ _ _ ho

/-! ### Sorts -/

theorem sortRangeBy_safe {v : RVec α} {l : List α} (b : Built v) (h : Shows v l) (cmp : α → α → Ordering) (sb eb : Bound)
    (next : ρ → Nat × ρ) (rng : ρ) : Safe (v.sortRangeBy cmp sb eb next rng) := by
  cases e1 : rangeStart sb with
  | error x =>
    have := rangeStart_safe sb
    rw [e1] at this
    rw [sortRangeBy, e1]
    exact .bind this fun _ _ => by contradiction
  | ok lo =>
    cases e2 : rangeEnd v.len eb with
    | error x =>
      have := rangeEnd_safe v.len eb
      rw [e2] at this
      rw [sortRangeBy, e1, ok_bind, e2]
      exact .bind this fun _ _ => by contradiction
    | ok hi =>
      by_cases hr : lo ≤ hi ∧ hi ≤ l.length
      · exact (sortRangeBy_any b h cmp e1 e2 hr.1 hr.2 next rng).safe
      · exact .of_error (sortRangeBy_panic b h cmp e1 e2 (by omega) next rng) (by simp)

theorem dualSortRangeBy_safe {v : RVec α} {w : RVec β} {l : List α} {m : List β} (b : Built v) (h : Shows v l)
    (b' : Built w) (h' : Shows w m) (cmp : α → α → Ordering) (sb eb : Bound) (next : ρ → Nat × ρ) (rng : ρ) :
    Safe (v.dualSortRangeBy w cmp sb eb next rng) := by
  cases e1 : rangeStart sb with
  | error x =>
    have := rangeStart_safe sb
    rw [e1] at this
    rw [dualSortRangeBy, e1]
    exact .bind this fun _ _ => by contradiction
  | ok lo =>
    cases e2 : rangeEnd v.len eb with
    | error x =>
      have := rangeEnd_safe v.len eb
      rw [e2] at this
      rw [dualSortRangeBy, e1, ok_bind, e2]
      exact .bind this fun _ _ => by contradiction
    | ok hi =>
      by_cases hr : lo ≤ hi ∧ hi ≤ l.length ∧ hi ≤ m.length
      · exact (dualSortRangeBy_any b h b' h' cmp e1 e2 hr.1 hr.2.1 hr.2.2 next rng).safe
      · exact .of_error (dualSortRangeBy_panic b h b' h' cmp e1 e2 (by omega) next rng) (by simp)

end RVec

/-! ### Mutable foci -/

theorem FMut.get_safe {f : FMut κ} {l : List κ} (h : FMut.Ok f l) (idx : Nat) : Safe (f.get idx) := by
  by_cases hi : idx < l.length
  · by_cases hst : f.root = none → inRange f.llo f.lhi idx = false
    · obtain ⟨f', e, -⟩ := get_ok h hi hst
      exact .of_ok e
    · simp only [Classical.not_imp, Bool.not_eq_false] at hst
      exact .of_error (get_stale h hst.1 hst.2) (by simp)
  · obtain ⟨f', e, -⟩ := get_out h (idx := idx) (by omega)
    exact .of_ok e

theorem FMut.splitAt_safe {f : FMut κ} {l : List κ} (h : FMut.Ok f l) (idx : Nat) : Safe (f.splitAt idx) := by
  by_cases hi : idx ≤ l.length
  · obtain ⟨f1, f2, e, -⟩ := splitAt_ok h hi
    exact .of_ok e
  · exact .of_error (splitAt_panic h (by omega)) (by simp)

end Librrb
