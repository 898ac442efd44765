import Verif.Proof.HeapCostJoin
import Verif.HeapSpec

/-! # How many nodes a call makes: readers, loops, and the calls of a program -/
namespace Librrb

variable {Z : Zone} {K L N K' : Nat}

/-! ### Readers -/

namespace Entry

theorem childRefForPosition_still (a : Addr) (i : Nat) : Still (childRefForPosition a i : HM α _) := by
  unfold childRefForPosition; still
macro_rules | `(tactic| still_step) => `(tactic| with_reducible exact Entry.childRefForPosition_still _ _)

theorem leafGet_still (a : Addr) (i : Nat) : Still (leafGet a i : HM α _) := by
  unfold leafGet; still
macro_rules | `(tactic| still_step) => `(tactic| with_reducible exact Entry.leafGet_still _ _)

end Entry

namespace HPFocus

theorem treePath_still : ∀ (fuel : Nat) (p : List (Addr × Nat × Nat)) (i : Nat), Still (treePath fuel p i : HM α _)
  | 0, _, _ => Still.throw _
  | _ + 1, [], _ => Still.throw _
  | fuel + 1, (a, lo, hi) :: rest, i => by
    unfold treePath
    have ih := treePath_still (α := α) fuel
    still
    exact ih _ _
macro_rules | `(tactic| still_step) => `(tactic| with_reducible exact HPFocus.treePath_still _ _ _)

theorem fromTree_still (a : Addr) : Still (fromTree a : HM α _) := by unfold fromTree; still
macro_rules | `(tactic| still_step) => `(tactic| with_reducible exact HPFocus.fromTree_still _)

theorem enterPath_still (i : Nat) : ∀ p : List (Addr × Nat × Nat), Still (enterPath i p : HM α _)
  | [] => Still.throw _
  | (a, lo, hi) :: rest => by unfold enterPath; still
macro_rules | `(tactic| still_step) => `(tactic| with_reducible exact HPFocus.enterPath_still _ _)

theorem moveFocus_still (pf : HPFocus) (i : Nat) : Still (moveFocus pf i : HM α _) := by unfold moveFocus; still
macro_rules | `(tactic| still_step) => `(tactic| with_reducible exact HPFocus.moveFocus_still _ _)

theorem get_still (pf : HPFocus) (i : Nat) : Still (get pf i : HM α _) := by unfold get; still
macro_rules | `(tactic| still_step) => `(tactic| with_reducible exact HPFocus.get_still _ _)

end HPFocus

namespace HFocus

theorem pickLoop_still (lo hi : Nat) : ∀ (l : List (Option (Side × Nat) × Addr)) (n : Nat) (p : Pick),
    Still (pickLoop lo hi l n p : HM α _)
  | [], _, _ => Still.pure _
  | (pos, a) :: rest, n, p => by
    unfold pickLoop
    have ih := pickLoop_still (α := α) lo hi rest
    refine Still.bind (Entry.len_still _) fun n => Still.bind (Still.lift _) fun m => ih _ _

theorem narrowedTree_still (v : HVec) (lo hi : Nat) : Still (narrowedTree v lo hi : HM α _) := by
  unfold narrowedTree
  refine Still.bind (pickLoop_still _ _ _ _ _) fun p => ?_
  still
macro_rules | `(tactic| still_step) => `(tactic| with_reducible exact HFocus.narrowedTree_still _ _ _)

theorem new_still (v : HVec) : Still (new v : HM α _) := narrowedTree_still _ _ _
macro_rules | `(tactic| still_step) => `(tactic| with_reducible exact HFocus.new_still _)

theorem enter_still (f : HFocus) (pos : Option (Side × Nat)) (a : Addr) (lo hi i : Nat) :
    Still (enter f pos a lo hi i : HM α _) := by unfold enter; still
macro_rules | `(tactic| still_step) => `(tactic| with_reducible exact HFocus.enter_still _ _ _ _ _ _)

theorem refocusBack_still (f : HFocus) (i : Nat) : ∀ (l : List (Option (Side × Nat) × Addr)) (n : Nat),
    Still (refocusBack f i l n : HM α _)
  | [], _ => Still.pure _
  | (pos, a) :: rest, n => by
    unfold refocusBack
    have ih := refocusBack_still (α := α) f i rest
    still
    exact ih _
macro_rules | `(tactic| still_step) => `(tactic| with_reducible exact HFocus.refocusBack_still _ _ _ _)

theorem refocusFwd_still (f : HFocus) (i : Nat) : ∀ (l : List (Option (Side × Nat) × Addr)) (n : Nat),
    Still (refocusFwd f i l n : HM α _)
  | [], _ => Still.pure _
  | (pos, a) :: rest, n => by
    unfold refocusFwd
    have ih := refocusFwd_still (α := α) f i rest
    still
    exact ih _
macro_rules | `(tactic| still_step) => `(tactic| with_reducible exact HFocus.refocusFwd_still _ _ _ _)

theorem refocus_still (f : HFocus) (i : Nat) : Still (refocus f i : HM α _) := by unfold refocus; still
macro_rules | `(tactic| still_step) => `(tactic| with_reducible exact HFocus.refocus_still _ _)

theorem get_still (f : HFocus) (i : Nat) : Still (get f i : HM α _) := by unfold get; still
macro_rules | `(tactic| still_step) => `(tactic| with_reducible exact HFocus.get_still _ _)

end HFocus

namespace HVIter

theorem new_still (v : HVec) : Still (new v : HM α _) := by unfold new; still
macro_rules | `(tactic| still_step) => `(tactic| with_reducible exact HVIter.new_still _)

theorem next_still (it : HVIter) : Still (next it : HM α _) := by unfold next; still
macro_rules | `(tactic| still_step) => `(tactic| with_reducible exact HVIter.next_still _)

theorem nextBack_still (it : HVIter) : Still (nextBack it : HM α _) := by unfold nextBack; still
macro_rules | `(tactic| still_step) => `(tactic| with_reducible exact HVIter.nextBack_still _)

theorem step_still (s : Side) (it : HVIter) : Still (step s it : HM α _) := by
  cases s
  · exact next_still it
  · exact nextBack_still it
macro_rules | `(tactic| still_step) => `(tactic| with_reducible exact HVIter.step_still _ _)

theorem run_still : ∀ (l : List Side) (it : HVIter), Still (run l it : HM α _)
  | [], _ => Still.pure _
  | s :: rest, it => by
    unfold run
    have ih := run_still (α := α) rest
    still
    exact ih _
macro_rules | `(tactic| still_step) => `(tactic| with_reducible exact HVIter.run_still _ _)

end HVIter

theorem HVec.iterCmp_still (cmp : α → α → Ordering) : ∀ (fuel : Nat) (a b : HVIter), Still (HVec.iterCmp cmp fuel a b)
  | 0, _, _ => Still.throw _
  | fuel + 1, a, b => by
    unfold HVec.iterCmp
    have ih := HVec.iterCmp_still cmp fuel
    still
    exact ih _ _

theorem HVec.cmpVec_still (cmp : α → α → Ordering) (v w : HVec) : Still (HVec.cmpVec cmp v w) := by
  unfold HVec.cmpVec
  still
  exact HVec.iterCmp_still _ _ _ _

theorem hrunAll_still {step : ι → σ → HM α (β × σ)} (hs : ∀ o s, Still (step o s)) : ∀ (l : List ι) (s : σ),
    Still (hrunAll step l s)
  | [], _ => Still.pure _
  | o :: os, s => Still.bind (hs o s) fun _ => Still.bind (hrunAll_still hs os _) fun _ => Still.pure _

/-! ### Loops -/

theorem hrunAll_cost {step : ι → σ → HM α (β × σ)} {P : σ → Prop} {n : Nat}
    (hs : ∀ o s, P s → Cost Z K n (step o s) K fun r => P r.2) : ∀ (l : List ι) (s : σ), P s →
      Cost Z K (l.length * n) (hrunAll step l s) K fun r => P r.2
  | [], _, h => Cost.pure (Nat.le_refl _) h
  | o :: os, s, h => by
    have e : (o :: os).length * n = os.length * n + n := by rw [List.length_cons, Nat.succ_mul]
    rw [e]
    refine Cost.bind (hs o s h) (by omega) fun r hr => ?_
    refine Cost.bind ((hrunAll_cost hs os r.2 hr).le (Nat.le_refl _)) (by omega) fun q hq => ?_
    exact Cost.pure (Nat.le_refl _) hq

theorem FOp.haccess_cost (o : FOp α) {p : Option Ptr} (hp : ∀ q, p = some q → Z.has q.node) :
    Cost Z K 0 (o.haccess p) K fun _ => True := by
  cases p with
  | none => exact Cost.pure (Nat.le_refl _) trivial
  | some p =>
    refine Cost.read (readPtr_still p) fun x => ?_
    cases o with
    | read i => exact Cost.pure (Nat.le_refl _) trivial
    | write i y => exact Cost.bind (writePtr_cost y (hp _ rfl)) (by omega) fun _ _ => Cost.pure (Nat.le_refl _) trivial

theorem FOp.hrun_cost (o : FOp α) {f : HFMut} (hf : FocusOk Z K f) : Cost Z K (K + 2) (o.hrun f) K fun r => FocusOk Z K r.2 := by
  unfold FOp.hrun
  refine Cost.bind (HFMut.get_cost hf _) (by omega) fun r hr => ?_
  refine Cost.bind (o.haccess_cost hr.1) (by omega) fun a _ => ?_
  exact Cost.pure (Nat.le_refl _) hr.2

theorem TOp.hrun_cost (t : TOp α) {fs : List HFMut} (hf : ∀ f ∈ fs, FocusOk Z K f) :
    Cost Z K (K + 2) (t.hrun fs) K fun r => ∀ f ∈ r.2, FocusOk Z K f := by
  cases t with
  | use k o =>
    unfold TOp.hrun
    dsimp only
    cases e : fs[k]? with
    | none => exact Cost.pure (Nat.le_refl _) hf
    | some f =>
      refine Cost.bind (o.hrun_cost (hf f (List.mem_of_getElem? e))) (by omega) fun r hr => ?_
      refine Cost.pure (Nat.le_refl _) fun g hg => ?_
      rcases List.mem_or_eq_of_mem_set hg with h | rfl
      · exact hf g h
      · exact hr
  | split k i =>
    unfold TOp.hrun
    dsimp only
    cases e : fs[k]? with
    | none => exact Cost.pure (Nat.le_refl _) hf
    | some f =>
      refine Cost.bind (HFMut.splitAt_cost (hf f (List.mem_of_getElem? e)) i) (by omega) fun r hr => ?_
      refine Cost.pure (Nat.le_refl _) fun g hg => ?_
      simp only [List.mem_append, List.mem_cons] at hg
      rcases hg with h | rfl | rfl | h
      · exact hf g (List.mem_of_mem_take h)
      · exact hr.1
      · exact hr.2
      · exact hf g (List.mem_of_mem_drop h)

theorem hmapStep_cost (g : α → α) (s : Side) {it : HVIterMut} (hf : FocusOk Z K it.focus) :
    Cost Z K (K + 2) (hmapStep g s it) K fun r => FocusOk Z K r.2.focus := by
  unfold hmapStep
  refine Cost.bind (N1 := K + 2) (K1 := K)
    (Q := fun r => (∀ p, r.1 = some p → Z.has p.node) ∧ FocusOk Z K r.2.focus) ?_ (by omega) fun r hr => ?_
  · cases s with
    | front =>
      show Cost Z K (K + 2) (HVIterMut.next it) K _
      unfold HVIterMut.next
      refine Cost.ite (fun _ => ?_) fun _ => Cost.pure (Nat.le_refl _) ⟨fun p e => (by cases e), hf⟩
      refine Cost.bind (HFMut.get_cost hf _) (by omega) fun r hr => ?_
      refine Cost.lift fun x ex => Cost.pure (Nat.le_refl _) ⟨fun p e => ?_, hr.2⟩
      cases e
      exact hr.1 _ (RingOk.unwrap_inv ex)
    | back =>
      show Cost Z K (K + 2) (HVIterMut.nextBack it) K _
      unfold HVIterMut.nextBack
      refine Cost.ite (fun _ => ?_) fun _ => Cost.pure (Nat.le_refl _) ⟨fun p e => (by cases e), hf⟩
      refine Cost.lift fun x ex => ?_
      refine Cost.bind (HFMut.get_cost hf _) (by omega) fun r hr => ?_
      exact Cost.pure (Nat.le_refl _) hr
  · obtain ⟨o, it'⟩ := r
    cases o with
    | none => exact Cost.pure (Nat.le_refl _) hr.2
    | some p =>
      refine Cost.read (readPtr_still p) fun x => ?_
      exact Cost.bind (writePtr_cost _ (hr.1 p rfl)) (by omega) fun _ _ => Cost.pure (Nat.le_refl _) hr.2

namespace HVec

theorem pushBack_cost {v : HVec} (hv : VecOk Z L v) (x : α) : Cost Z K (6 * L + 9) (pushBack v x) (K + 1) (VecOk Z (L + 1)) :=
  pushSide_cost hv .back x

theorem pushFront_cost {v : HVec} (hv : VecOk Z L v) (x : α) : Cost Z K (6 * L + 9) (pushFront v x) (K + 1) (VecOk Z (L + 1)) :=
  pushSide_cost hv .front x

theorem singleton_cost (x : α) : Cost Z K 10 (singleton x) (K + 1) (VecOk Z 1) := by
  unfold singleton
  refine Cost.bind (new_cost (L := 0)) (by omega) fun v hv => ?_
  exact (pushBack_cost hv x).le (by omega)

theorem intoIterStep_cost (s : Side) {v : HVec} (hv : VecOk Z L v) :
    Cost Z K (3 * L + 3) (intoIterStep s v : HM α _) K fun r => VecOk Z L r.2 := by
  cases s with
  | front => exact popSide_cost hv .front
  | back => exact popSide_cost hv .back

theorem prepend_cost {v w : HVec} (hv : VecOk Z L v) (hw : VecOk Z L w) :
    Cost Z K (794 * L + 13) (prepend v w : HM α _) (K + 2 * L + 1) (VecOk Z (2 * L + 1)) := append_cost hw hv

theorem sliceFromStart_cost {v : HVec} (hv : VecOk Z K v) (n : Nat) :
    Cost Z K (32 * K + 17) (sliceFromStart v n : HM α _) K fun _ => True := by
  unfold sliceFromStart
  refine Cost.bind (splitOff_cost hv n) (by omega) fun r hr => ?_
  exact Cost.bind (drop_cost _) (by omega) fun _ _ => Cost.pure (Nat.le_refl _) trivial

theorem sliceToEnd_cost {v : HVec} (hv : VecOk Z K v) (n : Nat) :
    Cost Z K (32 * K + 17) (sliceToEnd v n : HM α _) K fun _ => True := by
  unfold sliceToEnd
  refine Cost.bind (splitOff_cost hv n) (by omega) fun r hr => ?_
  exact Cost.bind (drop_cost _) (by omega) fun _ _ => Cost.pure (Nat.le_refl _) trivial

theorem extractSlice_cost {v : HVec} (hv : VecOk Z K v) (sb eb : Bound) :
    Cost Z K (2460 * K + 47) (extractSlice v sb eb : HM α _) (7 * K + 1) fun _ => True := by
  unfold extractSlice
  refine Cost.lift fun start _ => Cost.lift fun stop _ => ?_
  refine Cost.bind (splitOff_cost hv _) (by omega) fun a ha => ?_
  refine Cost.bind (splitOff_cost ha.1 _) (by omega) fun b hb => ?_
  refine Cost.bind (append_cost hb.1 (ha.2.mono (by omega))) (by omega) fun w _ => ?_
  exact Cost.pure (by omega) trivial

theorem insert_cost {v : HVec} (hv : VecOk Z K v) (i : Nat) (x : α) :
    Cost Z K (1632 * K + 833) (insert v i x) (5 * K + 4) fun _ => True := by
  unfold insert
  refine Cost.bind (splitOff_cost hv _) (by omega) fun r hr => ?_
  refine Cost.bind (pushBack_cost hr.1 x) (by omega) fun w hw => ?_
  exact (append_cost hw (hr.2.mono (by omega))).mono (by omega) (by omega) fun _ _ => trivial

theorem remove_cost {v : HVec} (hv : VecOk Z K v) (i : Nat) :
    Cost Z K (1626 * K + 33) (remove v i : HM α _) (5 * K + 1) fun _ => True := by
  unfold remove
  refine Cost.ite (fun _ => ?_) fun _ => Cost.pure (by omega) trivial
  refine Cost.bind (splitOff_cost hv _) (by omega) fun r hr => ?_
  refine Cost.bind (popSide_cost hr.2 .front) (by omega) fun q hq => ?_
  refine Cost.bind (append_cost hr.1 hq) (by omega) fun w hw => ?_
  exact Cost.pure (by omega) trivial

end HVec

/-! ### The calls of a program -/

theorem Act.hrun_cost {v : HVec} (hv : VecOk Z K v) (a : Act α) {n : Nat} (hn : a.allowance K = some n) :
    ∃ K', Cost Z K n (a.hrun v) K' fun _ => True := by
  have done : ∀ {γ : Type} {x : HM α γ} {Q : γ → Prop} {K' n : Nat} {f : γ → Answer α × HVec × List HVec}, Cost Z K n x K' Q →
      ∃ K', Cost Z K n (do let r ← x; pure (f r)) K' fun _ => True := fun h =>
    ⟨_, Cost.bind h (Nat.le_refl _) fun _ _ => Cost.pure (Nat.le_refl _) trivial⟩
  cases a with
  | len | isEmpty => cases hn; exact ⟨K, Cost.pure (Nat.le_refl _) trivial⟩
  | get i => cases hn; exact done (Cost.still (Q := fun _ => True) (HVec.get_still v i) (Nat.le_refl _) fun _ => trivial)
  | front => cases hn; exact done (Cost.still (Q := fun _ => True) (HVec.frontBack_still v _) (Nat.le_refl _) fun _ => trivial)
  | back => cases hn; exact done (Cost.still (Q := fun _ => True) (HVec.frontBack_still v _) (Nat.le_refl _) fun _ => trivial)
  | iterate script =>
    cases hn
    exact ⟨K, Cost.read (HVIter.new_still v) fun it => Cost.read (HVIter.run_still script it) fun r => Cost.pure (Nat.le_refl _) trivial⟩
  | focusRead is =>
    cases hn
    exact ⟨K, Cost.read (HFocus.new_still v) fun f => Cost.read (hrunAll_still (fun i f => HFocus.get_still f i) is f) fun r =>
      Cost.pure (Nat.le_refl _) trivial⟩
  | set i x => cases hn; exact done (HVec.set_cost hv i x)
  | setEnd s x => cases hn; exact done (HVec.setFrontBack_cost hv s x)
  | pushBack x => cases hn; exact done (HVec.pushBack_cost hv x)
  | pushFront x => cases hn; exact done (HVec.pushFront_cost hv x)
  | popBack => cases hn; exact done (HVec.popSide_cost hv .back)
  | popFront => cases hn; exact done (HVec.popSide_cost hv .front)
  | splitOff i => cases hn; exact done ((HVec.splitOff_cost hv i).le (by omega))
  | sliceFromStart i => cases hn; exact done (HVec.sliceFromStart_cost hv i)
  | sliceToEnd i => cases hn; exact done (HVec.sliceToEnd_cost hv i)
  | extractSlice sb eb => cases hn; exact done (HVec.extractSlice_cost hv sb eb)
  | insert i x => cases hn; exact done (HVec.insert_cost hv i x)
  | remove i => cases hn; exact done (HVec.remove_cost hv i)
  | reverseRange sb eb => cases hn
  | sortRange => cases hn
  | mapEnds g script =>
    cases hn
    refine ⟨K, Cost.bind (N1 := 2 * K + 1) (K1 := K) (Q := fun w => FocusOk Z K w.2.focus) ?_ (by omega) fun w hw => ?_⟩
    · exact Cost.bind (HVec.focusMut_cost hv) (by omega) fun r hr => Cost.pure (Nat.le_refl _) hr.2
    · refine Cost.bind ((hrunAll_cost (P := fun it => FocusOk Z K it.focus) (fun s it h => hmapStep_cost g s h) script w.2 hw).le
        (Nat.le_of_eq (Nat.add_sub_cancel_left ..).symm)) (Nat.le_refl _) fun r hr => Cost.pure (Nat.le_refl _) trivial
  | editFocus ops =>
    cases hn
    refine ⟨K, Cost.bind (HVec.focusMut_cost hv) (by omega) fun w hw => ?_⟩
    refine Cost.bind ((hrunAll_cost (P := FocusOk Z K) (fun o f h => o.hrun_cost h) ops w.2 hw.2).le
        (Nat.le_of_eq (Nat.add_sub_cancel_left ..).symm)) (Nat.le_refl _) fun r hr => Cost.pure (Nat.le_refl _) trivial
  | shareFocus ops =>
    cases hn
    refine ⟨K, Cost.bind (HVec.focusMut_cost hv) (by omega) fun w hw => ?_⟩
    refine Cost.bind ((hrunAll_cost (P := fun fs => ∀ f ∈ fs, FocusOk Z K f) (fun o f h => o.hrun_cost h) ops [w.2]
        (by simpa using hw.2)).le
        (Nat.le_of_eq (Nat.add_sub_cancel_left ..).symm)) (Nat.le_refl _) fun r hr => Cost.pure (Nat.le_refl _) trivial

end Librrb
