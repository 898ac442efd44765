import Verif.Proof.AnnotatedSort
import Verif.Props.History

/-!
# A program on annotated vectors that returns, returns what it does on plain vectors
-/
namespace Librrb

/-- The results of a call on one vector, without the sums. -/
def eraseAct (r : Answer Nat × AVec × List AVec) : Answer Nat × RVec Nat × List (RVec Nat) :=
  (r.1, r.2.1.erase, r.2.2.map AVec.erase)

/-- The results of a call, without the sums. -/
def eraseAll (r : β × List AVec) : β × List (RVec Nat) := (r.1, r.2.map AVec.erase)

theorem AVec.assigned_erase (v : AVec) (o : Option AVec) :
    Librrb.assigned v.erase (o.map AVec.erase) = eraseAct (v.assigned o) := by
  cases o <;> rfl

theorem AAct.run_erase (v : AVec) (a : AAct) : Refines eraseAct (a.run v) (a.plain.run v.erase) := by
  cases a with
  | len => exact .ok rfl
  | isEmpty => exact .ok rfl
  | get i => exact Refines.bind (AVec.get_erase v i) fun _ => .ok rfl
  | front =>
    simp only [AAct.run, AAct.plain, Act.run]
    rw [AVec.frontBack_erase]
    exact .same fun _ => .ok rfl
  | back =>
    simp only [AAct.run, AAct.plain, Act.run]
    rw [AVec.frontBack_erase]
    exact .same fun _ => .ok rfl
  | iterate script => exact .same fun _ => .same fun _ => .ok rfl
  | focusRead is => exact .same fun _ => .same fun _ => .ok rfl
  | set g i x => exact Refines.bind (AVec.set_erase g v i x) fun o => .ok (AVec.assigned_erase v o)
  | setEnd s x => exact Refines.bind (AVec.setFrontBack_erase v s x) fun o => .ok (AVec.assigned_erase v o)
  | push s x => cases s <;> exact Refines.bind (AVec.pushSide_erase v _ x) fun _ => .ok rfl
  | pop s => cases s <;> exact Refines.bind (AVec.popSide_erase v _) fun _ => .ok rfl
  | splitOff i => exact Refines.bind (AVec.splitOff_erase v i) fun _ => .ok rfl
  | sliceFromStart n => exact Refines.bind (AVec.sliceFromStart_erase v n) fun _ => .ok rfl
  | sliceToEnd n => exact Refines.bind (AVec.sliceToEnd_erase v n) fun _ => .ok rfl
  | extractSlice sb eb => exact Refines.bind (AVec.extractSlice_erase v sb eb) fun _ => .ok rfl
  | insert i x => exact Refines.bind (AVec.insert_erase v i x) fun _ => .ok rfl
  | remove i => exact Refines.bind (AVec.remove_erase v i) fun _ => .ok rfl
  | mapEnds g script =>
    refine .same fun it => Refines.bind (runScript_refines (φ := fun st => (st.1.erase, st.2))
      (fun s st => mapStepA_erase g s st.1 st.2) script (v, it)) fun r => Refines.quiet fun w e => .ok ?_
    simp [eraseAct, AVec.dropFoci_erase _ e]
  | editFocus ops =>
    refine .same fun f => Refines.bind (runAll_refines (φ := fun st => (st.1.erase, st.2))
      (fun o st => FOp.runA_erase o st.1 st.2) ops (v, f)) fun r => Refines.quiet fun w e => .ok ?_
    simp [eraseAct, AVec.dropFoci_erase _ e]
  | shareFocus ops =>
    refine .same fun f => Refines.bind (runAll_refines (φ := fun st => (st.1.erase, st.2.1))
      TOp.runA_erase ops (v, [f], [])) fun r => Refines.quiet fun w e => .ok ?_
    simp [eraseAct, AVec.dropFoci_erase _ e]
  | reverseRange sb eb => exact Refines.bind (AVec.reverseRange_erase v sb eb) fun _ => .ok rfl
  | sortRange cmp total draws sb eb => exact Refines.bind (AVec.sortRangeBy_erase v cmp sb eb _ _) fun _ => .ok rfl

theorem intoIter_erase : ∀ (script : List Side) (v : AVec),
    Refines (fun r => (r.1, r.2.erase)) (runScript (fun s v => v.popSide s) script v)
      (runScript RVec.intoIterStep script v.erase)
  | [], _ => .ok rfl
  | s :: ss, v => by
    have h : Refines (fun r => (r.1, r.2.erase)) (v.popSide s) (RVec.intoIterStep s v.erase) := by
      cases s <;> exact AVec.popSide_erase v _
    exact Refines.bind h fun r => Refines.bind (intoIter_erase ss r.2) fun q => .ok rfl

theorem ACall.run_erase (st : List AVec) (c : ACall) :
    Refines eraseAll (c.run st) (c.plain.run (st.map AVec.erase)) := by
  cases c with
  | new => exact .ok (by simp [eraseAll, AVec.erase_new])
  | singleton x => exact Refines.bind (AVec.singleton_erase x) fun _ => .ok (by simp [eraseAll])
  | collect items => exact Refines.bind (AVec.fromIter_erase items) fun _ => .ok (by simp [eraseAll])
  | clone v =>
    refine .ok ?_
    simp only [eraseAll, List.map_append, List.getElem?_map]
    cases st[v]? <;> rfl
  | act v a =>
    simp only [ACall.run, ACall.plain, Call.run, List.getElem?_map]
    cases st[v]? with
    | none => exact .ok rfl
    | some x =>
      exact Refines.bind (AAct.run_erase x a) fun r => .ok (by simp [eraseAll, eraseAct, List.map_set])
  | append v w =>
    simp only [ACall.run, ACall.plain, Call.run]
    rw [← AVec.erase_new, ← List.map_set]
    simp only [List.getElem?_map]
    cases (st.set w AVec.new)[v]? with
    | none => exact .ok rfl
    | some x =>
      cases st[w]? with
      | none => exact .ok rfl
      | some y =>
        exact Refines.bind (AVec.append_erase x y) fun r => .ok (by simp [eraseAll, List.map_set])
  | prepend v w =>
    simp only [ACall.run, ACall.plain, Call.run]
    rw [← AVec.erase_new, ← List.map_set]
    simp only [List.getElem?_map]
    cases (st.set w AVec.new)[v]? with
    | none => exact .ok rfl
    | some x =>
      cases st[w]? with
      | none => exact .ok rfl
      | some y =>
        exact Refines.bind (AVec.prepend_erase x y) fun r => .ok (by simp [eraseAll, List.map_set])
  | compare cmp v w =>
    simp only [ACall.run, ACall.plain, Call.run, List.getElem?_map]
    cases st[v]? with
    | none => exact .ok rfl
    | some x =>
      cases st[w]? with
      | none => exact .ok rfl
      | some y => exact .same fun _ => .ok rfl
  | drop v => exact .ok (by simp [eraseAll, List.eraseIdx_eq_take_drop_succ])
  | intoIter v script =>
    simp only [ACall.run, ACall.plain, Call.run, List.getElem?_map]
    cases st[v]? with
    | none => exact .ok rfl
    | some x => exact Refines.bind (intoIter_erase script x) fun r => .ok (by simp [eraseAll, List.eraseIdx_eq_take_drop_succ])
  | constant x n => exact Refines.bind (AVec.constantVecOfLength_erase x n) fun _ => .ok (by simp [eraseAll])
  | dualSort cmp total draws sb eb v w =>
    simp only [ACall.run, ACall.plain, Call.run, List.getElem?_map]
    split
    · exact .ok rfl
    · cases st[v]? with
      | none => exact .ok rfl
      | some x =>
        cases st[w]? with
        | none => exact .ok rfl
        | some y => exact Refines.bind (AVec.dualSortRangeBy_erase x y cmp sb eb _ _) fun r => .ok (by simp [eraseAll, List.map_set])

theorem runAProgram_erase : ∀ (cs : List ACall) (st : List AVec),
    Refines eraseAll (runAProgram cs st) (runProgram (cs.map ACall.plain) (st.map AVec.erase))
  | [], _ => .ok rfl
  | c :: cs, st => by
    simp only [runAProgram, runProgram, runAll, List.map_cons]
    refine Refines.bind (ACall.run_erase st c) fun r => ?_
    exact Refines.bind (runAProgram_erase cs r.2) fun q => .ok rfl

end Librrb
