import Verif.AnnotatedHistory
import Verif.Proof.AnnotatedSum
import Verif.Proof.AnnotatedJoin

/-!
# Mutable foci of annotated vectors do what those of plain vectors do, as long as they return

Dropping borrowed nodes changes cached sums only, and a write through a focus is the same write on the plain vector.
-/
namespace Librrb

theorem readSlot_eq {d : List (Option α)} {i : Nat} {x : α} (h : readSlot d i = .ok x) : d[i]? = some (some x) := by
  unfold readSlot at h
  rcases hd : d[i]? with _ | _ | y
  · rw [hd] at h; cases h
  · rw [hd] at h; cases h
  · rw [hd] at h; cases h; rfl

theorem assignSlot_eq {d d' : List (Option α)} {i : Nat} {x : α} (h : assignSlot d i x = .ok d') :
    d' = d.set i (some x) ∧ ∃ y, d[i]? = some (some y) := by
  unfold assignSlot at h
  rcases hd : d[i]? with _ | _ | y
  · rw [hd] at h; cases h
  · rw [hd] at h; cases h
  · rw [hd] at h; cases h; exact ⟨rfl, y, rfl⟩

namespace ANode

/-- A change that does not touch the items. -/
def Quiet (f : ANode → M ANode) : Prop := ∀ nd nd', f nd = .ok nd' → nd'.erase = nd.erase

theorem refresh_quiet (b : BNode Cell) : Quiet (refresh b) := by
  intro nd nd' h
  cases b <;> cases nd <;> simp only [refresh] at h
  · cases h
  · obtain ⟨_, -, h⟩ := RVec.bind_ok h; cases h; simp
  · obtain ⟨_, -, h⟩ := RVec.bind_ok h; cases h; simp
  · cases h

theorem modifyAt_quiet {f : ANode → M ANode} (hf : Quiet f) : ∀ path : List Nat, Quiet (modifyAt f path)
  | [] => by intro nd nd' h; rw [modifyAt] at h; exact hf _ _ h
  | p :: path => by
    intro nd nd' h
    cases nd with
    | leaf b s => rw [modifyAt] at h; cases h
    | internal s t c m =>
      rw [modifyAt] at h
      obtain ⟨k, e1, h⟩ := RVec.bind_ok h
      obtain ⟨k', e2, h⟩ := RVec.bind_ok h
      obtain ⟨d, e3, h⟩ := RVec.bind_ok h
      cases h
      have hk := modifyAt_quiet hf path _ _ e2
      obtain ⟨rfl, -⟩ := assignSlot_eq e3
      have := readSlot_eq e1
      simp only [erase_internal, CB.map, List.map_set, Option.map_some, hk]
      congr 2
      apply List.ext_getElem?
      intro j
      rw [List.getElem?_set]
      by_cases hj : p = j
      · subst hj
        obtain ⟨hlt, this⟩ := List.getElem?_eq_some_iff.mp this
        simp [hlt, this]
      · simp [hj]

theorem putItem_erase (x p : Nat) (nd : ANode) : Refines erase (putItem x p nd) (nd.erase.writeAt x [p]) := by
  cases nd with
  | leaf b s =>
    rw [erase_leaf, putItem, Node.writeAt]
    exact .same fun _ => .ok (by simp)
  | internal s t c m => exact .error

theorem modifyAt_putItem (x q : Nat) : ∀ (path : List Nat) (nd : ANode),
    Refines erase (modifyAt (putItem x q) path nd) (nd.erase.writeAt x (path ++ [q]))
  | [], nd => by rw [modifyAt]; exact putItem_erase x q nd
  | p :: path, .leaf b s => by rw [modifyAt]; exact .error
  | p :: path, .internal s t c m => by
    rw [modifyAt, erase_internal]
    have h : p :: path ++ [q] = p :: (path ++ [q]) := rfl
    obtain ⟨r, rest, hr⟩ : ∃ r rest, path ++ [q] = r :: rest := by
      cases path with
      | nil => exact ⟨q, [], rfl⟩
      | cons a l => exact ⟨a, l ++ [q], rfl⟩
    rw [h, hr, Node.writeAt, ← hr]
    refine Refines.bind (CB.readSlot_map erase _ _) fun k => ?_
    refine Refines.bind (modifyAt_putItem x q path k) fun k' => ?_
    refine Refines.bind (CB.assignSlot_map erase _ _ _) fun d => .ok ?_
    rw [erase_internal]; rfl

end ANode

namespace AVec

theorem erase_withNodeAt (v : AVec) (pos : Option (Side × Nat)) (nd : ANode) :
    (v.withNodeAt pos nd).erase = v.erase.withNodeAt pos nd.erase := by
  rcases pos with _ | ⟨_ | _, i⟩ <;> simp [withNodeAt, RVec.withNodeAt, AVec.erase, List.map_set]

theorem withNodeAt_self {v : RVec α} {pos : Option (Side × Nat)} {nd : Node α} (h : v.nodeAt pos = .ok nd) :
    v.withNodeAt pos nd = v := by
  rcases pos with _ | ⟨_ | _, i⟩
  · cases h; rfl
  · have := RVec.unwrap_eq h
    rw [List.getElem?_eq_some_iff] at this
    obtain ⟨hi, rfl⟩ := this
    simp [RVec.withNodeAt]
  · have := RVec.unwrap_eq h
    rw [List.getElem?_eq_some_iff] at this
    obtain ⟨hi, rfl⟩ := this
    simp [RVec.withNodeAt]

theorem modifyAt_quiet {f : ANode → M ANode} (hf : ANode.Quiet f) {v v' : AVec} {a : Home}
    (h : v.modifyAt f a = .ok v') : v'.erase = v.erase := by
  obtain ⟨nd, e1, h⟩ := RVec.bind_ok h
  obtain ⟨nd', e2, h⟩ := RVec.bind_ok h
  cases h
  rw [erase_withNodeAt, ANode.modifyAt_quiet hf a.2 _ _ e2]
  exact withNodeAt_self (by rw [nodeAt_erase_eq, e1]; rfl)

theorem dropBorrowed_erase : ∀ (bs : List (BNode Cell)) {v v' : AVec}, v.dropBorrowed bs = .ok v' → v'.erase = v.erase
  | [], v, v', h => by cases h; rfl
  | b :: bs, v, v', h => by
    rw [dropBorrowed] at h
    obtain ⟨a, -, h⟩ := RVec.bind_ok h
    obtain ⟨v1, e2, h⟩ := RVec.bind_ok h
    rw [dropBorrowed_erase bs h, modifyAt_quiet (ANode.refresh_quiet b) e2]

theorem dropFoci_erase : ∀ (fs : List (FMut Cell)) {v v' : AVec}, v.dropFoci fs = .ok v' → v'.erase = v.erase
  | [], v, v', h => by cases h; rfl
  | [f], v, v', h => dropBorrowed_erase _ h
  | f :: g :: fs, v, v', h => by
    rw [dropFoci] at h
    · obtain ⟨v1, e1, h⟩ := RVec.bind_ok h
      rw [dropFoci_erase (g :: fs) h, dropBorrowed_erase _ e1]
    · rintro ⟨⟩

theorem writeCell_erase (v : AVec) (x : Nat) (c : Cell) : Refines erase (v.writeCell x c) (v.erase.writeCell x c) := by
  obtain ⟨pos, path⟩ := c
  rcases List.eq_nil_or_concat path with rfl | ⟨path, p, rfl⟩
  · exact .error
  · simp only [List.concat_eq_append, writeCell, List.getLast?_append, List.getLast?_singleton, Option.some_or, List.dropLast_concat]
    unfold modifyAt RVec.writeCell
    refine Refines.bind (nodeAt_erase v pos) fun nd => ?_
    refine Refines.bind (ANode.modifyAt_putItem x p path nd) fun nd' => .ok ?_
    rw [erase_withNodeAt]

end AVec

theorem Refines.quiet {g : γ → δ} {x : M α} {k : α → M γ} {y : M δ} (hk : ∀ a, x = .ok a → Refines g (k a) y) :
    Refines g (x >>= k) y := by
  intro c e
  cases hxx : x with
  | error e' => rw [hxx] at e; cases e
  | ok a => rw [hxx] at e; exact hk a hxx c e

theorem FOp.accessA_erase (o : FOp Nat) (v : AVec) (c : Option Cell) :
    Refines (fun r => (r.1, r.2.erase)) (o.accessA v c) (o.access v.erase c) := by
  cases c with
  | none => exact .ok rfl
  | some c =>
    refine .same fun old => ?_
    cases o with
    | read i => exact .ok rfl
    | write i x => exact Refines.bind (AVec.writeCell_erase v x c) fun _ => .ok rfl

theorem FOp.runA_erase (o : FOp Nat) (v : AVec) (f : FMut Cell) :
    Refines (fun r => (r.1, (r.2.1.erase, r.2.2))) (o.runA (v, f)) (o.run (v.erase, f)) := by
  intro r h
  unfold FOp.runA AVec.focusGet at h
  obtain ⟨r1, e, h⟩ := RVec.bind_ok h
  obtain ⟨v1, e1, e⟩ := RVec.bind_ok e
  obtain ⟨q, e2, e⟩ := RVec.bind_ok e
  cases e
  obtain ⟨a, e3, h⟩ := RVec.bind_ok h
  cases h
  have := FOp.accessA_erase o v1 q.1 _ e3
  rw [AVec.dropBorrowed_erase _ e1] at this
  unfold FOp.run
  dsimp only
  rw [e2]
  simp only [ok_bind, this]

theorem TOp.runA_erase (t : TOp Nat) (st : AVec × List (FMut Cell) × List (FMut Cell)) :
    Refines (fun r => (r.1, (r.2.1.erase, r.2.2.1))) (t.runA st) (t.run (st.1.erase, st.2.1)) := by
  cases t with
  | use k o =>
    simp only [TOp.runA, TOp.run]
    cases st.2.1[k]? with
    | none => exact .ok rfl
    | some f => exact Refines.bind (FOp.runA_erase o st.1 f) fun r => .ok rfl
  | split k i =>
    simp only [TOp.runA, TOp.run]
    cases st.2.1[k]? with
    | none => exact .ok rfl
    | some f =>
      simp only [AVec.focusSplit, bind_assoc]
      refine Refines.quiet fun ds e1 => Refines.quiet fun v1 e2 => ?_
      rw [← AVec.dropBorrowed_erase _ e2]
      exact .same fun r => .ok rfl

theorem mapStepA_erase (g : Nat → Nat) (s : Side) (v : AVec) (it : VIterMut Cell) :
    Refines (fun r => (r.1, (r.2.1.erase, r.2.2))) (mapStepA g s (v, it)) (mapStep g s (v.erase, it)) := by
  unfold mapStepA
  refine Refines.quiet fun v1 e1 => ?_
  have hv : v1.erase = v.erase := by
    dsimp only at e1
    split at e1
    · exact AVec.dropBorrowed_erase _ e1
    · cases e1; rfl
  unfold mapStep
  dsimp only
  rw [← hv]
  refine .same fun r => ?_
  cases r.1 with
  | none => exact .ok rfl
  | some c => exact .same fun x => Refines.bind (AVec.writeCell_erase v1 _ c) fun _ => .ok rfl

theorem runAll_refines {ι σ τ ρ : Type} {φ : σ → τ} {f : ι → σ → M (ρ × σ)} {g : ι → τ → M (ρ × τ)}
    (h : ∀ i s, Refines (fun r => (r.1, φ r.2)) (f i s) (g i (φ s))) :
    ∀ (is : List ι) (s : σ), Refines (fun r => (r.1, φ r.2)) (runAll f is s) (runAll g is (φ s))
  | [], s => .ok rfl
  | i :: is, s => Refines.bind (h i s) fun r => Refines.bind (runAll_refines h is r.2) fun q => .ok rfl

theorem runScript_refines {σ τ ρ : Type} {φ : σ → τ} {f : Side → σ → M (Option ρ × σ)} {g : Side → τ → M (Option ρ × τ)}
    (h : ∀ i s, Refines (fun r => (r.1, φ r.2)) (f i s) (g i (φ s))) :
    ∀ (is : List Side) (s : σ), Refines (fun r => (r.1, φ r.2)) (runScript f is s) (runScript g is (φ s))
  | [], s => .ok rfl
  | i :: is, s => Refines.bind (h i s) fun r => Refines.bind (runScript_refines h is r.2) fun q => .ok rfl

end Librrb
