import Verif.Model.AnnotatedJoin
import Verif.Proof.Annotated

/-!
# Splitting and joining annotated vectors is splitting and joining plain ones, as long as it returns
-/
namespace Librrb

namespace CB
variable (f : α → β)

theorem pairMut_map (b : CB α) (i j : Nat) : (b.map f).pairMut i j = b.pairMut i j := by
  simp [pairMut]
  rfl

theorem back_map (b : CB α) : Refines (Option.map f) b.back (b.map f).back := by
  unfold back
  exact .ite (.same fun i => get_map f b i) (.ok rfl)

theorem popBack_map (b : CB α) : Refines (fun r => (f r.1, map f r.2)) b.popBack (b.map f).popBack := pop_map f b .back

theorem iter_map (b : CB α) : (b.map f).iter = b.iter := rfl

theorem Iter.next_map (b : CB α) (it : Iter) :
    Refines (fun r => (r.1.map f, r.2)) (it.next b) (it.next (b.map f)) := by
  unfold Iter.next
  exact .ite (.ok rfl) (Refines.bind (readSlot_map f _ _) fun x => .ok rfl)

theorem foldIterLoop_map {σ : Type} {g : σ → α → M σ} {g' : σ → β → M σ} (b : CB α)
    (hg : ∀ s x, Refines id (g s x) (g' s (f x))) : ∀ (n : Nat) (it : Iter) (s : σ),
    Refines id (foldIterLoop g b n it s) (foldIterLoop g' (b.map f) n it s)
  | 0, _, _ => .error
  | n + 1, it, s => by
    refine Refines.bind (Iter.next_map f b it) fun r => ?_
    cases hr : r.1 with
    | none => exact .ok rfl
    | some x => exact Refines.bind (hg s x) fun s' => foldIterLoop_map b hg n _ _

theorem foldIter_map {σ : Type} {g : σ → α → M σ} {g' : σ → β → M σ} (b : CB α)
    (hg : ∀ s x, Refines id (g s x) (g' s (f x))) (s : σ) :
    Refines id (foldIter g b s) (foldIter g' (b.map f) s) := foldIterLoop_map f b hg _ _ _

end CB

namespace ANode

theorem erase_isFull (nd : ANode) : nd.erase.isFull = nd.isFull := by
  rw [Node.isFull, isFull, erase_freeSlots]

theorem packLoop_erase : ∀ (n w r : Nat) (c : CB ANode),
    Refines (CB.map erase) (packLoop n w r c) (Node.packLoop n w r (c.map erase))
  | 0, w, r, c => .ite .error (.ok rfl)
  | n + 1, w, r, c => by
    unfold packLoop Node.packLoop
    refine .ite (.ite (packLoop_erase n _ _ _) ?_) (.ok rfl)
    rw [CB.pairMut_map]
    refine .same fun p => ?_
    refine Refines.bind (CB.readSlot_map erase _ _) fun wr => Refines.bind (CB.readSlot_map erase _ _) fun rd => ?_
    refine Refines.bind (shareChildrenWith_erase _ _ _ _) fun q => ?_
    refine Refines.bind (CB.assignSlot_map erase _ _ _) fun d => Refines.bind (CB.assignSlot_map erase _ _ _) fun d' => ?_
    dsimp only
    rw [erase_isFull, erase_isEmpty]
    exact .same fun a => .same fun b => packLoop_erase n _ _ _

theorem packTrim_erase : ∀ (n : Nat) (c : CB ANode),
    Refines (CB.map erase) (packTrim n c) (Node.packTrim n (c.map erase))
  | 0, _ => .error
  | n + 1, c => by
    refine Refines.bind (CB.back_map erase c) fun o => Refines.bind (CB.unwrap_map erase o) fun k => ?_
    rw [erase_isEmpty]
    exact .same fun e => .ite (Refines.bind (CB.popBack_map erase c) fun q => packTrim_erase n _) (.ok rfl)

theorem packChildren_erase (a : ANode) : Refines erase a.packChildren a.erase.packChildren := by
  cases a with
  | leaf b m => exact .error
  | internal s t c m =>
    unfold packChildren
    dsimp only
    rw [← erase_isEmpty, erase_internal]
    refine .same fun e => .ite (.ok (by simp)) (.same fun _ => .same fun _ => ?_)
    refine Refines.bind (packLoop_erase _ _ _ c) fun c => Refines.bind (packTrim_erase _ c) fun c => ?_
    refine Refines.bind (CB.foldIter_map erase c (fun s k => ?_) _) fun s' => ?_
    · rw [erase_len]; exact .rfl'
    · exact .same fun _ => .same fun _ => .ok (by simp)

theorem debugCheckAux_erase : ∀ (n : Nat) (a : ANode) (i j : Nat),
    Refines id (debugCheckAux n a i j) (Node.debugCheckAux n a.erase i j)
  | 0, _, _, _ => .error
  | n + 1, .leaf b m, i, j => by rw [erase_leaf]; exact .rfl'
  | n + 1, .internal s t c m, i, j => by
    rw [erase_internal]
    unfold debugCheckAux Node.debugCheckAux
    refine .same fun _ => .same fun _ => ?_
    refine Refines.bind (f := id) (CB.foldIter_map erase c (fun st k => ?_) _) fun r => .rfl'
    exact .same fun o => .same fun k' => .same fun lv => Refines.bind (debugCheckAux_erase n k _ _) fun _ => .ok rfl

theorem debugCheck_erase (a : ANode) (i j : Nat) : Refines id (a.debugCheck i j) (a.erase.debugCheck i j) := by
  unfold debugCheck Node.debugCheck
  rw [erase_level]
  exact debugCheckAux_erase _ _ _ _

theorem splitLoop_erase : ∀ (n : Nat) (b o : CB Nat) (m k : Nat),
    Refines (fun r => (r.1.erase, r.2.erase)) (splitLoop n (.leaf b m) (.leaf o k))
      (do let r ← Node.splitLoop n b o; .ok (Node.leaf r.1, Node.leaf r.2))
  | 0, b, o, m, k => .ok (by simp)
  | n + 1, b, o, m, k => by
    simp only [splitLoop, Node.splitLoop, leafPop, leafPush, bind_assoc]
    refine .same fun r => .skip fun m' => ?_
    simp only [ok_bind, bind_assoc]
    refine .skip fun k' => .same fun o' => ?_
    exact splitLoop_erase n _ _ _ _

theorem splitAtChild_erase (a : ANode) (i : Nat) :
    Refines (fun r => (r.1.erase, r.2.erase)) (a.splitAtChild i) (a.erase.splitAtChild i) := by
  cases a with
  | leaf b m =>
    rw [erase_leaf]
    unfold splitAtChild Node.splitAtChild
    refine .ite ?_ .error
    intro r e
    obtain ⟨q, e1, e⟩ := RVec.bind_ok e
    cases e
    have := splitLoop_erase i b CB.new m 0 q e1
    obtain ⟨p, e2, h⟩ := RVec.bind_ok this
    injection h with h
    rw [e2]
    injection h with h1 h2
    simp only [ok_bind]
    rw [h1, h2]
  | internal s t c m =>
    unfold splitAtChild
    rw [erase_internal]
    unfold Node.splitAtChild
    refine .ite ?_ .error
    have := shareChildrenWith_erase (.internal s t c m) (ANode.internal s t c m).newEmpty .front i
    rw [erase_newEmpty, erase_internal] at this
    exact Refines.bind this fun r => .ok rfl

theorem splitAtPositionAux_erase : ∀ (n : Nat) (a : ANode) (i : Nat),
    Refines (fun r => (r.1.erase, r.2.erase)) (splitAtPositionAux n a i) (Node.splitAtPositionAux n a.erase i)
  | 0, _, _ => .error
  | n + 1, .leaf b m, i => by
    have := splitAtChild_erase (.leaf b m) i
    rw [erase_leaf] at this ⊢
    exact this
  | n + 1, .internal s t c m, i => by
    have h := fun k => splitAtChild_erase (.internal s t c m) k
    have hl := erase_len (.internal s t c m)
    simp only [erase_internal] at h hl ⊢
    unfold splitAtPositionAux Node.splitAtPositionAux
    rw [hl]
    refine .same fun ol => .same fun _ => .same fun o => .same fun p => ?_
    refine Refines.bind (h _) fun r => Refines.bind (popChild_erase _ _) fun q => ?_
    dsimp only
    rw [erase_len]
    refine .same fun nl => ?_
    refine Refines.bind (f := fun r : ANode × ANode => (r.1.erase, r.2.erase))
      (.ite (Refines.bind (pushChild_erase _ _ _) fun _ => .ok rfl)
        (.ite (Refines.bind (pushChild_erase _ _ _) fun _ => .ok rfl)
          (Refines.bind (splitAtPositionAux_erase n _ _) fun sub =>
            Refines.bind (pushChild_erase _ _ _) fun _ => Refines.bind (pushChild_erase _ _ _) fun _ => .ok rfl))) fun fin => ?_
    dsimp only
    rw [erase_level, erase_level]
    exact Refines.bind (debugCheck_erase _ _ _) fun _ => .same fun d => Refines.bind (debugCheck_erase _ _ _) fun _ => .ok rfl

theorem splitAtPosition_erase (a : ANode) (i : Nat) :
    Refines (fun r => (r.1.erase, r.2.erase)) (a.splitAtPosition i) (a.erase.splitAtPosition i) := by
  unfold splitAtPosition Node.splitAtPosition
  rw [erase_level]
  exact splitAtPositionAux_erase _ _ _

end ANode

namespace AVec

theorem leafEnd_erase (s : Side) (nd : ANode) : RVec.leafEnd s nd.erase = leafEnd s nd := by
  cases nd <;> cases s <;> simp [RVec.leafEnd, leafEnd]

theorem frontBack_erase (v : AVec) (s : Side) : v.erase.frontBack s = v.frontBack s := by
  rw [RVec.frontBack, erase_leafNode, leafEnd_erase]; rfl

theorem setLeafEnd_erase (s : Side) (x : Nat) (nd : ANode) :
    Refines (Option.map ANode.erase) (setLeafEnd s x nd) (RVec.setLeafEnd s x nd.erase) := by
  cases nd with
  | leaf b m =>
    rw [ANode.erase_leaf]
    refine .same fun r => .ok ?_
    cases r <;> simp
  | internal s t c m => exact .error

theorem setFrontBack_erase (v : AVec) (s : Side) (x : Nat) :
    Refines (Option.map erase) (v.setFrontBack s x) (v.erase.setFrontBack s x) := by
  unfold setFrontBack RVec.setFrontBack
  rw [erase_leafNode]
  refine Refines.bind (setLeafEnd_erase s x _) fun r => ?_
  cases r with
  | none => exact .ok rfl
  | some nd => exact .ok (by simp [erase_withLeafNode])

theorem pushBack_erase (v : AVec) (x : Nat) : Refines erase (v.pushBack x) (v.erase.pushBack x) := pushSide_erase v .back x
theorem pushFront_erase (v : AVec) (x : Nat) : Refines erase (v.pushFront x) (v.erase.pushFront x) := pushSide_erase v .front x
theorem popBack_erase (v : AVec) : Refines (fun r => (r.1, r.2.erase)) v.popBack v.erase.popBack := popSide_erase v .back
theorem popFront_erase (v : AVec) : Refines (fun r => (r.1, r.2.erase)) v.popFront v.erase.popFront := popSide_erase v .front

theorem pushAll_erase : ∀ (l : List Nat) (v : AVec), Refines erase (v.pushAll l) (v.erase.pushAll l)
  | [], _ => .ok rfl
  | x :: l, v => Refines.bind (pushBack_erase v x) fun w => pushAll_erase l w

theorem fromIter_erase (l : List Nat) : Refines erase (fromIter l) (RVec.fromIter l) := by
  have := pushAll_erase l .new
  rwa [erase_new] at this

theorem singleton_erase (x : Nat) : Refines erase (singleton x) (RVec.singleton x) := by
  have := pushBack_erase .new x
  rwa [erase_new] at this

theorem raiseSelf_erase : ∀ (n t : Nat) (v : AVec), Refines erase (raiseSelf n t v) (RVec.raiseSelf n t v.erase)
  | 0, t, v => by
    unfold raiseSelf RVec.raiseSelf
    rw [show v.erase.right.length = v.right.length by simp [erase]]
    exact .ite .error (.ok rfl)
  | n + 1, t, v => by
    unfold raiseSelf RVec.raiseSelf
    rw [show v.erase.right.length = v.right.length by simp [erase], show v.erase.root = v.root.erase from rfl,
      ANode.erase_level, ANode.erase_slots, ← ANode.erase_newEmpty]
    refine .ite (Refines.bind (ANode.emptyInternal_erase _) fun nr => ?_) (.ok rfl)
    refine Refines.bind (ANode.shareChildrenWith_erase _ _ _ _) fun r => ?_
    have := raiseSelf_erase n t { v with root := nr, left := v.left ++ [r.2.1], right := v.right ++ [r.2.2] }
    simpa [erase] using this

theorem raiseOther_erase : ∀ (n t : Nat) (v : AVec), Refines erase (raiseOther n t v) (RVec.raiseOther n t v.erase)
  | 0, t, v => by
    unfold raiseOther RVec.raiseOther
    rw [show v.erase.left.length = v.left.length by simp [erase]]
    exact .ite .error (.ok rfl)
  | n + 1, t, v => by
    unfold raiseOther RVec.raiseOther
    rw [show v.erase.left.length = v.left.length by simp [erase], show v.erase.root = v.root.erase from rfl,
      ANode.erase_level, ANode.erase_slots, ← ANode.erase_newEmpty]
    refine .ite (Refines.bind (ANode.emptyInternal_erase _) fun nr => ?_) (.ok rfl)
    refine Refines.bind (ANode.shareChildrenWith_erase _ _ _ _) fun r => ?_
    have := raiseOther_erase n t { v with root := nr, left := v.left ++ [r.2.2], right := v.right ++ [r.2.1] }
    simpa [erase] using this

theorem pushUp_erase (s : Side) (k : ANode) (sp : List ANode) (root : ANode) :
    Refines (fun r => (r.1.map ANode.erase, r.2.erase)) (pushUp s k sp root)
      (RVec.pushUp s k.erase (sp.map ANode.erase) root.erase) := by
  unfold pushUp RVec.pushUp
  rw [ANode.erase_isEmpty]
  refine .same fun e => .ite (.ok rfl) ?_
  cases sp with
  | nil => exact Refines.bind (ANode.pushChild_erase _ _ _) fun _ => .ok rfl
  | cons p rest => exact Refines.bind (ANode.pushChild_erase _ _ _) fun _ => .ok rfl

theorem stealLoop_erase : ∀ (n : Nat) (a b : ANode),
    Refines (fun r => (r.1.erase, r.2.erase)) (stealLoop n a b) (RVec.stealLoop n a.erase b.erase)
  | 0, a, b => by
    unfold stealLoop RVec.stealLoop
    rw [ANode.erase_isFull, ANode.erase_isEmpty]
    exact .same fun _ => .same fun _ => .ite .error (.ok rfl)
  | n + 1, a, b => by
    unfold stealLoop RVec.stealLoop
    rw [ANode.erase_isFull, ANode.erase_isEmpty]
    refine .same fun _ => .same fun _ => .ite ?_ (.ok rfl)
    refine Refines.bind (ANode.popChild_erase _ _) fun p => ?_
    dsimp only
    rw [ANode.erase_slots]
    refine Refines.bind (ANode.shareChildrenWith_erase _ _ _ _) fun r => ?_
    dsimp only
    rw [ANode.erase_isEmpty]
    refine .same fun e => ?_
    exact Refines.bind (f := ANode.erase) (.ite (ANode.pushChild_erase _ _ _) (.ok rfl)) fun w => stealLoop_erase n _ _

theorem joinLevel_erase (a b : ANode) :
    Refines (fun r => (r.1.erase, r.2.erase)) (joinLevel a b) (RVec.joinLevel a.erase b.erase) := by
  unfold joinLevel RVec.joinLevel
  refine Refines.bind (ANode.packChildren_erase _) fun l => Refines.bind (ANode.popChild_erase _ _) fun p => ?_
  rw [ANode.erase_slots]
  refine Refines.bind (stealLoop_erase _ _ _) fun r => Refines.bind (ANode.pushChild_erase _ _ _) fun l => ?_
  refine Refines.bind (ANode.packChildren_erase _) fun rt => ?_
  rw [ANode.erase_slots]
  exact Refines.bind (ANode.shareChildrenWith_erase _ _ _ _) fun q => .ok rfl

theorem appendLoop_erase : ∀ (n : Nat) (l ol : List ANode) (root oroot : ANode),
    Refines (fun r => (r.1.erase, r.2.erase)) (appendLoop n l ol root oroot)
      (RVec.appendLoop n (l.map ANode.erase) (ol.map ANode.erase) root.erase oroot.erase)
  | n, [], ol, root, oroot => by
    simp only [appendLoop, RVec.appendLoop, List.map_nil, List.isEmpty_map]
    exact .same fun _ => .ok rfl
  | 0, _ :: _, _, _, _ => .error
  | n + 1, l :: ls, ol, root, oroot => by
    simp only [appendLoop, RVec.appendLoop, List.map_cons, List.head?_map, ← List.map_tail]
    refine Refines.bind (CB.unwrap_map ANode.erase _) fun q => Refines.bind (joinLevel_erase _ _) fun j => ?_
    refine Refines.bind (pushUp_erase _ _ _ _) fun r => Refines.bind (pushUp_erase _ _ _ _) fun s => ?_
    exact appendLoop_erase n _ _ _ _

theorem firstUp_erase (s : Side) (sp : List ANode) (root : ANode) :
    Refines (fun r => (r.1.map ANode.erase, r.2.erase)) (firstUp s sp root)
      (RVec.firstUp s (sp.map ANode.erase) root.erase) := by
  cases sp with
  | nil => exact .ok rfl
  | cons k rest => exact pushUp_erase _ _ _ _

theorem appendMain_erase (v w : AVec) : Refines erase (v.appendMain w) (v.erase.appendMain w.erase) := by
  unfold appendMain RVec.appendMain
  rw [show w.erase.left.length = w.left.length by simp [erase]]
  refine .same fun n => Refines.bind (raiseSelf_erase _ _ v) fun v => ?_
  rw [show v.erase.right.length = v.right.length by simp [erase]]
  refine Refines.bind (raiseOther_erase _ _ w) fun w => ?_
  rw [show w.erase.left.length = w.left.length by simp [erase], show w.erase.right.length = w.right.length by simp [erase]]
  refine .same fun _ => .same fun _ => ?_
  refine Refines.bind (firstUp_erase _ _ _) fun r => Refines.bind (firstUp_erase _ _ _) fun s => ?_
  dsimp only
  rw [List.length_map]
  refine Refines.bind (appendLoop_erase _ _ _ _ _) fun roots => ?_
  refine Refines.bind (ANode.shareChildrenWith_erase _ _ _ _) fun q => ?_
  dsimp only
  rw [ANode.erase_freeSlots]
  refine .same fun free => ?_
  refine Refines.bind (f := fun r : ANode × ANode => (r.1.erase, r.2.erase))
    (.ite (Refines.bind (ANode.shareChildrenWith_erase _ _ _ _) fun t => .ok rfl) (.ok rfl)) fun p => ?_
  dsimp only
  rw [ANode.erase_isEmpty, ANode.erase_level]
  refine .same fun e => Refines.bind (f := erase) (.ite (Refines.bind (ANode.emptyInternal_erase _) fun nr => .ok ?_) (.ok ?_))
    fun v => fixupSpineTops_erase v
  · simp [erase]
  · simp [erase]

theorem append_erase (v w : AVec) : Refines erase (v.append w) (v.erase.append w.erase) := by
  unfold append RVec.append
  refine .ite (.ok rfl) (.ite (.ok rfl) (.ite ?_ (.ite ?_ (appendMain_erase v w))))
  · exact Refines.bind (popBack_erase v) fun r => .same fun x => pushFront_erase w x
  · exact Refines.bind (popBack_erase w) fun r => .same fun x => pushBack_erase v x

theorem prepend_erase (v w : AVec) : Refines erase (v.prepend w) (v.erase.prepend w.erase) := append_erase w v

theorem dropEmpty_erase : ∀ (l : List ANode),
    Refines (List.map ANode.erase) (dropEmpty l) (RVec.dropEmpty (l.map ANode.erase))
  | [] => .ok rfl
  | x :: xs => by
    simp only [dropEmpty, RVec.dropEmpty, List.map_cons, ANode.erase_isEmpty]
    exact .same fun e => .ite (dropEmpty_erase xs) (.ok rfl)

theorem popTops_erase : ∀ (n : Nat) (v : AVec), Refines erase (popTops n v) (RVec.popTops n v.erase)
  | 0, v => by
    unfold popTops RVec.popTops
    rw [show v.erase.root = v.root.erase from rfl, ANode.erase_isEmpty,
      show v.erase.left.isEmpty = v.left.isEmpty by simp [erase], show v.erase.right.isEmpty = v.right.isEmpty by simp [erase]]
    exact .same fun _ => .ite .error (.ok rfl)
  | n + 1, v => by
    unfold popTops RVec.popTops
    rw [show v.erase.root = v.root.erase from rfl, ANode.erase_isEmpty,
      show v.erase.left.isEmpty = v.left.isEmpty by simp [erase], show v.erase.right.isEmpty = v.right.isEmpty by simp [erase],
      show v.erase.left.getLast? = v.left.getLast?.map ANode.erase by simp [erase],
      show v.erase.right.getLast? = v.right.getLast?.map ANode.erase by simp [erase]]
    refine .same fun _ => .ite (.ite (Refines.bind (CB.unwrap_map _ _) fun nd => ?_)
      (Refines.bind (CB.unwrap_map _ _) fun nd => ?_)) (.ok rfl)
    · have := popTops_erase n { v with root := nd, right := v.right.dropLast }
      simpa [erase] using this
    · have := popTops_erase n { v with root := nd, left := v.left.dropLast }
      simpa [erase] using this

theorem fillLoop_erase (s : Side) : ∀ (n : Nat) (sp : List ANode) (root : ANode),
    Refines (fun r => (r.1, r.2.1.map ANode.erase, r.2.2.erase)) (fillLoop s n sp root)
      (RVec.fillLoop s n (sp.map ANode.erase) root.erase)
  | 0, _, _ => .error
  | n + 1, sp, root => by
    unfold fillLoop RVec.fillLoop
    rw [show (sp.map ANode.erase).head?.getD root.erase = (sp.head?.getD root).erase by cases sp <;> rfl]
    cases h : sp.head?.getD root with
    | leaf b m => rw [ANode.erase_leaf]; exact .ok rfl
    | internal st t c m =>
      have h' := ANode.popChild_erase (.internal st t c m) s
      rw [ANode.erase_internal] at h' ⊢
      refine Refines.bind h' fun r => ?_
      cases sp with
      | nil => exact fillLoop_erase s n [r.1] r.2
      | cons x rest => exact fillLoop_erase s n (r.1 :: r.2 :: rest) root

theorem fillSpine_erase (v : AVec) (s : Side) :
    Refines (fun r => (r.1, r.2.erase)) (v.fillSpine s) (v.erase.fillSpine s) := by
  unfold fillSpine RVec.fillSpine
  rw [erase_spine, show v.erase.root = v.root.erase from rfl,
    show ((v.spine s).map ANode.erase).head?.getD v.root.erase = ((v.spine s).head?.getD v.root).erase by
      cases v.spine s <;> rfl, ANode.erase_level]
  refine Refines.bind (fillLoop_erase s _ _ _) fun r => .ok ?_
  rw [erase_withSpine]
  simp [erase]

theorem repair_erase (v : AVec) (s : Side) : Refines erase (v.repair s) (v.erase.repair s) := by
  unfold repair RVec.repair
  rw [erase_spine]
  refine Refines.bind (dropEmpty_erase _) fun sp => ?_
  dsimp only
  rw [← erase_withSpine]
  generalize v.withSpine s sp = v
  rw [show v.erase.left.length = v.left.length by simp [erase], show v.erase.right.length = v.right.length by simp [erase]]
  refine Refines.bind (popTops_erase _ _) fun v => Refines.bind (fillSpine_erase _ _) fun r => ?_
  exact Refines.bind (f := erase) (.ite (Refines.bind (fixupSpineTops_erase _) fun v => emptyLeaf_erase v s) (.ok rfl))
    fun v => fixupSpineTops_erase v

theorem cut_erase (v : AVec) (p : Option (Side × Nat)) (i j : Nat) :
    Refines (fun r => (r.1.erase, r.2.erase)) (v.cut p i j) (v.erase.cut p i j) := by
  unfold cut RVec.cut
  refine .same fun rest => ?_
  rcases p with _ | ⟨_ | _, p⟩
  · exact Refines.bind (ANode.splitAtPosition_erase _ _) fun r => .ok (by simp [erase])
  · simp only [show v.erase.left[p]? = v.left[p]?.map ANode.erase by simp [erase]]
    refine Refines.bind (CB.unwrap_map _ _) fun nd => ?_
    exact Refines.bind (ANode.splitAtPosition_erase _ _) fun r => .ok (by simp [erase])
  · simp only [show v.erase.right[p]? = v.right[p]?.map ANode.erase by simp [erase]]
    refine Refines.bind (CB.unwrap_map _ _) fun nd => ?_
    exact Refines.bind (ANode.splitAtPosition_erase _ _) fun r => .ok (by simp [erase, ANode.erase_emptyLeaf])

theorem splitOff_erase (v : AVec) (i : Nat) :
    Refines (fun r => (r.1.erase, r.2.erase)) (v.splitOff i) (v.erase.splitOff i) := by
  unfold splitOff RVec.splitOff
  rw [findNodeInfo_erase, ← erase_new]
  refine .ite (.ok rfl) (.ite (.ok rfl) (.same fun o => .same fun p => ?_))
  refine Refines.bind (cut_erase _ _ _ _) fun c => ?_
  exact Refines.bind (repair_erase _ _) fun a => Refines.bind (repair_erase _ _) fun b => .ok rfl

theorem sliceFromStart_erase (v : AVec) (n : Nat) : Refines erase (v.sliceFromStart n) (v.erase.sliceFromStart n) :=
  Refines.bind (splitOff_erase v n) fun _ => .ok rfl

theorem sliceToEnd_erase (v : AVec) (n : Nat) : Refines erase (v.sliceToEnd n) (v.erase.sliceToEnd n) :=
  Refines.bind (splitOff_erase v n) fun _ => .ok rfl

theorem extractSlice_erase (v : AVec) (sb eb : Bound) :
    Refines (fun r => (r.1.erase, r.2.erase)) (v.extractSlice sb eb) (v.erase.extractSlice sb eb) :=
  .same fun _ => .same fun _ => Refines.bind (splitOff_erase _ _) fun _ => Refines.bind (splitOff_erase _ _) fun _ =>
    Refines.bind (append_erase _ _) fun _ => .ok rfl

theorem insert_erase (v : AVec) (i x : Nat) : Refines erase (v.insert i x) (v.erase.insert i x) :=
  Refines.bind (splitOff_erase _ _) fun _ => Refines.bind (pushBack_erase _ _) fun _ => append_erase _ _

theorem remove_erase (v : AVec) (i : Nat) :
    Refines (fun r => (r.1, r.2.erase)) (v.remove i) (v.erase.remove i) :=
  .ite (Refines.bind (splitOff_erase _ _) fun _ => Refines.bind (popFront_erase _) fun _ =>
    Refines.bind (append_erase _ _) fun _ => .ok rfl) (.ok rfl)

theorem constantLoop_erase : ∀ (n k : Nat) (s a : AVec),
    Refines erase (constantLoop n k s a) (RVec.constantLoop n k s.erase a.erase)
  | 0, _, _, _ => .ite .error (.ok rfl)
  | n + 1, k, s, a =>
    .ite (Refines.bind (f := erase) (.ite (append_erase _ _) (.ok rfl)) fun s =>
      Refines.bind (append_erase _ _) fun a => constantLoop_erase n k s a) (.ok rfl)

theorem constantVecOfLength_erase (x n : Nat) :
    Refines erase (constantVecOfLength x n) (RVec.constantVecOfLength x n) := by
  refine Refines.bind (singleton_erase x) fun a => ?_
  have := constantLoop_erase 64 n .new a
  rwa [erase_new] at this

end AVec
end Librrb
