import Verif.Model.Annotated
import Verif.Proof.Cells

/-!
# Annotated nodes behave as plain nodes, as long as they return

Forgetting the cached sums takes every call of the annotated vector that returns to the same call of
the plain vector.
-/
namespace Librrb

/-- Whenever `x` returns `a`, `y` returns `f a`. -/
def Refines (f : α → β) (x : M α) (y : M β) : Prop := ∀ a, x = .ok a → y = .ok (f a)

namespace Refines

theorem ok {f : α → β} {a : α} {b : β} (h : b = f a) : Refines f (.ok a) (.ok b) := by
  intro a' e; cases e; rw [h]

theorem error {f : α → β} {e : Fault} {y : M β} : Refines f (.error e) y := by
  intro a' e; cases e

theorem rfl' {x : M α} : Refines id x x := fun a e => by rw [e]; rfl

theorem bind {f : α → β} {g : γ → δ} {x : M α} {y : M β} {k : α → M γ} {k' : β → M δ}
    (hx : Refines f x y) (hk : ∀ a, Refines g (k a) (k' (f a))) : Refines g (x >>= k) (y >>= k') := by
  intro c e
  cases hxx : x with
  | error e' => rw [hxx] at e; cases e
  | ok a =>
    rw [hxx] at e
    rw [hx a hxx]
    exact hk a c e

theorem skip {g : γ → δ} {x : M α} {k : α → M γ} {y : M δ}
    (hk : ∀ a, Refines g (k a) y) : Refines g (x >>= k) y := by
  intro c e
  cases hxx : x with
  | error e' => rw [hxx] at e; cases e
  | ok a => rw [hxx] at e; exact hk a c e

theorem same {g : γ → δ} {x : M α} {k : α → M γ} {k' : α → M δ}
    (hk : ∀ a, Refines g (k a) (k' a)) : Refines g (x >>= k) (x >>= k') := bind rfl' hk

theorem ite {c : Prop} [Decidable c] {f : α → β} {x x' : M α} {y y' : M β}
    (h1 : Refines f x y) (h2 : Refines f x' y') :
    Refines f (if c then x else x') (if c then y else y') := by
  by_cases h : c
  · rw [if_pos h, if_pos h]; exact h1
  · rw [if_neg h, if_neg h]; exact h2

end Refines

namespace CB

/-- The buffer with every item replaced. -/
def map (f : α → β) (b : CB α) : CB β := { front := b.front, len := b.len, data := b.data.map (Option.map f) }

variable (f : α → β)

theorem map_new : (new : CB α).map f = new := by simp [map, new]

@[simp] theorem map_len (b : CB α) : (b.map f).len = b.len := rfl
@[simp] theorem map_front (b : CB α) : (b.map f).front = b.front := rfl
@[simp] theorem map_data (b : CB α) : (b.map f).data = b.data.map (Option.map f) := rfl
@[simp] theorem map_isEmpty (b : CB α) : (b.map f).isEmpty = b.isEmpty := rfl
@[simp] theorem map_isFull (b : CB α) : (b.map f).isFull = b.isFull := rfl
@[simp] theorem map_indexFor (b : CB α) (i : Nat) : (b.map f).indexFor i = b.indexFor i := rfl
@[simp] theorem map_freeSpace (b : CB α) : (b.map f).freeSpace = b.freeSpace := rfl

theorem readSlot_map (d : List (Option α)) (i : Nat) :
    Refines f (readSlot d i) (readSlot (d.map (Option.map f)) i) := by
  unfold readSlot
  rw [List.getElem?_map]
  rcases d[i]? with _ | _ | x
  · exact .error
  · exact .error
  · exact .ok rfl

theorem initSlot_map (d : List (Option α)) (i : Nat) (x : α) :
    Refines (List.map (Option.map f)) (initSlot d i x) (initSlot (d.map (Option.map f)) i (f x)) := by
  unfold initSlot
  rw [List.getElem?_map]
  rcases d[i]? with _ | _ | x
  · exact .error
  · exact .ok (by simp [List.map_set])
  · exact .error

theorem takeSlot_map (d : List (Option α)) (i : Nat) :
    Refines (fun r => (f r.1, r.2.map (Option.map f))) (takeSlot d i) (takeSlot (d.map (Option.map f)) i) := by
  unfold takeSlot
  rw [List.getElem?_map]
  rcases d[i]? with _ | _ | x
  · exact .error
  · exact .error
  · exact .ok (by simp [List.map_set])

theorem assignSlot_map (d : List (Option α)) (i : Nat) (x : α) :
    Refines (List.map (Option.map f)) (assignSlot d i x) (assignSlot (d.map (Option.map f)) i (f x)) := by
  unfold assignSlot
  rw [List.getElem?_map]
  rcases d[i]? with _ | _ | x
  · exact .error
  · exact .error
  · exact .ok (by simp [List.map_set])

theorem unwrap_map (o : Option α) : Refines f (unwrap o) (unwrap (o.map f)) := by
  cases o with
  | none => exact .error
  | some x => exact .ok rfl

theorem push_map (b : CB α) (s : Side) (x : α) : Refines (map f) (b.push s x) ((b.map f).push s (f x)) := by
  cases s with
  | back =>
    refine Refines.bind (f := Option.map (map f)) ?_ fun o => unwrap_map _ o
    unfold tryPushBack
    refine .ite (.ok rfl) ?_
    exact Refines.bind (initSlot_map f _ _ _) fun d => .ok rfl
  | front =>
    refine Refines.bind (f := Option.map (map f)) ?_ fun o => unwrap_map _ o
    unfold tryPushFront
    refine .ite (.ok rfl) ?_
    exact Refines.bind (initSlot_map f _ _ _) fun d => .ok rfl

theorem pop_map (b : CB α) (s : Side) :
    Refines (fun r => (f r.1, map f r.2)) (b.pop s) ((b.map f).pop s) := by
  refine Refines.bind (f := Option.map fun r => (f r.1, map f r.2)) ?_ fun o => unwrap_map _ o
  cases s with
  | back =>
    show Refines _ (tryPopBack b) (tryPopBack _)
    unfold tryPopBack
    refine .ite (.ok rfl) (.same fun l => ?_)
    exact Refines.bind (takeSlot_map f _ _) fun d => .ok rfl
  | front =>
    show Refines _ (tryPopFront b) (tryPopFront _)
    unfold tryPopFront
    refine .ite (.ok rfl) ?_
    exact Refines.bind (takeSlot_map f _ _) fun d => .same fun l => .ok rfl

theorem get_map (b : CB α) (i : Nat) : Refines (Option.map f) (b.get i) ((b.map f).get i) := by
  unfold get
  exact .ite (Refines.bind (readSlot_map f _ _) fun x => .ok rfl) (.ok rfl)

theorem set_map (b : CB α) (i : Nat) (x : α) :
    Refines (Option.map (map f)) (b.set i x) ((b.map f).set i (f x)) := by
  unfold set
  exact .ite (Refines.bind (assignSlot_map f _ _ _) fun x => .ok rfl) (.ok rfl)

theorem decantLoop_map (s : Side) : ∀ (n : Nat) (b d : CB α),
    Refines (fun r => (map f r.1, map f r.2)) (decantLoop b d s n) (decantLoop (b.map f) (d.map f) s n)
  | 0, _, _ => .ok rfl
  | n + 1, _, _ => Refines.bind (pop_map f _ s) fun _ => Refines.bind (push_map f _ _ _) fun _ => decantLoop_map s n _ _

theorem decantInto_map (b d : CB α) (s : Side) (n : Nat) :
    Refines (fun r => (r.1, map f r.2.1, map f r.2.2)) (decantInto b d s n) (decantInto (b.map f) (d.map f) s n) := by
  unfold decantInto
  refine .ite (.ok rfl) (.same fun fr => ?_)
  exact Refines.bind (decantLoop_map f s _ b d) fun r => .ok rfl

end CB

namespace ANode

theorem eraseOpt_eq (o : Option ANode) : eraseOpt o = o.map erase := by
  cases o <;> simp [eraseOpt]

theorem eraseList_eq (l : List (Option ANode)) : eraseList l = l.map (Option.map erase) := by
  induction l with
  | nil => simp [eraseList]
  | cons x l ih => simp [eraseList, ih, eraseOpt_eq]

theorem eraseCB_eq (c : CB ANode) : eraseCB c = c.map erase := by
  cases c; simp [eraseCB, CB.map, eraseList_eq]

@[simp] theorem erase_leaf (b : CB Nat) (sm : Nat) : (leaf b sm).erase = .leaf b := by rw [erase]
@[simp] theorem erase_internal (s : SizeTable) (t : Tag) (c : CB ANode) (sm : Nat) :
    (internal s t c sm).erase = .internal s t (c.map erase) := by rw [erase, eraseCB_eq]

theorem erase_emptyLeaf : emptyLeaf.erase = Node.emptyLeaf := by
  unfold emptyLeaf; rw [erase_leaf]; rfl

theorem erase_newEmpty (nd : ANode) : nd.newEmpty.erase = nd.erase.newEmpty := by
  cases nd with
  | leaf b s => simp [newEmpty, emptyLeaf, Node.newEmpty, Node.emptyLeaf]
  | internal s t c m => simp [newEmpty, Node.newEmpty, CB.map_new]

theorem erase_len (nd : ANode) : nd.erase.len = nd.len := by
  cases nd <;> simp [len, Node.len]

theorem erase_slots (nd : ANode) : nd.erase.slots = nd.slots := by
  cases nd <;> simp [slots, Node.slots]

theorem erase_level (nd : ANode) : nd.erase.level = nd.level := by
  cases nd <;> simp [level, Node.level]

theorem erase_isLeaf (nd : ANode) : nd.erase.isLeaf = nd.isLeaf := by
  rw [Node.isLeaf, isLeaf, erase_level]

theorem erase_isEmpty (nd : ANode) : nd.erase.isEmpty = nd.isEmpty := by
  rw [Node.isEmpty, isEmpty, erase_len]

theorem erase_freeSlots (nd : ANode) : nd.erase.freeSlots = nd.freeSlots := by
  cases nd <;> simp [freeSlots, Node.freeSlots]

theorem erase_checkTag (t : Tag) (nd : ANode) : Node.checkTag t nd.erase = checkTag t nd := by
  cases nd <;> simp [checkTag, Node.checkTag]

theorem emptyInternal_erase (n : Nat) : Refines erase (emptyInternal n) (Node.emptyInternal n) := by
  unfold emptyInternal Node.emptyInternal
  exact .same fun _ => .ite (.ok (by simp [CB.map_new])) (.ok (by simp [CB.map_new]))

theorem shareChildrenWith_erase (a b : ANode) (s : Side) (n : Nat) :
    Refines (fun r => (r.1, r.2.1.erase, r.2.2.erase)) (a.shareChildrenWith b s n)
      (a.erase.shareChildrenWith b.erase s n) := by
  cases a with
  | leaf ba sa =>
    cases b with
    | leaf bb sb =>
      rw [erase_leaf, erase_leaf]
      show Refines _ (_ >>= _) (_ >>= _)
      refine .same fun r => ?_
      by_cases h : (r.1 != 0) = true
      · rw [if_pos h]
        exact .skip fun _ => .skip fun _ => .skip fun _ => .ok (by simp)
      · rw [if_neg h]; exact .ok (by simp)
    | internal sb tb cb mb => exact .error
  | internal sa ta ca ma =>
    cases b with
    | leaf bb sb => exact .error
    | internal sb tb cb mb =>
      rw [erase_internal, erase_internal]
      show Refines _ (_ >>= _) (_ >>= _)
      refine .same fun _ => .same fun _ => .same fun _ => ?_
      refine Refines.bind (CB.decantInto_map erase ca cb s n) fun r => ?_
      dsimp only
      by_cases h : (r.1 != 0) = true
      · rw [if_pos h, if_pos h]
        exact .same fun _ => .skip fun _ => .skip fun _ => .skip fun _ => .ok (by simp)
      · rw [if_neg h, if_neg h]; exact .ok (by simp)

theorem popChild_erase (a : ANode) (s : Side) :
    Refines (fun r => (r.1.erase, r.2.erase)) (a.popChild s) (a.erase.popChild s) := by
  cases a with
  | leaf b m => exact .error
  | internal st t c m =>
    rw [erase_internal]
    show Refines _ (_ >>= _) (_ >>= _)
    refine .same fun r => Refines.bind (CB.pop_map erase c s) fun q => .skip fun _ => .ok (by simp)

theorem pushChild_erase (a : ANode) (s : Side) (k : ANode) :
    Refines erase (a.pushChild s k) (a.erase.pushChild s k.erase) := by
  cases a with
  | leaf b m => exact .error
  | internal st t c m =>
    rw [erase_internal]
    show Refines _ (_ >>= _) (_ >>= _)
    rw [erase_len]
    refine .same fun n => .same fun st => .skip fun _ => ?_
    rw [erase_checkTag]
    exact .same fun _ => Refines.bind (CB.push_map erase c s k) fun q => .ok (by simp)

theorem leafPush_erase (a : ANode) (s : Side) (x : Nat) :
    Refines erase (a.leafPush s x) (a.erase.leafPush s x) := by
  cases a with
  | internal st t c m => exact .error
  | leaf b m =>
    rw [erase_leaf]
    exact .skip fun _ => .same fun b' => .ok (by simp)

theorem leafPop_erase (a : ANode) (s : Side) :
    Refines (fun r => (r.1, r.2.erase)) (a.leafPop s) (a.erase.leafPop s) := by
  cases a with
  | internal st t c m => exact .error
  | leaf b m =>
    rw [erase_leaf]
    exact .same fun r => .skip fun _ => .ok (by simp)

theorem getAux_erase : ∀ (n : Nat) (a : ANode) (i : Nat),
    Refines id (a.getAux n i) (a.erase.getAux n i)
  | 0, _, _ => .error
  | n + 1, .leaf b m, i => by rw [erase_leaf]; exact .rfl'
  | n + 1, .internal st t c m, i => by
    rw [erase_internal]
    refine .same fun p => ?_
    cases p with
    | none => exact .ok rfl
    | some p => exact Refines.bind (CB.get_map erase c _) fun o => Refines.bind (CB.unwrap_map erase o) fun k => getAux_erase n k _

theorem get_erase (a : ANode) (i : Nat) : Refines id (a.get i) (a.erase.get i) := by
  unfold get Node.get
  rw [erase_level]
  exact getAux_erase _ _ _

theorem getAux_erase_eq : ∀ (n : Nat) (a : ANode) (i : Nat), a.erase.getAux n i = a.getAux n i
  | 0, _, _ => rfl
  | n + 1, .leaf b m, i => by rw [erase_leaf]; rfl
  | n + 1, .internal st t c m, i => by
    rw [erase_internal]
    simp only [getAux, Node.getAux]
    cases st.positionInfoFor i with
    | error e => rfl
    | ok p =>
      cases p with
      | none => rfl
      | some p =>
        simp only [ok_bind]
        have h : (c.map erase).get p.1 = (c.get p.1).map (Option.map erase) := by
          unfold CB.get
          by_cases h : p.1 < c.len
          · rw [if_pos h, if_pos (by exact h), CB.map_data, CB.map_indexFor]
            unfold readSlot
            rw [List.getElem?_map]
            rcases c.data[c.indexFor p.1]? with _ | _ | k <;> rfl
          · rw [if_neg h, if_neg (by exact h)]; rfl
        rw [h]
        rcases c.get p.1 with _ | _ | k
        · rfl
        · rfl
        · exact getAux_erase_eq n k _

theorem get_erase_eq (a : ANode) (i : Nat) : a.erase.get i = a.get i := by
  unfold get Node.get
  rw [erase_level, getAux_erase_eq]

theorem setAux_erase (g : Bool) : ∀ (n : Nat) (a : ANode) (i x : Nat),
    Refines (Option.map fun r => r.1.erase) (a.setAux g n i x) (a.erase.setAux n i x)
  | 0, _, _, _ => .error
  | n + 1, .leaf b m, i, x => by
    rw [erase_leaf]
    show Refines _ (_ >>= _) (_ >>= _)
    unfold CB.get CB.set
    by_cases h : i < b.len
    · rw [if_pos h, if_pos h]
      intro a e
      obtain ⟨o, e1, e⟩ := RVec.bind_ok e
      obtain ⟨y, e2, e1⟩ := RVec.bind_ok e1
      cases e1
      obtain ⟨r, e3, e⟩ := RVec.bind_ok e
      rw [e3]
      obtain ⟨d, e4, e3⟩ := RVec.bind_ok e3
      cases e3
      obtain ⟨sm, e5, e⟩ := RVec.bind_ok e
      cases e
      simp
    · rw [if_neg h, if_neg h]
      exact .ok rfl
  | n + 1, .internal st t c m, i, x => by
    rw [erase_internal]
    refine .same fun p => ?_
    cases p with
    | none => exact .ok rfl
    | some p =>
      refine Refines.bind (CB.get_map erase c _) fun o => Refines.bind (CB.unwrap_map erase o) fun k => ?_
      refine Refines.bind (setAux_erase g n k _ _) fun r => ?_
      cases r with
      | none => exact .ok rfl
      | some r =>
        exact Refines.bind (CB.set_map erase c _ _) fun o => Refines.bind (CB.unwrap_map (CB.map erase) o) fun c' =>
          .skip fun _ => .ok (by simp)

theorem set_erase (g : Bool) (a : ANode) (i x : Nat) :
    Refines (Option.map erase) (a.set g i x) (a.erase.set i x) := by
  unfold set Node.set
  rw [erase_level]
  intro r e
  obtain ⟨q, e1, e⟩ := RVec.bind_ok e
  cases e
  rw [setAux_erase g _ _ _ _ _ e1]
  cases q <;> rfl

end ANode

namespace AVec
open ANode (erase)

theorem erase_new : AVec.new.erase = RVec.new := by
  simp [erase, AVec.new, RVec.new, ANode.erase_emptyLeaf]

theorem erase_spine (v : AVec) (s : Side) : v.erase.spine s = (v.spine s).map ANode.erase := by
  cases s <;> rfl

theorem erase_withSpine (v : AVec) (s : Side) (sp : List ANode) :
    (v.withSpine s sp).erase = v.erase.withSpine s (sp.map ANode.erase) := by
  cases s <;> rfl

theorem erase_leafNode (v : AVec) (s : Side) : v.erase.leafNode s = (v.leafNode s).erase := by
  unfold RVec.leafNode leafNode
  rw [erase_spine]
  cases v.spine s <;> rfl

theorem erase_withLeafNode (v : AVec) (s : Side) (nd : ANode) :
    (v.withLeafNode s nd).erase = v.erase.withLeafNode s nd.erase := by
  unfold RVec.withLeafNode withLeafNode
  rw [erase_spine]
  cases v.spine s with
  | nil => rfl
  | cons x l => cases s <;> rfl

theorem erase_leafFreeSpace (nd : ANode) : RVec.leafFreeSpace nd.erase = leafFreeSpace nd := by
  cases nd <;> simp [RVec.leafFreeSpace, leafFreeSpace]

theorem fixupStep_erase (v : AVec) :
    Refines (fun r => (r.1.erase, r.2)) v.fixupStep v.erase.fixupStep := by
  unfold fixupStep RVec.fixupStep
  have hl : v.erase.left.getLast? = v.left.getLast?.map ANode.erase := by simp [erase]
  have hr : v.erase.right.getLast? = v.right.getLast?.map ANode.erase := by simp [erase]
  rw [hl, hr]
  refine Refines.bind (CB.unwrap_map _ _) fun lt => Refines.bind (CB.unwrap_map _ _) fun rt => ?_
  dsimp only
  rw [ANode.erase_slots, ANode.erase_slots, show v.erase.root = v.root.erase from rfl, ANode.erase_level]
  refine .ite ?_ (.ite (.ite ?_ ?_) (.ok rfl))
  · refine Refines.bind (ANode.shareChildrenWith_erase _ _ _ _) fun r => .ok ?_
    simp [erase]
  · refine Refines.bind (ANode.shareChildrenWith_erase _ _ _ _) fun r => .ok ?_
    simp [erase]
  · refine Refines.bind (ANode.shareChildrenWith_erase _ _ _ _) fun r => .ok ?_
    simp [erase]

theorem fixupLoop_erase : ∀ (n : Nat) (v : AVec), Refines erase (fixupLoop n v) (RVec.fixupLoop n v.erase)
  | 0, v => by
    unfold fixupLoop RVec.fixupLoop
    rw [show v.erase.root = v.root.erase from rfl, ANode.erase_slots, ANode.erase_isLeaf]
    exact .ite .error (.ok rfl)
  | n + 1, v => by
    unfold fixupLoop RVec.fixupLoop
    rw [show v.erase.root = v.root.erase from rfl, ANode.erase_slots, ANode.erase_isLeaf]
    exact .ite (Refines.bind (fixupStep_erase v) fun r => .ite (fixupLoop_erase n _) (.ok rfl)) (.ok rfl)

theorem fixupSpineTops_erase (v : AVec) : Refines erase v.fixupSpineTops v.erase.fixupSpineTops := by
  unfold fixupSpineTops RVec.fixupSpineTops
  rw [show v.erase.left.length = v.left.length by simp [erase]]
  exact fixupLoop_erase _ _

theorem completeLoop_erase (s : Side) : ∀ (n : Nat) (sp : List ANode) (root : ANode),
    Refines (fun r => (r.1.map ANode.erase, r.2.erase)) (completeLoop s n sp root)
      (RVec.completeLoop s n (sp.map ANode.erase) root.erase)
  | 0, _, _ => .ok rfl
  | _ + 1, [], _ => .ok rfl
  | n + 1, node :: rest, root => by
    simp only [completeLoop, RVec.completeLoop, List.map_cons]
    rw [ANode.erase_freeSlots]
    refine .same fun free => .ite (.ok rfl) ?_
    cases rest with
    | nil =>
      refine Refines.bind (ANode.pushChild_erase _ _ _) fun r => .ok ?_
      simp [ANode.erase_newEmpty]
    | cons p rest =>
      refine Refines.bind (ANode.pushChild_erase _ _ _) fun p' => ?_
      refine Refines.bind (completeLoop_erase s n (p' :: rest) root) fun r => .ok ?_
      simp [ANode.erase_newEmpty]

theorem completeLeaf_erase (v : AVec) (s : Side) : Refines erase (v.completeLeaf s) (v.erase.completeLeaf s) := by
  unfold completeLeaf RVec.completeLeaf
  rw [erase_leafNode, erase_leafFreeSpace, erase_spine, erase_spine,
    show v.erase.left.length = v.left.length by simp [erase],
    show v.erase.right.length = v.right.length by simp [erase], List.length_map]
  refine .same fun _ => .same fun _ => .same fun _ => ?_
  refine Refines.bind (completeLoop_erase s _ _ _) fun r => ?_
  dsimp only
  rw [ANode.erase_slots, ANode.erase_level, ← ANode.erase_newEmpty]
  refine .ite ?_ (.ite ?_ (.ok ?_))
  · refine Refines.bind (ANode.emptyInternal_erase _) fun nr => ?_
    refine Refines.bind (ANode.shareChildrenWith_erase _ _ _ _) fun q => .ok ?_
    rw [erase_withSpine, erase_withSpine]
    simp [erase]
  · have := fixupSpineTops_erase (({ v with root := r.2 }).withSpine s r.1)
    rw [erase_withSpine] at this
    exact this
  · rw [erase_withSpine]; rfl

theorem pushSide_erase (v : AVec) (s : Side) (x : Nat) :
    Refines erase (v.pushSide s x) (v.erase.pushSide s x) := by
  unfold pushSide RVec.pushSide
  rw [erase_leafNode, erase_leafFreeSpace]
  refine .same fun free => Refines.bind (f := erase) (.ite (completeLeaf_erase v s) (.ok rfl)) fun w => ?_
  rw [erase_leafNode]
  refine Refines.bind (ANode.leafPush_erase _ _ _) fun nd => ?_
  refine .same fun n => ?_
  dsimp only
  have e : ({ w.withLeafNode s nd with len := n } : AVec).erase =
      { w.erase.withLeafNode s nd.erase with len := n } := by
    rw [← erase_withLeafNode]; rfl
  rw [← e, erase_spine, List.length_map]
  exact .ite (fixupSpineTops_erase _) (.ok rfl)

theorem lastEmpty_erase : ∀ (l : List ANode) (i d : Nat),
    RVec.lastEmpty (l.map ANode.erase) i d = lastEmpty l i d
  | [], _, _ => rfl
  | x :: l, i, d => by
    simp only [List.map_cons, RVec.lastEmpty, lastEmpty]
    rw [ANode.erase_slots, lastEmpty_erase l]

theorem emptyLeafLoop_erase (s : Side) : ∀ (n : Nat) (sp : List ANode) (root : ANode),
    Refines (fun r => (r.1.map ANode.erase, r.2.erase)) (emptyLeafLoop s n sp root)
      (RVec.emptyLeafLoop s n (sp.map ANode.erase) root.erase)
  | 0, _, _ => .ok rfl
  | n + 1, sp, root => by
    simp only [emptyLeafLoop, RVec.emptyLeafLoop]
    rw [List.length_map]
    refine .same fun _ => ?_
    rw [List.getElem?_map]
    cases sp[n + 1]? with
    | none =>
      refine Refines.bind (ANode.popChild_erase _ _) fun r => ?_
      have := emptyLeafLoop_erase s n (sp.set n r.1) r.2
      rw [List.map_set] at this
      exact this
    | some p =>
      refine Refines.bind (ANode.popChild_erase _ _) fun r => ?_
      have := emptyLeafLoop_erase s n ((sp.set (n + 1) r.2).set n r.1) root
      rw [List.map_set, List.map_set] at this
      exact this

theorem emptyLeaf_erase (v : AVec) (s : Side) : Refines erase (v.emptyLeaf s) (v.erase.emptyLeaf s) := by
  unfold emptyLeaf RVec.emptyLeaf
  rw [erase_spine, show v.erase.left.length = v.left.length by simp [erase],
    show v.erase.right.length = v.right.length by simp [erase]]
  refine .same fun _ => ?_
  dsimp only
  rw [List.head?_map, List.getLast?_map]
  refine Refines.bind (CB.unwrap_map _ _) fun f => ?_
  rw [ANode.erase_slots]
  refine .same fun _ => Refines.bind (CB.unwrap_map _ _) fun l => ?_
  rw [ANode.erase_slots, show v.erase.root = v.root.erase from rfl, ANode.erase_slots, List.length_map,
    ← List.map_tail]
  refine .same fun _ => .same fun d => ?_
  rw [lastEmpty_erase]
  refine Refines.bind (emptyLeafLoop_erase s _ _ _) fun r => ?_
  have := fixupSpineTops_erase (({ v with root := r.2 }).withSpine s r.1)
  rw [erase_withSpine] at this
  exact this

theorem popSide_erase (v : AVec) (s : Side) :
    Refines (fun r => (r.1, r.2.erase)) (v.popSide s) (v.erase.popSide s) := by
  unfold popSide RVec.popSide
  rw [erase_spine, erase_leafNode, show v.erase.root = v.root.erase from rfl, ANode.erase_isEmpty,
    show v.erase.left.length = v.left.length by simp [erase],
    show v.erase.right.length = v.right.length by simp [erase], List.isEmpty_map]
  refine .same fun _ => .ite (.same fun e => .ite (.same fun n => ?_) (.ok rfl)) ?_
  · exact Refines.bind (ANode.leafPop_erase _ _) fun r => .ok rfl
  · refine Refines.bind (ANode.leafPop_erase _ _) fun r => ?_
    dsimp only
    rw [ANode.erase_isEmpty, ← erase_withLeafNode, erase_spine, List.length_map]
    refine .same fun e => Refines.bind (f := erase) ?_ fun w => .same fun n => .ok rfl
    exact .ite (emptyLeaf_erase _ _) (.ite (fixupSpineTops_erase _) (.ok rfl))

theorem findLoop_erase (index : Nat) : ∀ (l r : List ANode) (i a b : Nat),
    RVec.findLoop index (l.map ANode.erase) (r.map ANode.erase) i a b = findLoop index l r i a b
  | l :: ls, r :: rs, i, a, b => by
    simp only [List.map_cons, RVec.findLoop, findLoop, ANode.erase_len, findLoop_erase index ls rs]
  | [], _, _, _, _ => by simp [RVec.findLoop, findLoop]
  | _ :: _, [], _, _, _ => by simp [RVec.findLoop, findLoop]

theorem findNodeInfo_erase (v : AVec) (i : Nat) :
    v.erase.findNodeInfoForIndex i = v.findNodeInfoForIndex i := by
  unfold RVec.findNodeInfoForIndex findNodeInfoForIndex
  simp only [erase, findLoop_erase]

theorem nodeAt_erase (v : AVec) (p : Option (Side × Nat)) :
    Refines ANode.erase (v.nodeAt p) (v.erase.nodeAt p) := by
  rcases p with _ | ⟨_ | _, i⟩
  · exact .ok rfl
  · simp only [nodeAt, RVec.nodeAt, erase, List.getElem?_map]; exact CB.unwrap_map _ _
  · simp only [nodeAt, RVec.nodeAt, erase, List.getElem?_map]; exact CB.unwrap_map _ _

theorem get_erase (v : AVec) (i : Nat) : Refines id (v.get i) (v.erase.get i) := by
  unfold get RVec.get
  rw [findNodeInfo_erase]
  refine .same fun p => ?_
  cases p with
  | none => exact .ok rfl
  | some p =>
    refine Refines.bind (nodeAt_erase _ _) fun nd => Refines.bind (ANode.get_erase _ _) fun o => ?_
    exact .same fun x => .ok rfl

theorem nodeAt_erase_eq (v : AVec) (p) : v.erase.nodeAt p = (v.nodeAt p).map ANode.erase := by
  rcases p with _ | ⟨_ | _, i⟩
  · rfl
  · simp only [nodeAt, RVec.nodeAt, erase, List.getElem?_map]
    cases v.left[i]? <;> rfl
  · simp only [nodeAt, RVec.nodeAt, erase, List.getElem?_map]
    cases v.right[i]? <;> rfl

/-- Reading does not look at the sums, so it returns whenever the plain vector does. -/
theorem get_erase_eq (v : AVec) (i : Nat) : v.erase.get i = v.get i := by
  unfold get RVec.get
  rw [findNodeInfo_erase]
  cases v.findNodeInfoForIndex i with
  | error e => rfl
  | ok p =>
    cases p with
    | none => rfl
    | some p =>
      simp only [ok_bind, nodeAt_erase_eq]
      cases v.nodeAt p.1 with
      | error e => rfl
      | ok nd => simp only [Except.map, ok_bind, ANode.get_erase_eq]

theorem set_erase (g : Bool) (v : AVec) (i x : Nat) :
    Refines (Option.map erase) (v.set g i x) (v.erase.set i x) := by
  unfold set RVec.set
  rw [findNodeInfo_erase]
  refine .same fun p => ?_
  cases p with
  | none => exact .ok rfl
  | some p =>
    refine Refines.bind (nodeAt_erase _ _) fun nd => Refines.bind (ANode.set_erase _ _ _ _) fun o => ?_
    refine Refines.bind (CB.unwrap_map _ _) fun nd' => .ok ?_
    rcases p with ⟨_ | ⟨_ | _, i⟩, j⟩ <;> simp [withNodeAt, RVec.withNodeAt, erase, List.map_set]

end AVec

end Librrb
