import Verif.Proof.Heap

/-!
# The bodies of the nodes: the same code for all types of children

Calls on bodies commute with replacing the children (`…_nat`), lose and duplicate no child (`…_kids`),
and are those of `Verif/Model/Node.lean` when the children are nodes.
-/
namespace Librrb

theorem nat_bind {f : β → β'} {g : γ → γ'} {x : M β} {x' : M β'} {k : β → M γ} {k' : β' → M γ'}
    (hx : x' = x.map f) (hk : ∀ a, k' (f a) = (k a).map g) : (x' >>= k') = (x >>= k).map g := by
  subst hx
  cases x with
  | error e => rfl
  | ok a => exact hk a

theorem nat_same {g : γ → γ'} {x : M β} {k : β → M γ} {k' : β → M γ'}
    (hk : ∀ a, k' a = (k a).map g) : (x >>= k') = (x >>= k).map g := by
  cases x with
  | error e => rfl
  | ok a => exact hk a

theorem nat_ite {c : Prop} [Decidable c] {g : γ → γ'} {x y : M γ} {x' y' : M γ'}
    (h1 : x' = x.map g) (h2 : y' = y.map g) : (if c then x' else y') = (if c then x else y).map g := by
  by_cases h : c
  · rw [if_pos h, if_pos h]; exact h1
  · rw [if_neg h, if_neg h]; exact h2

theorem of_map_ok {f : β → γ} {x : M β} {c : γ} (h : x.map f = .ok c) : ∃ b, x = .ok b ∧ c = f b := by
  cases x with
  | error e => cases h
  | ok b => exact ⟨b, rfl, by cases h; rfl⟩

/-- Replacing what a slot holds. -/
theorem slot_perm : ∀ (d : List (Option κ)) (i : Nat) (o o' : Option κ), d[i]? = some o →
    (o.toList ++ (d.set i o').filterMap id).Perm (o'.toList ++ d.filterMap id)
  | [], i, o, o', e => by simp at e
  | x :: d, 0, o, o', e => by
    simp at e
    subst e
    cases x <;> cases o' <;> simp
    exact List.Perm.swap _ _ _
  | x :: d, i + 1, o, o', e => by
    have ih := slot_perm d i o o' (by simpa using e)
    rw [List.set_cons_succ]
    cases x with
    | none => simpa using ih
    | some x =>
      simp only [List.filterMap_cons, id]
      exact (List.perm_middle.trans (ih.cons x)).trans List.perm_middle.symm

namespace CB

variable (f : κ → μ)

/-- The items in the live slots. -/
def kids (b : CB κ) : List κ := b.data.filterMap id

theorem readSlot_nat (d : List (Option κ)) (i : Nat) : readSlot (d.map (Option.map f)) i = (readSlot d i).map f := by
  unfold readSlot
  rw [List.getElem?_map]
  rcases d[i]? with _ | _ | x <;> rfl

theorem initSlot_nat (d : List (Option κ)) (i : Nat) (x : κ) :
    initSlot (d.map (Option.map f)) i (f x) = (initSlot d i x).map (List.map (Option.map f)) := by
  unfold initSlot
  rw [List.getElem?_map]
  rcases d[i]? with _ | _ | x
  · rfl
  · simp [List.map_set, Except.map]
  · rfl

theorem takeSlot_nat (d : List (Option κ)) (i : Nat) :
    takeSlot (d.map (Option.map f)) i = (takeSlot d i).map fun r => (f r.1, r.2.map (Option.map f)) := by
  unfold takeSlot
  rw [List.getElem?_map]
  rcases d[i]? with _ | _ | x
  · rfl
  · rfl
  · simp [List.map_set, Except.map]

theorem assignSlot_nat (d : List (Option κ)) (i : Nat) (x : κ) :
    assignSlot (d.map (Option.map f)) i (f x) = (assignSlot d i x).map (List.map (Option.map f)) := by
  unfold assignSlot
  rw [List.getElem?_map]
  rcases d[i]? with _ | _ | x
  · rfl
  · rfl
  · simp [List.map_set, Except.map]

theorem unwrap_nat (o : Option κ) : unwrap (o.map f) = (unwrap o).map f := by cases o <;> rfl

theorem tryPushBack_nat (b : CB κ) (x : κ) :
    (b.map f).tryPushBack (f x) = (b.tryPushBack x).map (Option.map (map f)) := by
  unfold tryPushBack
  exact nat_ite rfl (nat_bind (initSlot_nat f _ _ _) fun d => rfl)

theorem tryPushFront_nat (b : CB κ) (x : κ) :
    (b.map f).tryPushFront (f x) = (b.tryPushFront x).map (Option.map (map f)) := by
  unfold tryPushFront
  exact nat_ite rfl (nat_bind (initSlot_nat f _ _ _) fun d => rfl)

theorem push_nat (b : CB κ) (s : Side) (x : κ) : (b.map f).push s (f x) = (b.push s x).map (map f) := by
  cases s with
  | back => exact nat_bind (tryPushBack_nat f b x) fun o => unwrap_nat _ o
  | front => exact nat_bind (tryPushFront_nat f b x) fun o => unwrap_nat _ o

theorem tryPopBack_nat (b : CB κ) :
    (b.map f).tryPopBack = b.tryPopBack.map (Option.map fun r => (f r.1, map f r.2)) := by
  unfold tryPopBack
  exact nat_ite rfl (nat_same fun l => nat_bind (takeSlot_nat f _ _) fun d => rfl)

theorem tryPopFront_nat (b : CB κ) :
    (b.map f).tryPopFront = b.tryPopFront.map (Option.map fun r => (f r.1, map f r.2)) := by
  unfold tryPopFront
  exact nat_ite rfl (nat_bind (takeSlot_nat f _ _) fun d => nat_same fun l => rfl)

theorem popBack_nat (b : CB κ) : (b.map f).popBack = b.popBack.map fun r => (f r.1, map f r.2) :=
  nat_bind (tryPopBack_nat f b) fun o => unwrap_nat _ o

theorem pop_nat (b : CB κ) (s : Side) : (b.map f).pop s = (b.pop s).map fun r => (f r.1, map f r.2) := by
  cases s with
  | back => exact nat_bind (tryPopBack_nat f b) fun o => unwrap_nat _ o
  | front => exact nat_bind (tryPopFront_nat f b) fun o => unwrap_nat _ o

theorem get_nat (b : CB κ) (i : Nat) : (b.map f).get i = (b.get i).map (Option.map f) := by
  unfold get
  exact nat_ite (nat_bind (readSlot_nat f _ _) fun x => rfl) rfl

theorem set_nat (b : CB κ) (i : Nat) (x : κ) : (b.map f).set i (f x) = (b.set i x).map (Option.map (map f)) := by
  unfold set
  exact nat_ite (nat_bind (assignSlot_nat f _ _ _) fun x => rfl) rfl

theorem back_nat (b : CB κ) : (b.map f).back = b.back.map (Option.map f) := by
  unfold back
  exact nat_ite (nat_same fun l => get_nat f b l) rfl

theorem pairMut_nat (b : CB κ) (i j : Nat) : (b.map f).pairMut i j = b.pairMut i j := by
  unfold pairMut
  simp only [map_len, map_indexFor, map_data, List.length_map]
  rfl

theorem decantLoop_nat (s : Side) : ∀ (n : Nat) (b d : CB κ),
    decantLoop (b.map f) (d.map f) s n = (decantLoop b d s n).map fun r => (map f r.1, map f r.2)
  | 0, _, _ => rfl
  | n + 1, _, _ => nat_bind (pop_nat f _ s) fun _ => nat_bind (push_nat f _ _ _) fun _ => decantLoop_nat s n _ _

theorem decantInto_nat (b d : CB κ) (s : Side) (n : Nat) :
    decantInto (b.map f) (d.map f) s n = (decantInto b d s n).map fun r => (r.1, map f r.2.1, map f r.2.2) := by
  unfold decantInto
  exact nat_ite rfl (nat_same fun fr => nat_bind (decantLoop_nat f s _ b d) fun r => rfl)

/-! ### No item is lost or duplicated -/

theorem initSlot_kids {d d' : List (Option κ)} {i : Nat} {x : κ} (e : initSlot d i x = .ok d') :
    (d'.filterMap id).Perm (x :: d.filterMap id) := by
  unfold initSlot at e
  split at e
  · cases e
  · cases e
  next h => cases e; exact slot_perm d i none (some x) h

theorem takeSlot_kids {d : List (Option κ)} {i : Nat} {r : κ × List (Option κ)} (e : takeSlot d i = .ok r) :
    (d.filterMap id).Perm (r.1 :: r.2.filterMap id) := by
  unfold takeSlot at e
  split at e
  · cases e
  · cases e
  next x h => cases e; exact (slot_perm d i (some x) none h).symm

theorem assignSlot_kids {d d' : List (Option κ)} {i : Nat} {x y : κ} (e : assignSlot d i x = .ok d')
    (hy : readSlot d i = .ok y) : (y :: d'.filterMap id).Perm (x :: d.filterMap id) := by
  unfold assignSlot at e
  unfold readSlot at hy
  split at e
  · cases e
  · cases e
  next h =>
    rw [h] at hy
    cases hy
    cases e
    exact slot_perm d i _ (some x) h

theorem unwrap_ok {o : Option β} {b : β} (e : unwrap o = .ok b) : o = some b := by
  cases o with
  | none => cases e
  | some a => cases e; rfl

theorem push_kids {b b' : CB κ} {s : Side} {x : κ} (e : b.push s x = .ok b') : b'.kids.Perm (x :: b.kids) := by
  cases s with
  | back =>
    obtain ⟨o, e1, e2⟩ := RVec.bind_ok e
    cases unwrap_ok e2
    unfold tryPushBack at e1
    split at e1
    · cases e1
    · obtain ⟨d, e3, e4⟩ := RVec.bind_ok e1
      cases e4
      exact initSlot_kids e3
  | front =>
    obtain ⟨o, e1, e2⟩ := RVec.bind_ok e
    cases unwrap_ok e2
    unfold tryPushFront at e1
    split at e1
    · cases e1
    · obtain ⟨d, e3, e4⟩ := RVec.bind_ok e1
      cases e4
      exact initSlot_kids e3

theorem popBack_kids {b : CB κ} {r : κ × CB κ} (e : b.popBack = .ok r) : b.kids.Perm (r.1 :: r.2.kids) := by
  obtain ⟨o, e1, e2⟩ := RVec.bind_ok e
  cases unwrap_ok e2
  unfold tryPopBack at e1
  split at e1
  · cases e1
  · obtain ⟨l, e3, e4⟩ := RVec.bind_ok e1
    obtain ⟨d, e5, e6⟩ := RVec.bind_ok e4
    cases e6
    exact takeSlot_kids e5

theorem pop_kids {b : CB κ} {s : Side} {r : κ × CB κ} (e : b.pop s = .ok r) : b.kids.Perm (r.1 :: r.2.kids) := by
  cases s with
  | back => exact popBack_kids e
  | front =>
    obtain ⟨o, e1, e2⟩ := RVec.bind_ok e
    cases unwrap_ok e2
    have e1 : b.tryPopFront = _ := e1
    unfold tryPopFront at e1
    split at e1
    · cases e1
    · obtain ⟨d, e5, e4⟩ := RVec.bind_ok e1
      obtain ⟨l, e3, e6⟩ := RVec.bind_ok e4
      cases e6
      exact takeSlot_kids e5

theorem decantLoop_kids {s : Side} : ∀ {n : Nat} {b d : CB κ} {r : CB κ × CB κ}, decantLoop b d s n = .ok r →
    (r.1.kids ++ r.2.kids).Perm (b.kids ++ d.kids)
  | 0, b, d, r, e => by cases e; exact .refl _
  | n + 1, b, d, r, e => by
    obtain ⟨p, e1, e2⟩ := RVec.bind_ok e
    obtain ⟨d', e3, e4⟩ := RVec.bind_ok e2
    refine (decantLoop_kids e4).trans ?_
    refine ((push_kids e3).append_left _).trans (List.perm_middle.trans ?_)
    exact (pop_kids e1).symm.append_right d.kids

theorem decantInto_kids {s : Side} {n : Nat} {b d : CB κ} {r : Nat × CB κ × CB κ} (e : decantInto b d s n = .ok r) :
    (r.2.1.kids ++ r.2.2.kids).Perm (b.kids ++ d.kids) := by
  unfold decantInto at e
  split at e
  · cases e; exact List.perm_append_comm
  · obtain ⟨fr, e1, e2⟩ := RVec.bind_ok e
    obtain ⟨q, e3, e4⟩ := RVec.bind_ok e2
    cases e4
    exact decantLoop_kids e3

theorem kids_new : (CB.new : CB κ).kids = [] := by
  simp [kids, new]

end CB

namespace Body

variable (f : κ → μ)

@[simp] theorem map_leaf (b : CB α) : (Body.leaf b : Body α κ).map f = .leaf b := rfl
@[simp] theorem map_internal (s : SizeTable) (t : Tag) (c : CB κ) :
    (Body.internal s t c : Body α κ).map f = .internal s t (c.map f) := rfl
theorem kids_internal (s : SizeTable) (t : Tag) (c : CB κ) : (Body.internal s t c : Body α κ).kids = c.kids := rfl
theorem kids_leaf (b : CB α) : (Body.leaf b : Body α κ).kids = [] := rfl

theorem newEmpty_nat (b : Body α κ) : (b.map f).newEmpty = b.newEmpty.map f := by
  cases b <;> simp [newEmpty, emptyLeaf, CB.map_new]
theorem newEmpty_kids (b : Body α κ) : b.newEmpty.kids = [] := by
  cases b <;> simp [newEmpty, emptyLeaf, kids_leaf, kids_internal, CB.kids_new]
theorem len_nat (b : Body α κ) : (b.map f).len = b.len := by cases b <;> rfl
theorem slots_nat (b : Body α κ) : (b.map f).slots = b.slots := by cases b <;> rfl
theorem level_nat (b : Body α κ) : (b.map f).level = b.level := by cases b <;> rfl
theorem freeSlots_nat (b : Body α κ) : (b.map f).freeSlots = b.freeSlots := by cases b <;> rfl
theorem leafFreeSpace_nat (b : Body α κ) : (b.map f).leafFreeSpace = b.leafFreeSpace := by cases b <;> rfl
theorem isLeafNode_nat (b : Body α κ) : (b.map f).isLeafNode = b.isLeafNode := by cases b <;> rfl
theorem leafEnd_nat (s : Side) (b : Body α κ) : (b.map f).leafEnd s = b.leafEnd s := by cases b <;> rfl

theorem emptyInternal_nat (n : Nat) : (emptyInternal n : M (Body α μ)) = (emptyInternal n).map (map f) := by
  unfold emptyInternal
  exact nat_same fun _ => nat_ite (by simp [Except.map, CB.map_new]) (by simp [Except.map, CB.map_new])

theorem emptyInternal_kids {n : Nat} {b : Body α κ} (e : emptyInternal n = .ok b) : b.kids = [] := by
  obtain ⟨_, -, e⟩ := RVec.bind_ok e
  split at e <;> cases e <;> exact CB.kids_new

theorem share_nat (a b : Body α κ) (s : Side) (n : Nat) :
    (a.map f).share (b.map f) s n = (a.share b s n).map fun r => (r.1, r.2.1.map f, r.2.2.map f) := by
  cases a with
  | leaf ba =>
    cases b with
    | leaf bb => exact nat_same fun r => rfl
    | internal sb tb cb => rfl
  | internal sa ta ca =>
    cases b with
    | leaf bb => rfl
    | internal sb tb cb =>
      refine nat_same fun _ => nat_same fun _ => nat_same fun _ => nat_bind (CB.decantInto_nat f _ _ _ _) fun r => ?_
      exact nat_same fun _ => rfl

theorem share_kids {a b : Body α κ} {s : Side} {n : Nat} {r : Nat × Body α κ × Body α κ}
    (e : a.share b s n = .ok r) : (r.2.1.kids ++ r.2.2.kids).Perm (a.kids ++ b.kids) := by
  cases a with
  | leaf ba =>
    cases b with
    | leaf bb => obtain ⟨q, -, e⟩ := RVec.bind_ok e; cases e; exact .refl _
    | internal sb tb cb => cases e
  | internal sa ta ca =>
    cases b with
    | leaf bb => cases e
    | internal sb tb cb =>
      obtain ⟨_, -, e⟩ := RVec.bind_ok e
      obtain ⟨_, -, e⟩ := RVec.bind_ok e
      obtain ⟨_, -, e⟩ := RVec.bind_ok e
      obtain ⟨q, e1, e⟩ := RVec.bind_ok e
      obtain ⟨_, -, e⟩ := RVec.bind_ok e
      cases e
      exact CB.decantInto_kids e1

theorem popChild_nat (b : Body α κ) (s : Side) :
    (b.map f).popChild s = (b.popChild s).map fun r => (f r.1, r.2.map f) := by
  cases b with
  | leaf b => rfl
  | internal sz t c => exact nat_same fun _ => nat_bind (CB.pop_nat f _ _) fun _ => rfl

theorem popChild_kids {b : Body α κ} {s : Side} {r : κ × Body α κ} (e : b.popChild s = .ok r) :
    b.kids.Perm (r.1 :: r.2.kids) := by
  cases b with
  | leaf b => cases e
  | internal sz t c =>
    obtain ⟨_, -, e⟩ := RVec.bind_ok e
    obtain ⟨q, e1, e⟩ := RVec.bind_ok e
    cases e
    exact CB.pop_kids e1

theorem pushChild_nat (b : Body α κ) (s : Side) (x : κ) {g : ν → ξ} (k : Body α ν) :
    (b.map f).pushChild s (f x) (k.map g) = (b.pushChild s x k).map (map f) := by
  cases b with
  | leaf b => rfl
  | internal sz t c =>
    simp only [pushChild, len_nat, isLeafNode_nat, map_internal]
    refine nat_same fun _ => nat_same fun _ => nat_same fun _ => ?_
    exact nat_bind (CB.push_nat f _ _ _) fun _ => rfl

theorem pushChild_kids {b b' : Body α κ} {s : Side} {x : κ} {k : Body α ν}
    (e : b.pushChild s x k = .ok b') : b'.kids.Perm (x :: b.kids) := by
  cases b with
  | leaf b => cases e
  | internal sz t c =>
    obtain ⟨_, -, e⟩ := RVec.bind_ok e
    obtain ⟨_, -, e⟩ := RVec.bind_ok e
    obtain ⟨_, -, e⟩ := RVec.bind_ok e
    obtain ⟨q, e1, e⟩ := RVec.bind_ok e
    cases e
    exact CB.push_kids e1

theorem leafPush_nat (b : Body α κ) (s : Side) (x : α) : (b.map f).leafPush s x = (b.leafPush s x).map (map f) := by
  cases b with
  | leaf b => exact nat_same fun _ => rfl
  | internal sz t c => rfl

theorem leafPush_kids {b b' : Body α κ} {s : Side} {x : α} (e : b.leafPush s x = .ok b') :
    b'.kids = [] ∧ b.kids = [] := by
  cases b with
  | leaf b => obtain ⟨_, -, e⟩ := RVec.bind_ok e; cases e; exact ⟨rfl, rfl⟩
  | internal sz t c => cases e

theorem leafPop_nat (b : Body α κ) (s : Side) :
    (b.map f).leafPop s = (b.leafPop s).map fun r => (r.1, r.2.map f) := by
  cases b with
  | leaf b => exact nat_same fun _ => rfl
  | internal sz t c => rfl

theorem leafPop_kids {b : Body α κ} {s : Side} {r : α × Body α κ} (e : b.leafPop s = .ok r) :
    r.2.kids = [] ∧ b.kids = [] := by
  cases b with
  | leaf b => obtain ⟨_, -, e⟩ := RVec.bind_ok e; cases e; exact ⟨rfl, rfl⟩
  | internal sz t c => cases e

theorem setLeafEnd_nat (s : Side) (x : α) (b : Body α κ) :
    (b.map f).setLeafEnd s x = (b.setLeafEnd s x).map (Option.map (map f)) := by
  cases b with
  | leaf b => exact nat_same fun o => by cases o <;> rfl
  | internal sz t c => rfl

theorem setLeafEnd_kids {s : Side} {x : α} {b b' : Body α κ} (e : b.setLeafEnd s x = .ok (some b')) :
    b'.kids = [] ∧ b.kids = [] := by
  cases b with
  | leaf b =>
    obtain ⟨o, -, e⟩ := RVec.bind_ok e
    cases o with
    | none => cases e
    | some o => cases e; exact ⟨rfl, rfl⟩
  | internal sz t c => cases e

theorem splitAtChild_nat (b : Body α κ) (i : Nat) :
    (b.map f).splitAtChild i = (b.splitAtChild i).map fun r => (r.1.map f, r.2.map f) := by
  cases b with
  | leaf b => exact nat_ite (nat_same fun _ => rfl) rfl
  | internal sz t c =>
    refine nat_ite (nat_bind (f := fun r => (r.1, r.2.1.map f, r.2.2.map f)) ?_ fun r => rfl) rfl
    rw [← share_nat, ← newEmpty_nat]; rfl

theorem splitAtChild_kids {b : Body α κ} {i : Nat} {r : Body α κ × Body α κ} (e : b.splitAtChild i = .ok r) :
    (r.1.kids ++ r.2.kids).Perm b.kids := by
  cases b with
  | leaf b =>
    have e : (if i ≤ b.len then _ else _) = _ := e
    split at e
    · obtain ⟨o, -, e⟩ := RVec.bind_ok e
      cases e; exact .refl _
    · cases e
  | internal sz t c =>
    have e : (if i ≤ c.len then _ else _) = _ := e
    split at e
    · obtain ⟨q, e1, e⟩ := RVec.bind_ok e
      cases e
      have := share_kids e1
      rw [newEmpty_kids, List.append_nil] at this
      exact List.perm_append_comm.trans this
    · cases e

/-! ### Bodies whose children are nodes -/

theorem node_newEmpty (b : Body α (Node α)) : b.node.newEmpty = b.newEmpty.node := by cases b <;> rfl
theorem node_len (b : Body α (Node α)) : b.node.len = b.len := by cases b <;> rfl
theorem node_slots (b : Body α (Node α)) : b.node.slots = b.slots := by cases b <;> rfl
theorem node_level (b : Body α (Node α)) : b.node.level = b.level := by cases b <;> rfl
theorem node_freeSlots (b : Body α (Node α)) : b.node.freeSlots = b.freeSlots := by cases b <;> rfl
theorem node_leafFreeSpace (b : Body α (Node α)) : RVec.leafFreeSpace b.node = b.leafFreeSpace := by cases b <;> rfl
theorem node_leafEnd (s : Side) (b : Body α (Node α)) : RVec.leafEnd s b.node = b.leafEnd s := by cases b <;> rfl

theorem node_emptyInternal (n : Nat) : (Node.emptyInternal n : M (Node α)) = (emptyInternal n).map node := by
  unfold Node.emptyInternal emptyInternal
  exact nat_same fun _ => nat_ite rfl rfl

theorem node_share (a b : Body α (Node α)) (s : Side) (n : Nat) :
    a.node.shareChildrenWith b.node s n = (a.share b s n).map fun r => (r.1, r.2.1.node, r.2.2.node) := by
  cases a with
  | leaf ba =>
    cases b with
    | leaf bb => exact nat_same fun r => rfl
    | internal sb tb cb => rfl
  | internal sa ta ca =>
    cases b with
    | leaf bb => rfl
    | internal sb tb cb =>
      exact nat_same fun _ => nat_same fun _ => nat_same fun _ => nat_same fun r => nat_same fun _ => rfl

theorem node_popChild (b : Body α (Node α)) (s : Side) :
    b.node.popChild s = (b.popChild s).map fun r => (r.1, r.2.node) := by
  cases b with
  | leaf b => rfl
  | internal sz t c => exact nat_same fun _ => nat_same fun _ => rfl

theorem node_pushChild (b : Body α (Node α)) (s : Side) (k : Body α (Node α)) :
    b.node.pushChild s k.node = (b.pushChild s k.node k).map node := by
  cases b with
  | leaf b => rfl
  | internal sz t c =>
    show (Node.internal sz t c).pushChild s k.node = _
    simp only [Node.pushChild, pushChild]
    rw [node_len]
    refine nat_same fun n => nat_same fun sz' => ?_
    have : Node.checkTag t k.node = massert (t == if k.isLeafNode then Tag.leaves else Tag.internals) := by
      cases k <;> rfl
    rw [this]
    exact nat_same fun _ => nat_same fun _ => rfl

theorem node_leafPush (b : Body α (Node α)) (s : Side) (x : α) : b.node.leafPush s x = (b.leafPush s x).map node := by
  cases b with
  | leaf b => exact nat_same fun _ => rfl
  | internal sz t c => rfl

theorem node_leafPop (b : Body α (Node α)) (s : Side) :
    b.node.leafPop s = (b.leafPop s).map fun r => (r.1, r.2.node) := by
  cases b with
  | leaf b => exact nat_same fun _ => rfl
  | internal sz t c => rfl

theorem node_setLeafEnd (s : Side) (x : α) (b : Body α (Node α)) :
    RVec.setLeafEnd s x b.node = (b.setLeafEnd s x).map (Option.map node) := by
  cases b with
  | leaf b => exact nat_same fun o => by cases o <;> rfl
  | internal sz t c => rfl

theorem node_splitAtChild (b : Body α (Node α)) (i : Nat) :
    b.node.splitAtChild i = (b.splitAtChild i).map fun r => (r.1.node, r.2.node) := by
  cases b with
  | leaf b => exact nat_ite (nat_same fun _ => rfl) rfl
  | internal sz t c =>
    refine nat_ite (nat_bind (f := fun r => (r.1, r.2.1.node, r.2.2.node)) ?_ fun r => rfl) rfl
    exact node_share (.internal sz t c) (newEmpty (.internal sz t c)) .front i

end Body
end Librrb
