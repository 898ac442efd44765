import Verif.HeapSpec
import Verif.Proof.HeapWindow

/-!
# What all calls do to the heap alike

`Along R x`: a run of `x` that returns takes the heap along `R`. If `R` is a preorder it is enough to look at the steps that
write: `Writes R` for those that neither make nor free nodes, `Makes R` for all but `clone`.
-/
namespace Librrb

/-- A run of `x` that returns takes the heap along `R`. -/
structure Along (R : Heap α → Heap α → Prop) (x : HM α γ) : Prop where
  run : ∀ h r h', x h = .ok (r, h') → R h h'

/-- `R` allows writing to nodes. -/
structure Writes (R : Heap α → Heap α → Prop) : Prop where
  refl : ∀ h, R h h
  trans : ∀ {h1 h2 h3}, R h1 h2 → R h2 h3 → R h1 h3
  put : ∀ {h : Heap α} {a c} (n : Body α Addr), h.cell a = some c → R h (h.put a (some { c with node := n }))
  alone : ∀ {γ : Type} (a : Addr) {x y : HM α γ}, Along R x → Along R (do
    let one ← isOne a
    if one then x else y)

/-- `R` allows making and freeing nodes, too. -/
structure Makes (R : Heap α → Heap α → Prop) : Prop extends Writes R where
  alloc : ∀ n, Along R (alloc n)
  dropEntries : ∀ as, Along R (dropEntries as)

section

variable {R : Heap α → Heap α → Prop}

theorem Along.pure (w : Writes R) (a : γ) : Along R (pure a : HM α γ) := by
  refine ⟨fun h r h' e => ?_⟩
  cases e
  exact w.refl h

theorem Along.throw (f : Fault) : Along R (throw f : HM α γ) := by
  refine ⟨fun h r h' e => ?_⟩
  cases e

theorem Along.lift (w : Writes R) (x : M γ) : Along R (liftM x : HM α γ) := by
  refine ⟨fun h r h' e => ?_⟩
  cases x with
  | error f => cases e
  | ok a => cases e; exact w.refl h

theorem Along.bind (w : Writes R) {x : HM α γ} {k : γ → HM α δ} (hx : Along R x) (hk : ∀ g, Along R (k g)) :
    Along R (x >>= k) := by
  refine ⟨fun h r h' e => ?_⟩
  obtain ⟨g, h1, e1, e2⟩ := hm_bind_inv e
  exact w.trans (hx.run _ _ _ e1) ((hk _).run _ _ _ e2)

/-- Steps that are known. -/
syntax "along_step" : tactic

/-- A body made of known steps. -/
macro "along" : tactic => `(tactic| repeat' (first
  | assumption
  | with_reducible exact Along.pure ‹_› _
  | with_reducible exact Along.throw _
  | with_reducible exact Along.lift ‹_› _
  | with_reducible refine Along.bind ‹_› ?_ ?_
  | along_step
  | intro _
  | dsimp only
  | split))

theorem isOne_along (w : Writes R) (a : Addr) : Along R (isOne a) := by
  refine ⟨fun h r h' e => ?_⟩
  obtain ⟨rfl, -⟩ := isOne_inv e
  exact w.refl _

theorem load_along (w : Writes R) (a : Addr) : Along R (load a) := by
  refine ⟨fun h r h' e => ?_⟩
  obtain ⟨rfl, -⟩ := load_inv e
  exact w.refl _

theorem poke_along (w : Writes R) (a : Addr) (f : Body α Addr → Body α Addr) : Along R (poke a f) := by
  refine ⟨fun h r h' e => ?_⟩
  obtain ⟨c, hc, -, rfl⟩ := poke_inv e
  exact w.put _ hc

theorem Writes.loadMut (w : Writes R) (a : Addr) : Along R (loadMut a) := w.alone a (.pure w a)

theorem borrow_along (w : Writes R) (a : Addr) : Along R (borrow a) :=
  Along.bind w (w.loadMut a) fun b => Along.bind w (poke_along w _ _) fun _ => Along.pure w _

theorem giveBack_along (w : Writes R) (a : Addr) (n : Body α Addr) : Along R (giveBack a n) :=
  Along.bind w (poke_along w _ _) fun _ => Along.pure w _

macro_rules | `(tactic| along_step) => `(tactic| with_reducible exact isOne_along ‹_› _)
macro_rules | `(tactic| along_step) => `(tactic| with_reducible exact poke_along ‹_› _ _)
macro_rules | `(tactic| along_step) => `(tactic| with_reducible exact load_along ‹_› _)
macro_rules | `(tactic| along_step) => `(tactic| with_reducible exact borrow_along ‹_› _)
macro_rules | `(tactic| along_step) => `(tactic| with_reducible exact giveBack_along ‹_› _ _)
macro_rules | `(tactic| along_step) => `(tactic| with_reducible exact Writes.loadMut ‹_› _)

namespace Entry

theorem len_along (w : Writes R) (a : Addr) : Along R (len a) := by unfold len; along
macro_rules | `(tactic| along_step) => `(tactic| with_reducible exact Entry.len_along ‹_› _)
theorem slots_along (w : Writes R) (a : Addr) : Along R (slots a) := by unfold slots; along
macro_rules | `(tactic| along_step) => `(tactic| with_reducible exact Entry.slots_along ‹_› _)
theorem isEmpty_along (w : Writes R) (a : Addr) : Along R (isEmpty a) := by unfold isEmpty; along
macro_rules | `(tactic| along_step) => `(tactic| with_reducible exact Entry.isEmpty_along ‹_› _)
theorem freeSlots_along (w : Writes R) (a : Addr) : Along R (freeSlots a) := by unfold freeSlots; along
macro_rules | `(tactic| along_step) => `(tactic| with_reducible exact Entry.freeSlots_along ‹_› _)
theorem isFull_along (w : Writes R) (a : Addr) : Along R (isFull a) := by unfold isFull; along
macro_rules | `(tactic| along_step) => `(tactic| with_reducible exact Entry.isFull_along ‹_› _)
theorem level_along (w : Writes R) (a : Addr) : Along R (level a) := by unfold level; along
macro_rules | `(tactic| along_step) => `(tactic| with_reducible exact Entry.level_along ‹_› _)
theorem isLeaf_along (w : Writes R) (a : Addr) : Along R (isLeaf a) := by unfold isLeaf; along
macro_rules | `(tactic| along_step) => `(tactic| with_reducible exact Entry.isLeaf_along ‹_› _)
theorem leafFreeSpace_along (w : Writes R) (a : Addr) : Along R (leafFreeSpace a) := by unfold leafFreeSpace; along
macro_rules | `(tactic| along_step) => `(tactic| with_reducible exact Entry.leafFreeSpace_along ‹_› _)

theorem share_along (w : Writes R) (a b : Addr) (s : Side) (n : Nat) : Along R (share a b s n) := by unfold share; along
macro_rules | `(tactic| along_step) => `(tactic| with_reducible exact Entry.share_along ‹_› _ _ _ _)
theorem popChild_along (w : Writes R) (a : Addr) (s : Side) : Along R (popChild a s) := by unfold popChild; along
macro_rules | `(tactic| along_step) => `(tactic| with_reducible exact Entry.popChild_along ‹_› _ _)
theorem pushChild_along (w : Writes R) (a : Addr) (s : Side) (b : Addr) : Along R (pushChild a s b) := by unfold pushChild; along
macro_rules | `(tactic| along_step) => `(tactic| with_reducible exact Entry.pushChild_along ‹_› _ _ _)
theorem leafPush_along (w : Writes R) (a : Addr) (s : Side) (x : α) : Along R (leafPush a s x) := by unfold leafPush; along
macro_rules | `(tactic| along_step) => `(tactic| with_reducible exact Entry.leafPush_along ‹_› _ _ _)
theorem leafPop_along (w : Writes R) (a : Addr) (s : Side) : Along R (leafPop a s) := by unfold leafPop; along
macro_rules | `(tactic| along_step) => `(tactic| with_reducible exact Entry.leafPop_along ‹_› _ _)

theorem packLoop_along (w : Writes R) : ∀ n i j c, Along R (packLoop n i j c) := by
  intro n
  induction n with
  | zero => intros; unfold packLoop; along
  | succ n ih =>
    intros
    unfold packLoop
    along
    all_goals exact ih ..
macro_rules | `(tactic| along_step) => `(tactic| with_reducible exact Entry.packLoop_along ‹_› _ _ _ _)

theorem packSizes_along (w : Writes R) (c : CB Addr) : ∀ n i s, Along R (packSizes c n i s) := by
  intro n
  induction n with
  | zero => intros; unfold packSizes; along
  | succ n ih =>
    intros
    unfold packSizes
    along
    all_goals exact ih ..
macro_rules | `(tactic| along_step) => `(tactic| with_reducible exact Entry.packSizes_along ‹_› _ _ _ _)

end Entry

macro_rules | `(tactic| along_step) => `(tactic| with_reducible exact Makes.alloc ‹_› _)
macro_rules | `(tactic| along_step) => `(tactic| with_reducible exact Makes.dropEntries ‹_› _)

theorem dropEntry_along (m : Makes R) (a : Addr) : Along R (dropEntry a) := by
  have w := m.toWrites
  unfold dropEntry
  along
macro_rules | `(tactic| along_step) => `(tactic| with_reducible exact dropEntry_along ‹_› ..)
theorem Entry.newEmpty_along (m : Makes R) (a : Addr) : Along R (Entry.newEmpty a) := by
  have w := m.toWrites
  unfold Entry.newEmpty
  along
macro_rules | `(tactic| along_step) => `(tactic| with_reducible exact Entry.newEmpty_along ‹_› ..)
theorem Entry.emptyInternal_along (m : Makes R) (l : Nat) : Along R (Entry.emptyInternal l) := by
  have w := m.toWrites
  unfold Entry.emptyInternal
  along
macro_rules | `(tactic| along_step) => `(tactic| with_reducible exact Entry.emptyInternal_along ‹_› ..)
theorem Entry.packTrim_along (m : Makes R) : ∀ n c, Along R (Entry.packTrim n c) := by
  have w := m.toWrites
  intro n
  induction n with
  | zero => intros; unfold Entry.packTrim; along
  | succ n ih =>
    intros
    unfold Entry.packTrim
    along
    all_goals exact ih ..
macro_rules | `(tactic| along_step) => `(tactic| with_reducible exact Entry.packTrim_along ‹_› ..)
theorem Entry.packChildren_along (m : Makes R) (a : Addr) : Along R (Entry.packChildren a) := by
  have w := m.toWrites
  unfold Entry.packChildren
  along
macro_rules | `(tactic| along_step) => `(tactic| with_reducible exact Entry.packChildren_along ‹_› ..)
theorem Entry.getAux_along (w : Writes R) : ∀ n a i, Along R (Entry.getAux n a i) := by
  intro n
  induction n with
  | zero => intros; unfold Entry.getAux; along
  | succ n ih =>
    intros
    unfold Entry.getAux
    along
    all_goals exact ih ..
macro_rules | `(tactic| along_step) => `(tactic| with_reducible exact Entry.getAux_along ‹_› ..)
theorem Entry.get_along (w : Writes R) (a : Addr) (i : Nat) : Along R (Entry.get a i) := by
  unfold Entry.get
  along
macro_rules | `(tactic| along_step) => `(tactic| with_reducible exact Entry.get_along ‹_› ..)
theorem Entry.setAux_along (w : Writes R) : ∀ n a i x, Along R (Entry.setAux n a i x) := by
  intro n
  induction n with
  | zero => intros; unfold Entry.setAux; along
  | succ n ih =>
    intros
    unfold Entry.setAux
    along
    all_goals exact ih ..
macro_rules | `(tactic| along_step) => `(tactic| with_reducible exact Entry.setAux_along ‹_› ..)
theorem Entry.set_along (w : Writes R) (a : Addr) (i : Nat) (x : α) : Along R (Entry.set a i x) := by
  unfold Entry.set
  along
macro_rules | `(tactic| along_step) => `(tactic| with_reducible exact Entry.set_along ‹_› ..)
theorem Entry.debugCheckLoop_along (w : Writes R) {check : Addr → Nat → Nat → HM α Unit} (hc : ∀ a n l, Along R (check a n l))
    (s : SizeTable) (c : CB Addr) (rl : Nat) : ∀ n it st, Along R (Entry.debugCheckLoop check s c rl n it st) := by
  intro n
  induction n with
  | zero => intros; unfold Entry.debugCheckLoop; along
  | succ n ih =>
    intros
    unfold Entry.debugCheckLoop
    along
    all_goals first | exact hc .. | exact ih ..

theorem Entry.debugCheckAux_along (w : Writes R) : ∀ n a s l, Along R (Entry.debugCheckAux n a s l : HM α Unit) := by
  intro n
  induction n with
  | zero => intros; unfold Entry.debugCheckAux; along
  | succ n ih =>
    intros
    unfold Entry.debugCheckAux
    along
    all_goals exact Entry.debugCheckLoop_along w ih ..
macro_rules | `(tactic| along_step) => `(tactic| with_reducible exact Entry.debugCheckAux_along ‹_› ..)

theorem Entry.debugCheck_along (w : Writes R) (a : Addr) (s l : Nat) : Along R (Entry.debugCheck a s l) := by
  unfold Entry.debugCheck
  along
macro_rules | `(tactic| along_step) => `(tactic| with_reducible exact Entry.debugCheck_along ‹_› ..)
theorem Entry.splitAtPositionAux_along (m : Makes R) : ∀ n a p, Along R (Entry.splitAtPositionAux n a p) := by
  have w := m.toWrites
  intro n
  induction n with
  | zero => intros; unfold Entry.splitAtPositionAux; along
  | succ n ih =>
    intros
    unfold Entry.splitAtPositionAux
    along
    all_goals exact ih ..
macro_rules | `(tactic| along_step) => `(tactic| with_reducible exact Entry.splitAtPositionAux_along ‹_› ..)
theorem Entry.splitAtPosition_along (m : Makes R) (a : Addr) (p : Nat) : Along R (Entry.splitAtPosition a p) := by
  have w := m.toWrites
  unfold Entry.splitAtPosition
  along
macro_rules | `(tactic| along_step) => `(tactic| with_reducible exact Entry.splitAtPosition_along ‹_› ..)
theorem HVec.new_along (m : Makes R) : Along R (HVec.new : HM α HVec) := by
  have w := m.toWrites
  unfold HVec.new
  along
macro_rules | `(tactic| along_step) => `(tactic| with_reducible exact HVec.new_along ‹_›)

theorem HVec.drop_along (m : Makes R) (v : HVec) : Along R (HVec.drop v) := by
  have w := m.toWrites
  unfold HVec.drop
  along
macro_rules | `(tactic| along_step) => `(tactic| with_reducible exact HVec.drop_along ‹_› ..)
theorem HVec.fixupStep_along (m : Makes R) (v : HVec) : Along R (HVec.fixupStep v) := by
  have w := m.toWrites
  unfold HVec.fixupStep
  along
macro_rules | `(tactic| along_step) => `(tactic| with_reducible exact HVec.fixupStep_along ‹_› ..)
theorem HVec.fixupLoop_along (m : Makes R) : ∀ n v, Along R (HVec.fixupLoop n v) := by
  have w := m.toWrites
  intro n
  induction n with
  | zero => intros; unfold HVec.fixupLoop; along
  | succ n ih =>
    intros
    unfold HVec.fixupLoop
    along
    all_goals exact ih ..
macro_rules | `(tactic| along_step) => `(tactic| with_reducible exact HVec.fixupLoop_along ‹_› ..)
theorem HVec.fixupSpineTops_along (m : Makes R) (v : HVec) : Along R (HVec.fixupSpineTops v) := by
  have w := m.toWrites
  unfold HVec.fixupSpineTops
  along
macro_rules | `(tactic| along_step) => `(tactic| with_reducible exact HVec.fixupSpineTops_along ‹_› ..)
theorem HVec.completeLoop_along (m : Makes R) (s : Side) : ∀ n sp root, Along R (HVec.completeLoop s n sp root) := by
  have w := m.toWrites
  intro n
  induction n with
  | zero => intros; unfold HVec.completeLoop; along
  | succ n ih =>
    intro sp root
    cases sp <;> unfold HVec.completeLoop
    · along
    · along
      all_goals exact ih ..
macro_rules | `(tactic| along_step) => `(tactic| with_reducible exact HVec.completeLoop_along ‹_› ..)

theorem HVec.completeLeaf_along (m : Makes R) (v : HVec) (s : Side) : Along R (HVec.completeLeaf v s) := by
  have w := m.toWrites
  unfold HVec.completeLeaf
  along
macro_rules | `(tactic| along_step) => `(tactic| with_reducible exact HVec.completeLeaf_along ‹_› ..)
theorem HVec.pushSide_along (m : Makes R) (v : HVec) (s : Side) (x : α) : Along R (HVec.pushSide v s x) := by
  have w := m.toWrites
  unfold HVec.pushSide
  along
macro_rules | `(tactic| along_step) => `(tactic| with_reducible exact HVec.pushSide_along ‹_› ..)
theorem HVec.pushBack_along (m : Makes R) (v : HVec) (x : α) : Along R (HVec.pushBack v x) := by
  have w := m.toWrites
  unfold HVec.pushBack
  along
macro_rules | `(tactic| along_step) => `(tactic| with_reducible exact HVec.pushBack_along ‹_› ..)
theorem HVec.pushFront_along (m : Makes R) (v : HVec) (x : α) : Along R (HVec.pushFront v x) := by
  have w := m.toWrites
  unfold HVec.pushFront
  along
macro_rules | `(tactic| along_step) => `(tactic| with_reducible exact HVec.pushFront_along ‹_› ..)
theorem HVec.singleton_along (m : Makes R) (x : α) : Along R (HVec.singleton x) := by
  have w := m.toWrites
  unfold HVec.singleton
  along
macro_rules | `(tactic| along_step) => `(tactic| with_reducible exact HVec.singleton_along ‹_› ..)
theorem HVec.pushAll_along (m : Makes R) : ∀ (l : List α) v, Along R (HVec.pushAll v l) := by
  have w := m.toWrites
  intro l
  induction l with
  | nil => intros; unfold HVec.pushAll; along
  | cons a l ih =>
    intros
    unfold HVec.pushAll
    along
    all_goals exact ih ..
macro_rules | `(tactic| along_step) => `(tactic| with_reducible exact HVec.pushAll_along ‹_› ..)

theorem HVec.fromIter_along (m : Makes R) (l : List α) : Along R (HVec.fromIter l) := by
  have w := m.toWrites
  unfold HVec.fromIter
  along
macro_rules | `(tactic| along_step) => `(tactic| with_reducible exact HVec.fromIter_along ‹_› ..)
theorem HVec.lastEmpty_along (w : Writes R) : ∀ l i d, Along R (HVec.lastEmpty l i d) := by
  intro l
  induction l with
  | nil => intros; unfold HVec.lastEmpty; along
  | cons a l ih =>
    intros
    unfold HVec.lastEmpty
    along
    all_goals exact ih ..
macro_rules | `(tactic| along_step) => `(tactic| with_reducible exact HVec.lastEmpty_along ‹_› ..)
theorem HVec.emptyLeafLoop_along (m : Makes R) (s : Side) : ∀ n sp root, Along R (HVec.emptyLeafLoop s n sp root) := by
  have w := m.toWrites
  intro n
  induction n with
  | zero => intros; unfold HVec.emptyLeafLoop; along
  | succ n ih =>
    intros
    unfold HVec.emptyLeafLoop
    along
    all_goals exact ih ..
macro_rules | `(tactic| along_step) => `(tactic| with_reducible exact HVec.emptyLeafLoop_along ‹_› ..)
theorem HVec.emptyLeaf_along (m : Makes R) (v : HVec) (s : Side) : Along R (HVec.emptyLeaf v s) := by
  have w := m.toWrites
  unfold HVec.emptyLeaf
  along
macro_rules | `(tactic| along_step) => `(tactic| with_reducible exact HVec.emptyLeaf_along ‹_› ..)
theorem HVec.popSide_along (m : Makes R) (v : HVec) (s : Side) : Along R (HVec.popSide v s) := by
  have w := m.toWrites
  unfold HVec.popSide
  along
macro_rules | `(tactic| along_step) => `(tactic| with_reducible exact HVec.popSide_along ‹_› ..)
theorem HVec.popFront_along (m : Makes R) (v : HVec) : Along R (HVec.popFront v) := by
  have w := m.toWrites
  unfold HVec.popFront
  along
macro_rules | `(tactic| along_step) => `(tactic| with_reducible exact HVec.popFront_along ‹_› ..)
theorem HVec.popBack_along (m : Makes R) (v : HVec) : Along R (HVec.popBack v) := by
  have w := m.toWrites
  unfold HVec.popBack
  along
macro_rules | `(tactic| along_step) => `(tactic| with_reducible exact HVec.popBack_along ‹_› ..)
theorem HVec.findLoop_along (w : Writes R) (i : Nat) : ∀ l r j f b, Along R (HVec.findLoop i l r j f b) := by
  intro l
  induction l with
  | nil => intros; unfold HVec.findLoop; along
  | cons a l ih =>
    intro r
    cases r <;> intros <;> unfold HVec.findLoop
    · along
    · along
      all_goals exact ih ..
macro_rules | `(tactic| along_step) => `(tactic| with_reducible exact HVec.findLoop_along ‹_› ..)

theorem HVec.findNodeInfoForIndex_along (w : Writes R) (v : HVec) (i : Nat) : Along R (HVec.findNodeInfoForIndex v i) := by
  unfold HVec.findNodeInfoForIndex
  along
macro_rules | `(tactic| along_step) => `(tactic| with_reducible exact HVec.findNodeInfoForIndex_along ‹_› ..)
theorem HVec.get_along (w : Writes R) (v : HVec) (i : Nat) : Along R (HVec.get v i) := by
  unfold HVec.get
  along
macro_rules | `(tactic| along_step) => `(tactic| with_reducible exact HVec.get_along ‹_› ..)
theorem HVec.set_along (w : Writes R) (v : HVec) (i : Nat) (x : α) : Along R (HVec.set v i x) := by
  unfold HVec.set
  along
macro_rules | `(tactic| along_step) => `(tactic| with_reducible exact HVec.set_along ‹_› ..)
theorem HVec.frontBack_along (w : Writes R) (v : HVec) (s : Side) : Along R (HVec.frontBack v s) := by
  unfold HVec.frontBack
  along
macro_rules | `(tactic| along_step) => `(tactic| with_reducible exact HVec.frontBack_along ‹_› ..)
theorem HVec.setFrontBack_along (w : Writes R) (v : HVec) (s : Side) (x : α) : Along R (HVec.setFrontBack v s x) := by
  unfold HVec.setFrontBack
  along
macro_rules | `(tactic| along_step) => `(tactic| with_reducible exact HVec.setFrontBack_along ‹_› ..)
theorem HVec.raiseSelf_along (m : Makes R) : ∀ n t v, Along R (HVec.raiseSelf n t v) := by
  have w := m.toWrites
  intro n
  induction n with
  | zero => intros; unfold HVec.raiseSelf; along
  | succ n ih =>
    intros
    unfold HVec.raiseSelf
    along
    all_goals exact ih ..
macro_rules | `(tactic| along_step) => `(tactic| with_reducible exact HVec.raiseSelf_along ‹_› ..)
theorem HVec.raiseOther_along (m : Makes R) : ∀ n t v, Along R (HVec.raiseOther n t v) := by
  have w := m.toWrites
  intro n
  induction n with
  | zero => intros; unfold HVec.raiseOther; along
  | succ n ih =>
    intros
    unfold HVec.raiseOther
    along
    all_goals exact ih ..
macro_rules | `(tactic| along_step) => `(tactic| with_reducible exact HVec.raiseOther_along ‹_› ..)
theorem HVec.pushUp_along (m : Makes R) (s : Side) (c : Addr) (sp : List Addr) (root : Addr) : Along R (HVec.pushUp s c sp root) := by
  have w := m.toWrites
  unfold HVec.pushUp
  along
macro_rules | `(tactic| along_step) => `(tactic| with_reducible exact HVec.pushUp_along ‹_› ..)
theorem HVec.stealLoop_along (m : Makes R) : ∀ n a b, Along R (HVec.stealLoop n a b) := by
  have w := m.toWrites
  intro n
  induction n with
  | zero => intros; unfold HVec.stealLoop; along
  | succ n ih =>
    intros
    unfold HVec.stealLoop
    along
    all_goals exact ih ..
macro_rules | `(tactic| along_step) => `(tactic| with_reducible exact HVec.stealLoop_along ‹_› ..)
theorem HVec.joinLevel_along (m : Makes R) (a b : Addr) : Along R (HVec.joinLevel a b) := by
  have w := m.toWrites
  unfold HVec.joinLevel
  along
macro_rules | `(tactic| along_step) => `(tactic| with_reducible exact HVec.joinLevel_along ‹_› ..)
theorem HVec.appendLoop_along (m : Makes R) : ∀ n l ol a b, Along R (HVec.appendLoop n l ol a b) := by
  have w := m.toWrites
  intro n
  induction n with
  | zero => intro l; cases l <;> intros <;> unfold HVec.appendLoop <;> along
  | succ n ih =>
    intro l
    cases l <;> intros <;> unfold HVec.appendLoop
    · along
    · along
      all_goals exact ih ..
macro_rules | `(tactic| along_step) => `(tactic| with_reducible exact HVec.appendLoop_along ‹_› ..)

theorem HVec.firstUp_along (m : Makes R) (s : Side) (l : List Addr) (root : Addr) : Along R (HVec.firstUp s l root) := by
  have w := m.toWrites
  unfold HVec.firstUp
  along
macro_rules | `(tactic| along_step) => `(tactic| with_reducible exact HVec.firstUp_along ‹_› ..)
theorem HVec.appendMain_along (m : Makes R) (v w : HVec) : Along R (HVec.appendMain v w) := by
  have w := m.toWrites
  unfold HVec.appendMain
  along
macro_rules | `(tactic| along_step) => `(tactic| with_reducible exact HVec.appendMain_along ‹_› ..)
theorem HVec.append_along (m : Makes R) (v w : HVec) : Along R (HVec.append v w) := by
  have w := m.toWrites
  unfold HVec.append
  along
macro_rules | `(tactic| along_step) => `(tactic| with_reducible exact HVec.append_along ‹_› ..)
theorem HVec.prepend_along (m : Makes R) (v w : HVec) : Along R (HVec.prepend v w) := by
  have w := m.toWrites
  unfold HVec.prepend
  along
macro_rules | `(tactic| along_step) => `(tactic| with_reducible exact HVec.prepend_along ‹_› ..)
theorem HVec.dropEmpty_along (m : Makes R) : ∀ l, Along R (HVec.dropEmpty l) := by
  have w := m.toWrites
  intro l
  induction l with
  | nil => intros; unfold HVec.dropEmpty; along
  | cons a l ih =>
    intros
    unfold HVec.dropEmpty
    along
    all_goals exact ih ..
macro_rules | `(tactic| along_step) => `(tactic| with_reducible exact HVec.dropEmpty_along ‹_› ..)
theorem HVec.popTops_along (m : Makes R) : ∀ n v, Along R (HVec.popTops n v) := by
  have w := m.toWrites
  intro n
  induction n with
  | zero => intros; unfold HVec.popTops; along
  | succ n ih =>
    intros
    unfold HVec.popTops
    along
    all_goals exact ih ..
macro_rules | `(tactic| along_step) => `(tactic| with_reducible exact HVec.popTops_along ‹_› ..)
theorem HVec.fillLoop_along (m : Makes R) (s : Side) : ∀ n sp root, Along R (HVec.fillLoop s n sp root) := by
  have w := m.toWrites
  intro n
  induction n with
  | zero => intros; unfold HVec.fillLoop; along
  | succ n ih =>
    intros
    unfold HVec.fillLoop
    along
    all_goals exact ih ..
macro_rules | `(tactic| along_step) => `(tactic| with_reducible exact HVec.fillLoop_along ‹_› ..)
theorem HVec.fillSpine_along (m : Makes R) (v : HVec) (s : Side) : Along R (HVec.fillSpine v s) := by
  have w := m.toWrites
  unfold HVec.fillSpine
  along
macro_rules | `(tactic| along_step) => `(tactic| with_reducible exact HVec.fillSpine_along ‹_› ..)
theorem HVec.repair_along (m : Makes R) (v : HVec) (s : Side) : Along R (HVec.repair v s) := by
  have w := m.toWrites
  unfold HVec.repair
  along
macro_rules | `(tactic| along_step) => `(tactic| with_reducible exact HVec.repair_along ‹_› ..)
theorem HVec.cut_along (m : Makes R) (v : HVec) (p : Option (Side × Nat)) (a b : Nat) : Along R (HVec.cut v p a b) := by
  have w := m.toWrites
  unfold HVec.cut
  along
macro_rules | `(tactic| along_step) => `(tactic| with_reducible exact HVec.cut_along ‹_› ..)
theorem HVec.splitOff_along (m : Makes R) (v : HVec) (i : Nat) : Along R (HVec.splitOff v i) := by
  have w := m.toWrites
  unfold HVec.splitOff
  along
macro_rules | `(tactic| along_step) => `(tactic| with_reducible exact HVec.splitOff_along ‹_› ..)
theorem HVec.sliceFromStart_along (m : Makes R) (v : HVec) (i : Nat) : Along R (HVec.sliceFromStart v i) := by
  have w := m.toWrites
  unfold HVec.sliceFromStart
  along
macro_rules | `(tactic| along_step) => `(tactic| with_reducible exact HVec.sliceFromStart_along ‹_› ..)
theorem HVec.sliceToEnd_along (m : Makes R) (v : HVec) (i : Nat) : Along R (HVec.sliceToEnd v i) := by
  have w := m.toWrites
  unfold HVec.sliceToEnd
  along
macro_rules | `(tactic| along_step) => `(tactic| with_reducible exact HVec.sliceToEnd_along ‹_› ..)
theorem HVec.extractSlice_along (m : Makes R) (v : HVec) (a b : Bound) : Along R (HVec.extractSlice v a b) := by
  have w := m.toWrites
  unfold HVec.extractSlice
  along
macro_rules | `(tactic| along_step) => `(tactic| with_reducible exact HVec.extractSlice_along ‹_› ..)
theorem HVec.insert_along (m : Makes R) (v : HVec) (i : Nat) (x : α) : Along R (HVec.insert v i x) := by
  have w := m.toWrites
  unfold HVec.insert
  along
macro_rules | `(tactic| along_step) => `(tactic| with_reducible exact HVec.insert_along ‹_› ..)
theorem HVec.remove_along (m : Makes R) (v : HVec) (i : Nat) : Along R (HVec.remove v i) := by
  have w := m.toWrites
  unfold HVec.remove
  along
macro_rules | `(tactic| along_step) => `(tactic| with_reducible exact HVec.remove_along ‹_› ..)
theorem Entry.borrowNode_along (w : Writes R) (a : Addr) : Along R (Entry.borrowNode a) := by
  unfold Entry.borrowNode
  along
macro_rules | `(tactic| along_step) => `(tactic| with_reducible exact Entry.borrowNode_along ‹_› ..)
theorem putSlot_along (w : Writes R) (p : Ptr) (k : Addr) : Along R (putSlot p k) := by
  unfold putSlot
  along
macro_rules | `(tactic| along_step) => `(tactic| with_reducible exact putSlot_along ‹_› ..)

theorem loadMutSlot_along (w : Writes R) (p : Ptr) : Along R (loadMutSlot p) := by
  refine Along.bind w (load_along w _) fun n => ?_
  cases n with
  | leaf b => exact Along.throw _
  | internal s t c => exact Along.bind w (Along.lift w _) fun k => w.alone k (.pure w k)
macro_rules | `(tactic| along_step) => `(tactic| with_reducible exact loadMutSlot_along ‹_› ..)
theorem borrowSlot_along (w : Writes R) (p : Ptr) : Along R (borrowSlot p) := by
  unfold borrowSlot
  along
macro_rules | `(tactic| along_step) => `(tactic| with_reducible exact borrowSlot_along ‹_› ..)
theorem readPtr_along (w : Writes R) (p : Ptr) : Along R (readPtr p) := by
  unfold readPtr
  along
macro_rules | `(tactic| along_step) => `(tactic| with_reducible exact readPtr_along ‹_› ..)
theorem writePtr_along (w : Writes R) (x : α) (p : Ptr) : Along R (writePtr x p) := by
  unfold writePtr
  along
macro_rules | `(tactic| along_step) => `(tactic| with_reducible exact writePtr_along ‹_› ..)

theorem swapPtrs_along (w : Writes R) (p q : Ptr) : Along R (swapPtrs p q) := by
  unfold swapPtrs
  along
macro_rules | `(tactic| along_step) => `(tactic| with_reducible exact swapPtrs_along ‹_› ..)
theorem HInternal.popChild_along (w : Writes R) (b : HInternal) (s : Side) : Along R (HInternal.popChild b s) := by
  unfold HInternal.popChild
  along
macro_rules | `(tactic| along_step) => `(tactic| with_reducible exact HInternal.popChild_along ‹_› ..)
theorem HFMut.splitLoop_along (w : Writes R) : ∀ n i l r, Along R (HFMut.splitLoop n i l r) := by
  intro n
  induction n with
  | zero => intros; unfold HFMut.splitLoop; along
  | succ n ih =>
    intros
    unfold HFMut.splitLoop
    along
    all_goals exact ih ..
macro_rules | `(tactic| along_step) => `(tactic| with_reducible exact HFMut.splitLoop_along ‹_› ..)
theorem HFMut.splitAt_along (w : Writes R) (f : HFMut) (i : Nat) : Along R (HFMut.splitAt f i) := by
  unfold HFMut.splitAt
  along
macro_rules | `(tactic| along_step) => `(tactic| with_reducible exact HFMut.splitAt_along ‹_› ..)
theorem HFMut.descend_along (w : Writes R) : ∀ n f i, Along R (HFMut.descend n f i) := by
  intro n
  induction n with
  | zero => intros; unfold HFMut.descend; along
  | succ n ih =>
    intros
    unfold HFMut.descend
    along
    all_goals exact ih ..
macro_rules | `(tactic| along_step) => `(tactic| with_reducible exact HFMut.descend_along ‹_› ..)
theorem HFMut.enter_along (w : Writes R) (f : HFMut) (i s : Nat) : Along R (HFMut.enter f i s) := by
  unfold HFMut.enter
  along
macro_rules | `(tactic| along_step) => `(tactic| with_reducible exact HFMut.enter_along ‹_› ..)
theorem HFMut.moveFrom_along (w : Writes R) (f : HFMut) (i : Nat) (r : Nat × Nat × Nat) : Along R (HFMut.moveFrom f i r) := by
  unfold HFMut.moveFrom
  along
macro_rules | `(tactic| along_step) => `(tactic| with_reducible exact HFMut.moveFrom_along ‹_› ..)
theorem HFMut.moveFocus_along (w : Writes R) (f : HFMut) (i : Nat) : Along R (HFMut.moveFocus f i) := by
  unfold HFMut.moveFocus
  along
macro_rules | `(tactic| along_step) => `(tactic| with_reducible exact HFMut.moveFocus_along ‹_› ..)
theorem HFMut.get_along (w : Writes R) (f : HFMut) (i : Nat) : Along R (HFMut.get f i) := by
  unfold HFMut.get
  along
macro_rules | `(tactic| along_step) => `(tactic| with_reducible exact HFMut.get_along ‹_› ..)
theorem HFMut.index_along (w : Writes R) (f : HFMut) (i : Nat) : Along R (HFMut.index f i) := by
  unfold HFMut.index
  along
macro_rules | `(tactic| along_step) => `(tactic| with_reducible exact HFMut.index_along ‹_› ..)
theorem HVec.borrowNodes_along (w : Writes R) : ∀ l, Along R (HVec.borrowNodes l) := by
  intro l
  induction l with
  | nil => intros; unfold HVec.borrowNodes; along
  | cons a l ih =>
    intros
    unfold HVec.borrowNodes
    along
    all_goals exact ih ..
macro_rules | `(tactic| along_step) => `(tactic| with_reducible exact HVec.borrowNodes_along ‹_› ..)
theorem HVec.focusMut_along (w : Writes R) (v : HVec) : Along R (HVec.focusMut v) := by
  unfold HVec.focusMut
  along
macro_rules | `(tactic| along_step) => `(tactic| with_reducible exact HVec.focusMut_along ‹_› ..)
theorem HVec.window_along (w : Writes R) (v : HVec) (a b : Nat) : Along R (HVec.window v a b) := by
  unfold HVec.window
  along
macro_rules | `(tactic| along_step) => `(tactic| with_reducible exact HVec.window_along ‹_› ..)
theorem HVec.reverseLoop_along (w : Writes R) (r : Nat) : ∀ n i a b, Along R (HVec.reverseLoop r n i a b) := by
  intro n
  induction n with
  | zero => intros; unfold HVec.reverseLoop; along
  | succ n ih =>
    intros
    unfold HVec.reverseLoop
    along
    all_goals exact ih ..
macro_rules | `(tactic| along_step) => `(tactic| with_reducible exact HVec.reverseLoop_along ‹_› ..)
theorem HVec.reverseRange_along (w : Writes R) (v : HVec) (a b : Bound) : Along R (HVec.reverseRange v a b) := by
  unfold HVec.reverseRange
  along
macro_rules | `(tactic| along_step) => `(tactic| with_reducible exact HVec.reverseRange_along ‹_› ..)
theorem HVIterMut.new_along (w : Writes R) (v : HVec) : Along R (HVIterMut.new v) := by
  unfold HVIterMut.new
  along
macro_rules | `(tactic| along_step) => `(tactic| with_reducible exact HVIterMut.new_along ‹_› ..)
theorem HVIterMut.next_along (w : Writes R) (i : HVIterMut) : Along R (HVIterMut.next i) := by
  unfold HVIterMut.next
  along
macro_rules | `(tactic| along_step) => `(tactic| with_reducible exact HVIterMut.next_along ‹_› ..)
theorem HVIterMut.nextBack_along (w : Writes R) (i : HVIterMut) : Along R (HVIterMut.nextBack i) := by
  unfold HVIterMut.nextBack
  along
macro_rules | `(tactic| along_step) => `(tactic| with_reducible exact HVIterMut.nextBack_along ‹_› ..)
theorem HVIterMut.step_along (w : Writes R) (s : Side) (i : HVIterMut) : Along R (HVIterMut.step s i) := by
  unfold HVIterMut.step
  along
macro_rules | `(tactic| along_step) => `(tactic| with_reducible exact HVIterMut.step_along ‹_› ..)
/-- The operations of a sort go along. -/
structure HSortFocus.Goes (R : Heap α → Heap α → Prop) (o : HSortFocus α φ) : Prop where
  splitAt : ∀ f k, Along R (o.splitAt f k)
  compare : ∀ a i b j, Along R (o.compare a i b j)
  swap : ∀ a i b j, Along R (o.swap a i b j)
macro_rules | `(tactic| along_step) => `(tactic| with_reducible exact HSortFocus.Goes.splitAt ‹_› ..)
macro_rules | `(tactic| along_step) => `(tactic| with_reducible exact HSortFocus.Goes.compare ‹_› ..)
macro_rules | `(tactic| along_step) => `(tactic| with_reducible exact HSortFocus.Goes.swap ‹_› ..)

theorem HSortFocus.single_goes (w : Writes R) (cmp : α → α → Ordering) : (HSortFocus.single cmp).Goes R := by
  refine ⟨fun f k => ?_, fun a i b j => ?_, fun a i b j => ?_⟩ <;> simp only [HSortFocus.single] <;> along

theorem HSortFocus.dual_goes (w : Writes R) (cmp : α → α → Ordering) : (HSortFocus.dual cmp).Goes R := by
  refine ⟨fun f k => ?_, fun a i b j => ?_, fun a i b j => ?_⟩ <;> simp only [HSortFocus.dual] <;> along

theorem HSortFocus.countLoop_along (w : Writes R) {o : HSortFocus α φ} (g : o.Goes R) : ∀ n i a b l e, Along R (HSortFocus.countLoop o n i a b l e) := by
  intro n
  induction n with
  | zero => intros; unfold HSortFocus.countLoop; along
  | succ n ih =>
    intros
    unfold HSortFocus.countLoop
    along
    all_goals exact ih ..
macro_rules | `(tactic| along_step) => `(tactic| with_reducible exact HSortFocus.countLoop_along ‹_› ‹_› ..)
theorem HSortFocus.minLoop_along (w : Writes R) {o : HSortFocus α φ} (g : o.Goes R) (l : Nat) : ∀ n i a b, Along R (HSortFocus.minLoop o l n i a b) := by
  intro n
  induction n with
  | zero => intros; unfold HSortFocus.minLoop; along
  | succ n ih =>
    intros
    unfold HSortFocus.minLoop
    along
    all_goals exact ih ..
macro_rules | `(tactic| along_step) => `(tactic| with_reducible exact HSortFocus.minLoop_along ‹_› ‹_› ..)
theorem HSortFocus.advanceLess_along (w : Writes R) {o : HSortFocus α φ} (g : o.Goes R) : ∀ n p, Along R (HSortFocus.advanceLess o n p) := by
  intro n
  induction n with
  | zero => intros; unfold HSortFocus.advanceLess; along
  | succ n ih =>
    intros
    unfold HSortFocus.advanceLess
    along
    all_goals exact ih ..
macro_rules | `(tactic| along_step) => `(tactic| with_reducible exact HSortFocus.advanceLess_along ‹_› ‹_› ..)
theorem HSortFocus.advanceGreater_along (w : Writes R) {o : HSortFocus α φ} (g : o.Goes R) : ∀ n p, Along R (HSortFocus.advanceGreater o n p) := by
  intro n
  induction n with
  | zero => intros; unfold HSortFocus.advanceGreater; along
  | succ n ih =>
    intros
    unfold HSortFocus.advanceGreater
    along
    all_goals exact ih ..
macro_rules | `(tactic| along_step) => `(tactic| with_reducible exact HSortFocus.advanceGreater_along ‹_› ‹_› ..)
theorem HSortFocus.advanceEqual_along (w : Writes R) {o : HSortFocus α φ} (g : o.Goes R) (i : Nat) : ∀ n a b c, Along R (HSortFocus.advanceEqual o i n a b c) := by
  intro n
  induction n with
  | zero => intros; unfold HSortFocus.advanceEqual; along
  | succ n ih =>
    intros
    unfold HSortFocus.advanceEqual
    along
    all_goals exact ih ..
macro_rules | `(tactic| along_step) => `(tactic| with_reducible exact HSortFocus.advanceEqual_along ‹_› ‹_› ..)
theorem HSortFocus.partStep_along (w : Writes R) {o : HSortFocus α φ} (g : o.Goes R) (p : SortFocus.Parts φ) :  Along R (HSortFocus.partStep o p) := by
  unfold HSortFocus.partStep
  along
macro_rules | `(tactic| along_step) => `(tactic| with_reducible exact HSortFocus.partStep_along ‹_› ‹_› ..)
theorem HSortFocus.partLoop_along (w : Writes R) {o : HSortFocus α φ} (g : o.Goes R) : ∀ n p, Along R (HSortFocus.partLoop o n p) := by
  intro n
  induction n with
  | zero => intros; unfold HSortFocus.partLoop; along
  | succ n ih =>
    intros
    unfold HSortFocus.partLoop
    along
    all_goals exact ih ..
macro_rules | `(tactic| along_step) => `(tactic| with_reducible exact HSortFocus.partLoop_along ‹_› ‹_› ..)
theorem HSortFocus.sort_along (w : Writes R) {o : HSortFocus α φ} (g : o.Goes R) (next : ρ → Nat × ρ) : ∀ n r f, Along R (HSortFocus.sort o next n r f) := by
  intro n
  induction n with
  | zero => intros; unfold HSortFocus.sort; along
  | succ n ih =>
    intros
    unfold HSortFocus.sort
    along
    all_goals exact ih ..
macro_rules | `(tactic| along_step) => `(tactic| with_reducible exact HSortFocus.sort_along ‹_› ‹_› ..)
theorem HVec.sortRangeBy_along (w : Writes R) (v : HVec) (cmp : α → α → Ordering) (a b : Bound) (next : ρ → Nat × ρ) (r : ρ) :
    Along R (v.sortRangeBy cmp a b next r) := by
  have g := HSortFocus.single_goes w cmp
  unfold HVec.sortRangeBy
  along
macro_rules | `(tactic| along_step) => `(tactic| with_reducible exact HVec.sortRangeBy_along ‹_› ..)

theorem HVec.dualSortRangeBy_along (w : Writes R) (u v : HVec) (cmp : α → α → Ordering) (a b : Bound) (next : ρ → Nat × ρ) (r : ρ) :
    Along R (u.dualSortRangeBy v cmp a b next r) := by
  have g := HSortFocus.dual_goes w cmp
  unfold HVec.dualSortRangeBy
  along
macro_rules | `(tactic| along_step) => `(tactic| with_reducible exact HVec.dualSortRangeBy_along ‹_› ..)

theorem Entry.childRefForPosition_along (w : Writes R) (a : Addr) (i : Nat) : Along R (Entry.childRefForPosition a i) := by
  unfold Entry.childRefForPosition
  along
macro_rules | `(tactic| along_step) => `(tactic| with_reducible exact Entry.childRefForPosition_along ‹_› ..)
theorem Entry.leafGet_along (w : Writes R) (a : Addr) (i : Nat) : Along R (Entry.leafGet a i) := by
  unfold Entry.leafGet
  along
macro_rules | `(tactic| along_step) => `(tactic| with_reducible exact Entry.leafGet_along ‹_› ..)
theorem HPFocus.treePath_along (w : Writes R) : ∀ n p i, Along R (HPFocus.treePath n p i) := by
  intro n
  induction n with
  | zero => intros; unfold HPFocus.treePath; along
  | succ n ih =>
    intro p
    cases p <;> intros <;> unfold HPFocus.treePath
    · along
    · along
      all_goals exact ih ..
macro_rules | `(tactic| along_step) => `(tactic| with_reducible exact HPFocus.treePath_along ‹_› ..)

theorem HPFocus.fromTree_along (w : Writes R) (a : Addr) : Along R (HPFocus.fromTree a) := by
  unfold HPFocus.fromTree
  along
macro_rules | `(tactic| along_step) => `(tactic| with_reducible exact HPFocus.fromTree_along ‹_› ..)
theorem HPFocus.enterPath_along (w : Writes R) (i : Nat) (p : List (Addr × Nat × Nat)) : Along R (HPFocus.enterPath i p) := by
  unfold HPFocus.enterPath
  along
macro_rules | `(tactic| along_step) => `(tactic| with_reducible exact HPFocus.enterPath_along ‹_› ..)
theorem HPFocus.moveFocus_along (w : Writes R) (f : HPFocus) (i : Nat) : Along R (HPFocus.moveFocus f i) := by
  unfold HPFocus.moveFocus
  along
macro_rules | `(tactic| along_step) => `(tactic| with_reducible exact HPFocus.moveFocus_along ‹_› ..)
theorem HPFocus.get_along (w : Writes R) (f : HPFocus) (i : Nat) : Along R (HPFocus.get f i) := by
  unfold HPFocus.get
  along
macro_rules | `(tactic| along_step) => `(tactic| with_reducible exact HPFocus.get_along ‹_› ..)
theorem HFocus.pickLoop_along (w : Writes R) (a b : Nat) : ∀ l e p, Along R (HFocus.pickLoop a b l e p) := by
  intro l
  induction l with
  | nil => intros; unfold HFocus.pickLoop; along
  | cons a l ih =>
    intros
    unfold HFocus.pickLoop
    along
    all_goals exact ih ..
macro_rules | `(tactic| along_step) => `(tactic| with_reducible exact HFocus.pickLoop_along ‹_› ..)
theorem HFocus.narrowedTree_along (w : Writes R) (v : HVec) (a b : Nat) : Along R (HFocus.narrowedTree v a b) := by
  unfold HFocus.narrowedTree
  along
macro_rules | `(tactic| along_step) => `(tactic| with_reducible exact HFocus.narrowedTree_along ‹_› ..)
theorem HFocus.new_along (w : Writes R) (v : HVec) : Along R (HFocus.new v) := by
  unfold HFocus.new
  along
macro_rules | `(tactic| along_step) => `(tactic| with_reducible exact HFocus.new_along ‹_› ..)
theorem HFocus.enter_along (w : Writes R) (f : HFocus) (p : Option (Side × Nat)) (a : Addr) (x y z : Nat) : Along R (HFocus.enter f p a x y z) := by
  unfold HFocus.enter
  along
macro_rules | `(tactic| along_step) => `(tactic| with_reducible exact HFocus.enter_along ‹_› ..)
theorem HFocus.refocusBack_along (w : Writes R) (f : HFocus) (i : Nat) : ∀ l e, Along R (HFocus.refocusBack f i l e) := by
  intro l
  induction l with
  | nil => intros; unfold HFocus.refocusBack; along
  | cons a l ih =>
    intros
    unfold HFocus.refocusBack
    along
    all_goals exact ih ..
macro_rules | `(tactic| along_step) => `(tactic| with_reducible exact HFocus.refocusBack_along ‹_› ..)
theorem HFocus.refocusFwd_along (w : Writes R) (f : HFocus) (i : Nat) : ∀ l e, Along R (HFocus.refocusFwd f i l e) := by
  intro l
  induction l with
  | nil => intros; unfold HFocus.refocusFwd; along
  | cons a l ih =>
    intros
    unfold HFocus.refocusFwd
    along
    all_goals exact ih ..
macro_rules | `(tactic| along_step) => `(tactic| with_reducible exact HFocus.refocusFwd_along ‹_› ..)
theorem HFocus.refocus_along (w : Writes R) (f : HFocus) (i : Nat) : Along R (HFocus.refocus f i) := by
  unfold HFocus.refocus
  along
macro_rules | `(tactic| along_step) => `(tactic| with_reducible exact HFocus.refocus_along ‹_› ..)
theorem HFocus.get_along (w : Writes R) (f : HFocus) (i : Nat) : Along R (HFocus.get f i) := by
  unfold HFocus.get
  along
macro_rules | `(tactic| along_step) => `(tactic| with_reducible exact HFocus.get_along ‹_› ..)
theorem HVIter.new_along (w : Writes R) (v : HVec) : Along R (HVIter.new v) := by
  unfold HVIter.new
  along
macro_rules | `(tactic| along_step) => `(tactic| with_reducible exact HVIter.new_along ‹_› ..)
theorem HVIter.next_along (w : Writes R) (i : HVIter) : Along R (HVIter.next i) := by
  unfold HVIter.next
  along
macro_rules | `(tactic| along_step) => `(tactic| with_reducible exact HVIter.next_along ‹_› ..)
theorem HVIter.nextBack_along (w : Writes R) (i : HVIter) : Along R (HVIter.nextBack i) := by
  unfold HVIter.nextBack
  along
macro_rules | `(tactic| along_step) => `(tactic| with_reducible exact HVIter.nextBack_along ‹_› ..)
theorem HVIter.step_along (w : Writes R) (s : Side) (i : HVIter) : Along R (HVIter.step s i) := by
  unfold HVIter.step
  along
macro_rules | `(tactic| along_step) => `(tactic| with_reducible exact HVIter.step_along ‹_› ..)
theorem HVIter.run_along (w : Writes R) : ∀ l i, Along R (HVIter.run l i) := by
  intro l
  induction l with
  | nil => intros; unfold HVIter.run; along
  | cons a l ih =>
    intros
    unfold HVIter.run
    along
    all_goals exact ih ..
macro_rules | `(tactic| along_step) => `(tactic| with_reducible exact HVIter.run_along ‹_› ..)
theorem HVec.iterCmp_along (w : Writes R) (cmp : α → α → Ordering) : ∀ n a b, Along R (HVec.iterCmp cmp n a b) := by
  intro n
  induction n with
  | zero => intros; unfold HVec.iterCmp; along
  | succ n ih =>
    intros
    unfold HVec.iterCmp
    along
    all_goals exact ih ..
macro_rules | `(tactic| along_step) => `(tactic| with_reducible exact HVec.iterCmp_along ‹_› ..)
theorem HVec.cmpVec_along (w : Writes R) (cmp : α → α → Ordering) (u v : HVec) : Along R (HVec.cmpVec cmp u v) := by
  unfold HVec.cmpVec
  along
macro_rules | `(tactic| along_step) => `(tactic| with_reducible exact HVec.cmpVec_along ‹_› ..)
theorem hrunAll_along (w : Writes R) {step : ι → σ → HM α (β × σ)} (hs : ∀ i s, Along R (step i s)) :
    ∀ l s, Along R (hrunAll step l s) := by
  intro l
  induction l with
  | nil => intros; unfold hrunAll; along
  | cons i l ih =>
    intros
    unfold hrunAll
    along
    all_goals first | exact hs .. | exact ih ..

theorem FOp.haccess_along (w : Writes R) (o : FOp α) (p : Option Ptr) : Along R (FOp.haccess o p) := by
  unfold FOp.haccess
  along
macro_rules | `(tactic| along_step) => `(tactic| with_reducible exact FOp.haccess_along ‹_› ..)
theorem FOp.hrun_along (w : Writes R) (o : FOp α) (f : HFMut) : Along R (FOp.hrun o f) := by
  unfold FOp.hrun
  along
macro_rules | `(tactic| along_step) => `(tactic| with_reducible exact FOp.hrun_along ‹_› ..)
theorem TOp.hrun_along (w : Writes R) (t : TOp α) (fs : List HFMut) : Along R (TOp.hrun t fs) := by
  cases t <;> unfold TOp.hrun <;> dsimp only <;> along
macro_rules | `(tactic| along_step) => `(tactic| with_reducible exact TOp.hrun_along ‹_› ..)
theorem hmapStep_along (w : Writes R) (g : α → α) (s : Side) (i : HVIterMut) : Along R (hmapStep g s i) := by
  unfold hmapStep
  along
macro_rules | `(tactic| along_step) => `(tactic| with_reducible exact hmapStep_along ‹_› ..)
theorem HVec.intoIterStep_along (m : Makes R) (s : Side) (v : HVec) : Along R (HVec.intoIterStep s v) := by
  have w := m.toWrites
  unfold HVec.intoIterStep
  along
macro_rules | `(tactic| along_step) => `(tactic| with_reducible exact HVec.intoIterStep_along ‹_› ..)

theorem Act.hrun_along_writes (w : Writes R) (v : HVec) (a : Act α) (ha : a.InPlace) : Along R (a.hrun v) := by
  cases a <;> simp only [Act.InPlace] at ha <;> unfold Act.hrun <;> along
  all_goals
    refine hrunAll_along w ?_ _ _
    intro _ _
    along

theorem Act.hrun_along (m : Makes R) (v : HVec) (a : Act α) : Along R (a.hrun v) := by
  have w := m.toWrites
  cases a <;> unfold Act.hrun <;> along
  all_goals
    refine hrunAll_along w ?_ _ _
    intro _ _
    along
macro_rules | `(tactic| along_step) => `(tactic| with_reducible exact Act.hrun_along ‹_› ..)

theorem Call.hrun_along (m : Makes R) (st : List HVec) (c : Call α) (hc : c.Cloneless) : Along R (c.hrun st) := by
  have w := m.toWrites
  cases c <;> simp only [Call.Cloneless] at hc <;> unfold Call.hrun <;> along
  all_goals
    refine hrunAll_along w ?_ _ _
    intro _ _
    along

theorem Call.hrun_along_writes (w : Writes R) (st : List HVec) (c : Call α) (hc : c.InPlace) : Along R (c.hrun st) := by
  cases c <;> simp only [Call.InPlace] at hc <;> unfold Call.hrun
  case act i a =>
    have ha := fun v => Act.hrun_along_writes w v a hc
    dsimp only
    split
    · exact Along.pure w _
    · exact Along.bind w (ha _) fun _ => Along.pure w _
  all_goals along

theorem runHeap_along (m : Makes R) : ∀ (prog : List (Call α)) (st : List HVec), (∀ c ∈ prog, c.Cloneless) →
    Along R (runHeap prog st) := by
  have w := m.toWrites
  intro prog
  induction prog with
  | nil => intro st _; exact Along.pure w _
  | cons c cs ih =>
    intro st hc
    refine Along.bind w (Call.hrun_along m st c (hc c (by simp))) fun g => ?_
    refine Along.bind w (ih _ fun c h => hc c (by simp [h])) fun _ => Along.pure w _

end

end Librrb
