import Verif.Proof.Steps

/-! # How many steps a call takes in the heap: vectors -/
namespace Librrb

open RingOk (bind_inv unwrap_inv)

variable {Z : Zone} {K L N K' : Nat}

namespace HVec

theorem new_steps : Steps Z K 1 (new : HM α _) := (alloc_steps _).and_pure

theorem entries_length {v : HVec} (hv : VecOk Z L v) : v.entries.length ≤ 2 * L + 1 := by
  have := hv.leftLen
  have := hv.rightLen
  simp only [VecOf.entries, List.length_append, List.length_singleton]
  omega

theorem clone_steps {v : HVec} (hv : VecOk Z L v) : Steps Z K (2 * L + 1) (clone v : HM α _) :=
  (((cloneEntries_steps _).mono (entries_length hv)).and_pure)

theorem drop_steps {v : HVec} (hv : VecOk Z L v) : Steps Z K (2 * L + 1) (drop v : HM α _) :=
  (dropEntries_steps _).mono (entries_length hv)

theorem fixupStep_steps {v : HVec} (hv : VecOk Z L v) : Steps Z K 145 (fixupStep v : HM α _) := by
  unfold fixupStep
  refine Steps.lift fun l el => ?_
  refine Steps.lift fun r er => ?_
  have hl : Z.has l := hv.left _ (List.mem_of_getLast? (unwrap_inv el))
  have hr : Z.has r := hv.right _ (List.mem_of_getLast? (unwrap_inv er))
  read1
  read1
  read1
  dsimp only
  refine Steps.ite (fun _ => ?_) fun _ => ?_
  · refine Steps.bind (Entry.share_steps hl hr _ _) (Entry.share_cost hl hr _ _) (by omega) fun q hq => ?_
    refine Steps.bind (dropEntry_steps _) (dropEntry_cost _) (by omega) fun _ _ => ?_
    refine Steps.bind (dropEntry_steps _) (dropEntry_cost _) (by omega) fun _ _ => ?_
    exact Steps.pure
  · refine Steps.ite (fun _ => ?_) fun _ => ?_
    · refine Steps.ite (fun _ => ?_) fun _ => ?_
      · exact ((Entry.share_steps hl hr _ _).and_pure).mono (by omega)
      · exact ((Entry.share_steps hr hl _ _).and_pure).mono (by omega)
    · exact Steps.pure

theorem fixupLoop_steps : ∀ (fuel : Nat) {v : HVec}, VecOk Z L v → Steps Z K (147 * fuel + 2) (fixupLoop fuel v : HM α _)
  | 0, v, hv => by
    unfold fixupLoop
    read1
    read1
    split
    · exact Steps.throw
    · exact Steps.pure
  | fuel + 1, v, hv => by
    unfold fixupLoop
    read1
    read1
    split
    · refine Steps.bind (fixupStep_steps hv) (fixupStep_cost hv) (by omega) fun r hr => ?_
      split
      · exact (fixupLoop_steps fuel hr).mono (by omega)
      · exact Steps.pure
    · exact Steps.pure

theorem fixupSpineTops_steps {v : HVec} (hv : VecOk Z L v) : Steps Z K (147 * L + 149) (fixupSpineTops v : HM α _) := by
  have := hv.leftLen
  exact (fixupLoop_steps (v.left.length + 1) hv).mono (by omega)

theorem completeLoop_steps (s : Side) : ∀ (n : Nat) {sp : List Addr} {root : Addr}, (∀ a ∈ sp, Z.has a) → Z.has root →
    Steps Z K (74 * n) (completeLoop s n sp root : HM α _)
  | 0, sp, root, hs, hr => Steps.pure
  | n + 1, [], root, hs, hr => Steps.pure
  | n + 1, node :: rest, root, hs, hr => by
    unfold completeLoop
    have hn : Z.has node := hs _ (List.mem_cons_self ..)
    read1
    split
    · exact Steps.pure
    · refine Steps.bind (Entry.newEmpty_steps node) (Entry.newEmpty_cost hn) (by omega) fun e he => ?_
      cases rest with
      | nil =>
        dsimp only
        exact ((Entry.pushChild_steps hr hn s).and_pure).mono (by omega)
      | cons p rest =>
        dsimp only
        have hp := hs p (by simp)
        refine Steps.bind (Entry.pushChild_steps hp hn s) (Entry.pushChild_cost hp hn s) (by omega) fun q hq => ?_
        exact ((completeLoop_steps s n (sp := q :: rest) (has_cons hq fun a ha => hs a (by simp [ha])) hr).and_pure).mono (by omega)

theorem completeLeaf_steps {v : HVec} (hv : VecOk Z L v) (s : Side) : Steps Z K (221 * L + 151) (completeLeaf v s : HM α _) := by
  unfold completeLeaf
  have hs := hv.spine s
  refine Steps.lift fun _ _ => ?_
  read1
  refine Steps.lift fun _ _ => ?_
  refine Steps.bind ((completeLoop_steps s _ hs.1 hv.root).mono (N' := 74 * L) (by omega)) (completeLoop_cost s _ hs.1 hv.root) (by omega)
    fun r hr => ?_
  dsimp only
  read1
  split
  · refine Steps.bind (Entry.level_steps _) (Entry.level_cost hr.2.2) (by omega) fun l hl => ?_
    refine Steps.bind (Entry.emptyInternal_steps _) (Entry.emptyInternal_cost (K' := K + 1) (by omega) (by omega)) (by omega)
      fun n hn => ?_
    refine Steps.bind (Entry.newEmpty_steps _) (Entry.newEmpty_cost hr.2.2) (by omega) fun e he => ?_
    exact ((Entry.share_steps hr.2.2 he _ _).and_pure).mono (by omega)
  · split
    · exact (fixupSpineTops_steps ((hv.withRoot hr.2.2).withSpine s hr.1 (by omega))).mono (by omega)
    · exact Steps.pure

theorem pushSide_steps {v : HVec} (hv : VecOk Z L v) (s : Side) (x : α) : Steps Z K (368 * L + 518) (pushSide v s x) := by
  unfold pushSide
  read1
  refine Steps.bind (N1 := 221 * L + 151) (N0 := 4 * L + 4) (K1 := K + 1) (Q := VecOk Z (L + 1)) ?_ ?_ (by omega) fun w hw => ?_
  · split
    · exact completeLeaf_steps hv s
    · exact Steps.pure
  · split
    · exact completeLeaf_cost hv s
    · exact Cost.pure (by omega) (hv.mono (by omega))
  · refine Steps.bind (Entry.leafPush_steps (hw.leafNode s) s x) (Entry.leafPush_cost (hw.leafNode s) s x) (by omega) fun n hn => ?_
    refine Steps.lift fun len _ => ?_
    dsimp only
    have := (hw.withLeafNode s hn).withLen len
    split
    · exact (fixupSpineTops_steps this).mono (by omega)
    · exact Steps.pure

theorem lastEmpty_steps : ∀ (as : List Addr) (i d : Nat), Steps Z K as.length (lastEmpty as i d : HM α _)
  | [], _, _ => Steps.pure
  | a :: as, i, d => by
    unfold lastEmpty
    rw [List.length_cons]
    read1
    split
    · exact Steps.pure
    · exact (lastEmpty_steps as _ _).mono (by omega)

theorem emptyLeafLoop_steps (s : Side) : ∀ (n : Nat) {sp : List Addr} {root : Addr}, (∀ a ∈ sp, Z.has a) → Z.has root →
    Steps Z K (71 * n) (emptyLeafLoop s n sp root : HM α _)
  | 0, sp, root, hs, hr => Steps.pure
  | n + 1, sp, root, hs, hr => by
    unfold emptyLeafLoop
    refine Steps.lift fun old eo => ?_
    split
    next p hp =>
      have hp := hs p (List.mem_of_getElem? hp)
      refine Steps.bind (Entry.popChild_steps hp s) (Entry.popChild_cost hp s) (by omega) fun r hr' => ?_
      refine Steps.bind (dropEntry_steps _) (dropEntry_cost _) (by omega) fun _ _ => ?_
      exact (emptyLeafLoop_steps s n (has_set (has_set hs hr'.2) hr'.1) hr).mono (by omega)
    · refine Steps.bind (Entry.popChild_steps hr s) (Entry.popChild_cost hr s) (by omega) fun r hr' => ?_
      refine Steps.bind (dropEntry_steps _) (dropEntry_cost _) (by omega) fun _ _ => ?_
      exact (emptyLeafLoop_steps s n (has_set hs hr'.1) hr'.2).mono (by omega)

theorem emptyLeafLoop_steps' (s : Side) (n : Nat) {sp : List Addr} {root : Addr} (hs : ∀ a ∈ sp, Z.has a) (hr : Z.has root) :
    Steps Z K (71 * sp.length) (emptyLeafLoop s n sp root : HM α _) := by
  by_cases hn : n ≤ sp.length
  · exact (emptyLeafLoop_steps s n hs hr).mono (by omega)
  · cases n with
    | zero => omega
    | succ n =>
      unfold emptyLeafLoop
      refine Steps.lift fun old eo => ?_
      have := unwrap_inv eo
      rw [List.getElem?_eq_none (by omega)] at this
      cases this

theorem emptyLeaf_steps {v : HVec} (hv : VecOk Z L v) (s : Side) : Steps Z K (219 * L + 152) (emptyLeaf v s : HM α _) := by
  unfold emptyLeaf
  have hs := hv.spine s
  refine Steps.lift fun _ _ => ?_
  dsimp only
  refine Steps.lift fun f _ => ?_
  read1
  refine Steps.lift fun _ _ => ?_
  refine Steps.lift fun l _ => ?_
  read1
  read1
  refine Steps.lift fun _ _ => ?_
  refine Steps.lift fun _ _ => ?_
  refine Steps.read ((lastEmpty_steps (v.spine s).tail _ _).mono (N' := L) ?_) (lastEmpty_still _ _ _) (by omega) fun n => ?_
  · have := hs.2
    simp only [List.length_tail]
    omega
  refine Steps.bind ((emptyLeafLoop_steps' s _ hs.1 hv.root).mono (N' := 71 * L) (by omega)) (emptyLeafLoop_cost' s _ hs.1 hv.root)
    (by omega) fun r hr => ?_
  exact (fixupSpineTops_steps ((hv.withRoot hr.2.2).withSpine s hr.1 (by omega))).mono (by omega)

theorem popSide_steps {v : HVec} (hv : VecOk Z L v) (s : Side) : Steps Z K (219 * L + 223) (popSide v s : HM α _) := by
  unfold popSide
  refine Steps.lift fun _ _ => ?_
  split
  · read1
    split
    · refine Steps.lift fun n _ => ?_
      exact ((Entry.leafPop_steps hv.root s).and_pure).mono (by omega)
    · exact Steps.pure
  · refine Steps.bind (Entry.leafPop_steps (hv.leafNode s) s) (Entry.leafPop_cost (hv.leafNode s) s) (by omega) fun r hr => ?_
    dsimp only
    read1
    have hw := hv.withLeafNode s hr
    refine Steps.bind (N1 := 219 * L + 152) (N0 := 3 * L + 2) (K1 := K) (Q := VecOk Z L) ?_ ?_ (by omega) fun w hw => ?_
    · split
      · exact emptyLeaf_steps hw s
      · split
        · exact (fixupSpineTops_steps hw).mono (by omega)
        · exact Steps.pure
    · split
      · exact emptyLeaf_cost hw s
      · split
        · exact (fixupSpineTops_cost hw).le (by omega)
        · exact Cost.pure (Nat.le_refl _) hw
    · exact Steps.lift fun n _ => Steps.pure

theorem findLoop_steps (index : Nat) : ∀ (ls rs : List Addr) (i f b : Nat),
    Steps Z K (2 * ls.length) (findLoop index ls rs i f b : HM α _)
  | [], rs, i, f, b => by
    unfold findLoop
    exact Steps.lift fun _ _ => Steps.lift fun _ _ => Steps.pure
  | l :: ls, [], i, f, b => by
    unfold findLoop
    exact Steps.lift fun _ _ => Steps.lift fun _ _ => Steps.pure
  | l :: ls, r :: rs, i, f, b => by
    unfold findLoop
    rw [List.length_cons]
    read1
    split
    · exact Steps.lift fun _ _ => Steps.pure
    · read1
      refine Steps.lift fun _ _ => ?_
      split
      · exact Steps.lift fun _ _ => Steps.pure
      · exact (findLoop_steps index ls rs _ _ _).mono (by omega)

theorem findNodeInfoForIndex_steps {v : HVec} (hv : VecOk Z L v) (i : Nat) :
    Steps Z K (2 * L) (findNodeInfoForIndex v i : HM α _) := by
  unfold findNodeInfoForIndex
  have := hv.leftLen
  split
  · exact Steps.pure
  · exact ((findLoop_steps i v.left v.right 0 0 v.len).and_pure).mono (by omega)

theorem nodeAt_has {v : HVec} (hv : VecOk Z L v) {pos : Option (Side × Nat)} {n : Addr} (en : v.nodeAt pos = .ok n) : Z.has n := by
  cases pos with
  | none => cases en; exact hv.root
  | some p =>
    obtain ⟨s, j⟩ := p
    cases s
    · exact hv.left _ (List.mem_of_getElem? (unwrap_inv en))
    · exact hv.right _ (List.mem_of_getElem? (unwrap_inv en))

theorem get_steps {v : HVec} (hv : VecOk Z L v) (i : Nat) : Steps Z K (2 * L + K + 2) (get v i : HM α _) := by
  unfold get
  refine Steps.read (findNodeInfoForIndex_steps hv i) (findNodeInfoForIndex_still v i) (by omega) fun p => ?_
  split
  · refine Steps.lift fun n en => ?_
    refine Steps.read ((Entry.get_steps (nodeAt_has hv en) _).mono (N' := K + 2) (by omega)) (by still_step) (by omega) fun o => ?_
    exact Steps.lift fun x _ => Steps.pure
  · exact Steps.pure

theorem set_steps {v : HVec} (hv : VecOk Z L v) (i : Nat) (x : α) : Steps Z K (2 * L + 70 * K + 71) (set v i x) := by
  unfold set
  refine Steps.read (findNodeInfoForIndex_steps hv i) (findNodeInfoForIndex_still v i) (by omega) fun p => ?_
  split
  · refine Steps.lift fun n en => ?_
    have hn := nodeAt_has hv en
    refine Steps.bind (Entry.set_steps hn _ x) (Entry.set_cost hn _ x) (by omega) fun r hr => ?_
    exact Steps.lift fun _ _ => Steps.pure
  · exact Steps.pure

theorem frontBack_steps (v : HVec) (s : Side) : Steps Z K 1 (frontBack v s : HM α _) := Steps.load_lift

theorem setFrontBack_steps {v : HVec} (hv : VecOk Z L v) (s : Side) (x : α) : Steps Z K 70 (setFrontBack v s x) := by
  unfold setFrontBack
  refine Steps.bind (borrow_steps (hv.leafNode s)) (borrow_cost (hv.leafNode s)) (by omega) fun b hb => ?_
  refine Steps.lift fun r e => ?_
  have hg := hb.2.setLeafEnd e
  exact (giveBack_steps _ hg).and_pure.mono (by omega)

/-! ### append -/

theorem raiseSelf_steps (target : Nat) : ∀ (fuel K : Nat) {v : HVec}, (∀ a ∈ v.left, Z.has a) → (∀ a ∈ v.right, Z.has a) →
    Z.has v.root → Steps Z K (145 * fuel) (raiseSelf fuel target v : HM α _)
  | 0, K, v, hl, hr, ht => by
    unfold raiseSelf
    split
    · exact Steps.throw
    · exact Steps.pure
  | fuel + 1, K, v, hl, hr, ht => by
    unfold raiseSelf
    split
    next hlt =>
      refine Steps.bind (Entry.level_steps _) (Entry.level_cost ht) (by omega) fun l hlv => ?_
      refine Steps.bind (Entry.emptyInternal_steps _) (Entry.emptyInternal_cost (K' := K + 1) (by omega) (by omega)) (by omega)
        fun n hn => ?_
      refine Steps.bind (Entry.newEmpty_steps _) (Entry.newEmpty_cost ht) (by omega) fun e he => ?_
      read1
      refine Steps.bind (Entry.share_steps ht he _ _) (Entry.share_cost ht he _ _) (by omega) fun q hq => ?_
      exact (raiseSelf_steps target fuel (K + 1) (has_append hl (has_one hq.1)) (has_append hr (has_one hq.2)) hn).mono (by omega)
    · exact Steps.pure

theorem raiseOther_steps (target : Nat) : ∀ (fuel K : Nat) {v : HVec}, (∀ a ∈ v.left, Z.has a) → (∀ a ∈ v.right, Z.has a) →
    Z.has v.root → Steps Z K (145 * fuel) (raiseOther fuel target v : HM α _)
  | 0, K, v, hl, hr, ht => by
    unfold raiseOther
    split
    · exact Steps.throw
    · exact Steps.pure
  | fuel + 1, K, v, hl, hr, ht => by
    unfold raiseOther
    split
    next hlt =>
      refine Steps.bind (Entry.level_steps _) (Entry.level_cost ht) (by omega) fun l hlv => ?_
      refine Steps.bind (Entry.emptyInternal_steps _) (Entry.emptyInternal_cost (K' := K + 1) (by omega) (by omega)) (by omega)
        fun n hn => ?_
      refine Steps.bind (Entry.newEmpty_steps _) (Entry.newEmpty_cost ht) (by omega) fun e he => ?_
      read1
      refine Steps.bind (Entry.share_steps ht he _ _) (Entry.share_cost ht he _ _) (by omega) fun q hq => ?_
      exact (raiseOther_steps target fuel (K + 1) (has_append hl (has_one hq.2)) (has_append hr (has_one hq.1)) hn).mono (by omega)
    · exact Steps.pure

theorem pushUp_steps (s : Side) {child root : Addr} {sp : List Addr} (hc : Z.has child) (hs : ∀ a ∈ sp, Z.has a)
    (hr : Z.has root) : Steps Z K 72 (pushUp s child sp root : HM α _) := by
  unfold pushUp
  read1
  split
  · exact ((dropEntry_steps _).and_pure).mono (by omega)
  · cases sp with
    | nil => exact ((Entry.pushChild_steps hr hc s).and_pure).mono (by omega)
    | cons p rest => exact ((Entry.pushChild_steps (hs p (by simp)) hc s).and_pure).mono (by omega)

theorem stealLoop_steps : ∀ (fuel : Nat) {l r : Addr}, Z.has l → Z.has r → Steps Z K (285 * fuel + 2) (stealLoop fuel l r : HM α _)
  | 0, l, r, hl, hr => by
    unfold stealLoop
    read1
    read1
    split
    · exact Steps.throw
    · exact Steps.pure
  | fuel + 1, l, r, hl, hr => by
    unfold stealLoop
    read1
    read1
    split
    · refine Steps.bind (Entry.popChild_steps hr _) (Entry.popChild_cost hr _) (by omega) fun p hp => ?_
      read1
      refine Steps.bind (Entry.share_steps hp.1 hl _ _) (Entry.share_cost hp.1 hl _ _) (by omega) fun q hq => ?_
      read1
      split
      · refine Steps.bind (Entry.pushChild_steps hp.2 hq.1 _) (Entry.pushChild_cost hp.2 hq.1 _) (by omega) fun r' hr' => ?_
        exact (stealLoop_steps fuel hq.2 hr').mono (by omega)
      · refine Steps.bind (dropEntry_steps _) (dropEntry_cost _) (by omega) fun _ _ => ?_
        exact (stealLoop_steps fuel hq.2 hp.2).mono (by omega)
    · exact Steps.pure

theorem joinLevel_steps {l r : Addr} (hl : Z.has l) (hr : Z.has r) : Steps Z K 55830 (joinLevel l r : HM α _) := by
  unfold joinLevel
  refine Steps.bind (loadMut_steps hl) (loadMut_cost hl) (by omega) fun l hl => ?_
  refine Steps.bind (loadMut_steps hr) (loadMut_cost hr) (by omega) fun r hr => ?_
  refine Steps.bind (Entry.packChildren_steps hl) (Entry.packChildren_cost hl) (by omega) fun l hl => ?_
  refine Steps.bind (Entry.popChild_steps hl _) (Entry.popChild_cost hl _) (by omega) fun p hp => ?_
  refine Steps.bind (Entry.slots_steps _) (Entry.slots_cost hr) (by omega) fun n hn => ?_
  refine Steps.bind ((stealLoop_steps (n + 1) hp.1 hr).mono (N' := 18527) (by omega)) (stealLoop_cost (n + 1) hp.1 hr) (by omega)
    fun q hq => ?_
  refine Steps.bind (Entry.pushChild_steps hp.2 hq.1 _) (Entry.pushChild_cost hp.2 hq.1 _) (by omega) fun l hl => ?_
  refine Steps.bind (Entry.packChildren_steps hq.2) (Entry.packChildren_cost hq.2) (by omega) fun r hr => ?_
  read1
  exact ((Entry.share_steps hr hl _ _).and_pure).mono (by omega)

theorem appendLoop_steps : ∀ (n : Nat) {ls ol : List Addr} {root oroot : Addr}, (∀ a ∈ ls, Z.has a) → (∀ a ∈ ol, Z.has a) →
    Z.has root → Z.has oroot → Steps Z K (55974 * n) (appendLoop n ls ol root oroot : HM α _)
  | 0, [], ol, root, oroot, _, _, hr, ho => by
    unfold appendLoop
    exact Steps.lift fun _ _ => Steps.pure
  | n + 1, [], ol, root, oroot, _, _, hr, ho => by
    unfold appendLoop
    exact Steps.lift fun _ _ => Steps.pure
  | 0, _ :: _, _, _, _, _, _, _, _ => Steps.throw
  | n + 1, l :: ls, ol, root, oroot, hl, hol, hr, ho => by
    unfold appendLoop
    refine Steps.lift fun q eq => ?_
    have hq : Z.has q := hol _ (List.mem_of_mem_head? (unwrap_inv eq))
    refine Steps.bind (joinLevel_steps (hl l (by simp)) hq) (joinLevel_cost (hl l (by simp)) hq) (by omega) fun j hj => ?_
    have h1 : ∀ a ∈ ls, Z.has a := fun a ha => hl a (by simp [ha])
    have h2 : ∀ a ∈ ol.tail, Z.has a := fun a ha => hol a (List.mem_of_mem_tail ha)
    refine Steps.bind (pushUp_steps _ hj.1 h1 hr) (pushUp_cost _ hj.1 h1 hr) (by omega) fun r hr => ?_
    refine Steps.bind (pushUp_steps _ hj.2 h2 ho) (pushUp_cost _ hj.2 h2 ho) (by omega) fun s hs => ?_
    exact (appendLoop_steps n hr.1 hs.1 hr.2.2 hs.2.2).mono (by omega)

theorem firstUp_steps (s : Side) {sp : List Addr} {root : Addr} (hs : ∀ a ∈ sp, Z.has a) (hr : Z.has root) :
    Steps Z K 140 (firstUp s sp root : HM α _) := by
  match sp, hs with
  | [], hs => exact Steps.pure
  | [c], hs =>
    refine Steps.bind (loadMut_steps hr) (loadMut_cost hr) (by omega) fun q hq => ?_
    exact (pushUp_steps s (hs c (by simp)) (by simp) hq).mono (by omega)
  | c :: p :: rest, hs =>
    have hp := hs p (by simp)
    refine Steps.bind (loadMut_steps hp) (loadMut_cost hp) (by omega) fun q hq => ?_
    exact (pushUp_steps s (sp := q :: rest) (hs c (by simp)) (has_cons hq fun a ha => hs a (by simp [ha])) hr).mono (by omega)

theorem appendMain_steps {v w : HVec} (hv : VecOk Z L v) (hw : VecOk Z L w) :
    Steps Z K (56558 * L + 860) (appendMain v w : HM α _) := by
  unfold appendMain
  have h1 := hv.leftLen
  have h2 := hv.rightLen
  have h3 := hw.leftLen
  have h4 := hw.rightLen
  refine Steps.lift fun len _ => ?_
  refine Steps.bind ((raiseSelf_steps _ w.left.length K hv.left hv.right hv.root).mono (N' := 145 * L) (by omega))
    ((raiseSelf_cost _ w.left.length K hv.left hv.right hv.root).mono (N' := 4 * L) (K'' := K + L) (by omega) (by omega)
    fun _ h => h) (by omega) fun v' ⟨a1, a2, a3, a4, a5⟩ => ?_
  refine Steps.bind ((raiseOther_steps _ v'.right.length (K + L) hw.left hw.right hw.root).mono (N' := 145 * L) (by omega))
    ((raiseOther_cost _ v'.right.length (K + L) hw.left hw.right hw.root).mono (N' := 4 * L) (K'' := K + 2 * L)
    (by omega) (by omega) fun _ h => h) (by omega) fun w' ⟨b1, b2, b3, b4⟩ => ?_
  refine Steps.lift fun _ c1 => ?_
  refine Steps.lift fun _ c2 => ?_
  have c1 := massert_inv c1
  have c2 := massert_inv c2
  simp only [beq_iff_eq] at c1 c2
  refine Steps.bind (firstUp_steps _ a2 a3) (firstUp_cost _ a2 a3) (by omega) fun r hr => ?_
  refine Steps.bind (firstUp_steps _ b1 b3) (firstUp_cost _ b1 b3) (by omega) fun s hs => ?_
  refine Steps.bind ((appendLoop_steps r.1.length hr.1 hs.1 hr.2.2 hs.2.2).mono (N' := 55974 * L) (by omega))
    (appendLoop_cost r.1.length hr.1 hs.1 hr.2.2 hs.2.2) (by omega) fun q hq => ?_
  refine Steps.bind (Entry.share_steps hq.2 hq.1 _ _) (Entry.share_cost hq.2 hq.1 _ _) (by omega) fun t ht => ?_
  read1
  refine Steps.bind (N1 := 140) (N0 := 2) (K1 := K + 2 * L) (Q := fun p => Z.has p.1 ∧ Z.has p.2) ?_ ?_ (by omega) fun p hp => ?_
  · split
    · exact (Entry.share_steps ht.2 ht.1 _ _).and_pure
    · exact Steps.pure
  · split
    · refine Cost.bind (Entry.share_cost ht.2 ht.1 _ _) (by omega) fun u hu => ?_
      exact Cost.pure (Nat.le_refl _) hu
    · exact Cost.pure (Nat.le_refl _) ⟨ht.2, ht.1⟩
  · read1
    split
    · refine Steps.bind (Entry.level_steps _) (Entry.level_cost hp.1) (by omega) fun l hl => ?_
      refine Steps.bind (Entry.emptyInternal_steps _) (Entry.emptyInternal_cost (K' := K + 2 * L + 1) (by omega) (by omega)) (by omega)
        fun n hn => ?_
      refine (fixupSpineTops_steps (L := 2 * L + 1) ⟨has_append a1 (has_one hp.1), has_append b2 (has_one hp.2), hn, ?_, ?_⟩).mono
        (by omega)
      · simp only [List.length_append, List.length_singleton]; omega
      · simp only [List.length_append, List.length_singleton]; omega
    · have hx : VecOk Z (2 * L) (⟨v'.left, w'.right, p.1, len⟩ : HVec) := ⟨a1, b2, hp.1, by dsimp only; omega, by dsimp only; omega⟩
      refine Steps.bind (fixupSpineTops_steps hx) (fixupSpineTops_cost hx) (by omega) fun x hx => ?_
      exact ((dropEntry_steps _).and_pure).mono (by omega)

theorem append_steps {v w : HVec} (hv : VecOk Z L v) (hw : VecOk Z L w) : Steps Z K (56558 * L + 860) (append v w : HM α _) := by
  unfold append
  split
  · exact ((drop_steps hv).and_pure).mono (by omega)
  · split
    · exact ((drop_steps hw).and_pure).mono (by omega)
    · split
      · refine Steps.bind (popSide_steps hv _) (popSide_cost hv _) (by omega) fun r hr => ?_
        refine Steps.lift fun x _ => ?_
        refine Steps.bind (pushSide_steps hw _ x) (pushSide_cost hw _ x) (by omega) fun q hq => ?_
        exact ((drop_steps hr).and_pure).mono (by omega)
      · split
        · refine Steps.bind (popSide_steps hw _) (popSide_cost hw _) (by omega) fun r hr => ?_
          refine Steps.lift fun x _ => ?_
          refine Steps.bind (pushSide_steps hv _ x) (pushSide_cost hv _ x) (by omega) fun q hq => ?_
          exact ((drop_steps hr).and_pure).mono (by omega)
        · exact appendMain_steps hv hw

theorem singleton_steps (x : α) : Steps Z K 519 (singleton x) := by
  unfold singleton
  refine Steps.bind new_steps (new_cost (L := 0)) (by omega) fun v hv => ?_
  exact (pushSide_steps hv .back x).mono (by omega)

theorem intoIterStep_steps (s : Side) {v : HVec} (hv : VecOk Z L v) : Steps Z K (219 * L + 223) (intoIterStep s v : HM α _) := by
  cases s with
  | front => exact popSide_steps hv .front
  | back => exact popSide_steps hv .back

end HVec
end Librrb
