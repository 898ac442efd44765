import Verif.Proof.HeapCost

/-! # How many nodes a call makes: joining, cutting and mutable foci -/
namespace Librrb

open RingOk (bind_inv unwrap_inv)

variable {Z : Zone} {K L N K' : Nat}

namespace HVec

/-! ### append -/

theorem raiseSelf_cost (target : Nat) : ∀ (fuel K : Nat) {v : HVec}, (∀ a ∈ v.left, Z.has a) → (∀ a ∈ v.right, Z.has a) →
    Z.has v.root → Cost Z K (4 * fuel) (raiseSelf fuel target v : HM α _) (K + fuel) fun w =>
      (∀ a ∈ w.left, Z.has a) ∧ (∀ a ∈ w.right, Z.has a) ∧ Z.has w.root ∧ w.left.length ≤ v.left.length + fuel ∧
        w.right.length ≤ max v.right.length target
  | 0, K, v, hl, hr, ht => by
    unfold raiseSelf
    split
    · exact Cost.throw
    · exact Cost.pure (by omega) ⟨hl, hr, ht, by omega, by omega⟩
  | fuel + 1, K, v, hl, hr, ht => by
    unfold raiseSelf
    split
    next hlt =>
      refine Cost.bind (Entry.level_cost ht) (by omega) fun l hlv => ?_
      refine Cost.bind (Entry.emptyInternal_cost (K' := K + 1) (by omega) (by omega)) (by omega) fun n hn => ?_
      refine Cost.bind (Entry.newEmpty_cost ht) (by omega) fun e he => ?_
      reading
      refine Cost.bind (Entry.share_cost ht he _ _) (by omega) fun q hq => ?_
      refine (raiseSelf_cost target fuel (K + 1) (has_append hl (has_one hq.1)) (has_append hr (has_one hq.2)) hn).mono (by omega)
        (by omega) fun w hw => ?_
      simp only [List.length_append, List.length_singleton] at hw
      exact ⟨hw.1, hw.2.1, hw.2.2.1, by omega, by omega⟩
    · exact Cost.pure (by omega) ⟨hl, hr, ht, by omega, by omega⟩

theorem raiseOther_cost (target : Nat) : ∀ (fuel K : Nat) {v : HVec}, (∀ a ∈ v.left, Z.has a) → (∀ a ∈ v.right, Z.has a) →
    Z.has v.root → Cost Z K (4 * fuel) (raiseOther fuel target v : HM α _) (K + fuel) fun w =>
      (∀ a ∈ w.left, Z.has a) ∧ (∀ a ∈ w.right, Z.has a) ∧ Z.has w.root ∧ w.left.length ≤ max v.left.length target
  | 0, K, v, hl, hr, ht => by
    unfold raiseOther
    split
    · exact Cost.throw
    · exact Cost.pure (by omega) ⟨hl, hr, ht, by omega⟩
  | fuel + 1, K, v, hl, hr, ht => by
    unfold raiseOther
    split
    next hlt =>
      refine Cost.bind (Entry.level_cost ht) (by omega) fun l hlv => ?_
      refine Cost.bind (Entry.emptyInternal_cost (K' := K + 1) (by omega) (by omega)) (by omega) fun n hn => ?_
      refine Cost.bind (Entry.newEmpty_cost ht) (by omega) fun e he => ?_
      reading
      refine Cost.bind (Entry.share_cost ht he _ _) (by omega) fun q hq => ?_
      refine (raiseOther_cost target fuel (K + 1) (has_append hl (has_one hq.2)) (has_append hr (has_one hq.1)) hn).mono (by omega)
        (by omega) fun w hw => ?_
      simp only [List.length_append, List.length_singleton] at hw
      exact ⟨hw.1, hw.2.1, hw.2.2.1, by omega⟩
    · exact Cost.pure (by omega) ⟨hl, hr, ht, by omega⟩

theorem pushUp_cost (s : Side) {child root : Addr} {sp : List Addr} (hc : Z.has child) (hs : ∀ a ∈ sp, Z.has a)
    (hr : Z.has root) : Cost Z K 1 (pushUp s child sp root : HM α _) K fun r =>
      (∀ a ∈ r.1, Z.has a) ∧ r.1.length = sp.length ∧ Z.has r.2 := by
  unfold pushUp
  reading
  split
  · refine Cost.bind (dropEntry_cost _) (by omega) fun _ _ => ?_
    exact Cost.pure (Nat.le_refl _) ⟨hs, rfl, hr⟩
  · cases sp with
    | nil =>
      refine Cost.bind (Entry.pushChild_cost hr hc s) (by omega) fun q hq => ?_
      exact Cost.pure (Nat.le_refl _) ⟨hs, rfl, hq⟩
    | cons p rest =>
      refine Cost.bind (Entry.pushChild_cost (hs p (by simp)) hc s) (by omega) fun q hq => ?_
      exact Cost.pure (Nat.le_refl _) ⟨has_cons hq fun a ha => hs a (by simp [ha]), rfl, hr⟩

theorem stealLoop_cost : ∀ (fuel : Nat) {l r : Addr}, Z.has l → Z.has r →
    Cost Z K (4 * fuel) (stealLoop fuel l r : HM α _) K fun q => Z.has q.1 ∧ Z.has q.2
  | 0, l, r, hl, hr => by
    unfold stealLoop
    reading
    reading
    split
    · exact Cost.throw
    · exact Cost.pure (Nat.le_refl _) ⟨hl, hr⟩
  | fuel + 1, l, r, hl, hr => by
    unfold stealLoop
    reading
    reading
    split
    · refine Cost.bind (Entry.popChild_cost hr _) (by omega) fun p hp => ?_
      reading
      refine Cost.bind (Entry.share_cost hp.1 hl _ _) (by omega) fun q hq => ?_
      reading
      split
      · refine Cost.bind (Entry.pushChild_cost hp.2 hq.1 _) (by omega) fun r' hr' => ?_
        exact (stealLoop_cost fuel hq.2 hr').le (by omega)
      · refine Cost.bind (dropEntry_cost _) (by omega) fun _ _ => ?_
        exact (stealLoop_cost fuel hq.2 hp.2).le (by omega)
    · exact Cost.pure (Nat.le_refl _) ⟨hl, hr⟩

theorem joinLevel_cost {l r : Addr} (hl : Z.has l) (hr : Z.has r) :
    Cost Z K 780 (joinLevel l r : HM α _) K fun q => Z.has q.1 ∧ Z.has q.2 := by
  unfold joinLevel
  refine Cost.bind (loadMut_cost hl) (by omega) fun l hl => ?_
  refine Cost.bind (loadMut_cost hr) (by omega) fun r hr => ?_
  refine Cost.bind (Entry.packChildren_cost hl) (by omega) fun l hl => ?_
  refine Cost.bind (Entry.popChild_cost hl _) (by omega) fun p hp => ?_
  refine Cost.bind (Entry.slots_cost hr) (by omega) fun n hn => ?_
  refine Cost.bind ((stealLoop_cost (n + 1) hp.1 hr).le (N' := 260) (by omega)) (by omega) fun q hq => ?_
  refine Cost.bind (Entry.pushChild_cost hp.2 hq.1 _) (by omega) fun l hl => ?_
  refine Cost.bind (Entry.packChildren_cost hq.2) (by omega) fun r hr => ?_
  reading
  refine Cost.bind (Entry.share_cost hr hl _ _) (by omega) fun t ht => ?_
  exact Cost.pure (Nat.le_refl _) ⟨ht.2, ht.1⟩

theorem appendLoop_cost : ∀ (n : Nat) {ls ol : List Addr} {root oroot : Addr}, (∀ a ∈ ls, Z.has a) → (∀ a ∈ ol, Z.has a) →
    Z.has root → Z.has oroot → Cost Z K (782 * n) (appendLoop n ls ol root oroot : HM α _) K fun q => Z.has q.1 ∧ Z.has q.2
  | 0, [], ol, root, oroot, _, _, hr, ho => by
    unfold appendLoop
    exact Cost.lift fun _ _ => Cost.pure (Nat.le_refl _) ⟨hr, ho⟩
  | n + 1, [], ol, root, oroot, _, _, hr, ho => by
    unfold appendLoop
    exact Cost.lift fun _ _ => Cost.pure (Nat.le_refl _) ⟨hr, ho⟩
  | 0, _ :: _, _, _, _, _, _, _, _ => Cost.throw
  | n + 1, l :: ls, ol, root, oroot, hl, hol, hr, ho => by
    unfold appendLoop
    refine Cost.lift fun q eq => ?_
    have hq : Z.has q := hol _ (List.mem_of_mem_head? (unwrap_inv eq))
    refine Cost.bind (joinLevel_cost (hl l (by simp)) hq) (by omega) fun j hj => ?_
    refine Cost.bind (pushUp_cost _ hj.1 (fun a ha => hl a (by simp [ha])) hr) (by omega) fun r hr => ?_
    refine Cost.bind (pushUp_cost _ hj.2 (fun a ha => hol a (List.mem_of_mem_tail ha)) ho) (by omega) fun s hs => ?_
    exact (appendLoop_cost n hr.1 hs.1 hr.2.2 hs.2.2).le (by omega)

theorem firstUp_cost (s : Side) {sp : List Addr} {root : Addr} (hs : ∀ a ∈ sp, Z.has a) (hr : Z.has root) :
    Cost Z K 2 (firstUp s sp root : HM α _) K fun r => (∀ a ∈ r.1, Z.has a) ∧ r.1.length ≤ sp.length ∧ Z.has r.2 := by
  match sp, hs with
  | [], hs => exact Cost.pure (Nat.le_refl _) ⟨hs, Nat.le_refl _, hr⟩
  | [c], hs =>
    refine Cost.bind (loadMut_cost hr) (by omega) fun q hq => ?_
    exact (pushUp_cost s (hs c (by simp)) (by simp) hq).mono (by omega) (Nat.le_refl _) fun t ht =>
      ⟨ht.1, by rw [ht.2.1]; simp, ht.2.2⟩
  | c :: p :: rest, hs =>
    refine Cost.bind (loadMut_cost (hs p (by simp))) (by omega) fun q hq => ?_
    refine (pushUp_cost s (sp := q :: rest) (hs c (by simp)) (has_cons hq fun a ha => hs a (by simp [ha])) hr).mono (by omega)
      (Nat.le_refl _) fun t ht => ⟨ht.1, by rw [ht.2.1]; simp, ht.2.2⟩

theorem massert_inv {b : Bool} {u : Unit} (e : massert b = .ok u) : b = true := by
  unfold massert at e
  split at e
  next h => exact h
  · cases e

theorem appendMain_cost {v w : HVec} (hv : VecOk Z L v) (hw : VecOk Z L w) :
    Cost Z K (794 * L + 13) (appendMain v w : HM α _) (K + 2 * L + 1) (VecOk Z (2 * L + 1)) := by
  unfold appendMain
  have h1 := hv.leftLen
  have h2 := hv.rightLen
  have h3 := hw.leftLen
  have h4 := hw.rightLen
  refine Cost.lift fun len _ => ?_
  refine Cost.bind ((raiseSelf_cost _ w.left.length K hv.left hv.right hv.root).mono (N' := 4 * L) (K'' := K + L) (by omega) (by omega)
    fun _ h => h) (by omega) fun v' ⟨a1, a2, a3, a4, a5⟩ => ?_
  refine Cost.bind ((raiseOther_cost _ v'.right.length (K + L) hw.left hw.right hw.root).mono (N' := 4 * L) (K'' := K + 2 * L)
    (by omega) (by omega) fun _ h => h) (by omega) fun w' ⟨b1, b2, b3, b4⟩ => ?_
  refine Cost.lift fun _ c1 => ?_
  refine Cost.lift fun _ c2 => ?_
  have c1 := massert_inv c1
  have c2 := massert_inv c2
  simp only [beq_iff_eq] at c1 c2
  refine Cost.bind (firstUp_cost _ a2 a3) (by omega) fun r hr => ?_
  refine Cost.bind (firstUp_cost _ b1 b3) (by omega) fun s hs => ?_
  refine Cost.bind ((appendLoop_cost r.1.length hr.1 hs.1 hr.2.2 hs.2.2).le (N' := 782 * L) (by omega)) (by omega) fun q hq => ?_
  refine Cost.bind (Entry.share_cost hq.2 hq.1 _ _) (by omega) fun t ht => ?_
  reading
  refine Cost.bind (N1 := 2) (K1 := K + 2 * L) (Q := fun p => Z.has p.1 ∧ Z.has p.2) ?_ (by omega) fun p hp => ?_
  · split
    · refine Cost.bind (Entry.share_cost ht.2 ht.1 _ _) (by omega) fun u hu => ?_
      exact Cost.pure (Nat.le_refl _) hu
    · exact Cost.pure (Nat.le_refl _) ⟨ht.2, ht.1⟩
  · reading
    split
    · refine Cost.bind (Entry.level_cost hp.1) (by omega) fun l hl => ?_
      refine Cost.bind (Entry.emptyInternal_cost (K' := K + 2 * L + 1) (by omega) (by omega)) (by omega) fun n hn => ?_
      refine (fixupSpineTops_cost (L := 2 * L + 1) ⟨has_append a1 (has_one hp.1), has_append b2 (has_one hp.2), hn, ?_, ?_⟩).le
        (by omega)
      · simp only [List.length_append, List.length_singleton]; omega
      · simp only [List.length_append, List.length_singleton]; omega
    · refine Cost.bind (fixupSpineTops_cost (L := 2 * L) ⟨a1, b2, hp.1, by dsimp only; omega, by dsimp only; omega⟩) (by omega)
        fun x hx => ?_
      refine Cost.bind (dropEntry_cost _) (by omega) fun _ _ => ?_
      exact Cost.pure (by omega) (hx.mono (by omega))

theorem append_cost {v w : HVec} (hv : VecOk Z L v) (hw : VecOk Z L w) :
    Cost Z K (794 * L + 13) (append v w : HM α _) (K + 2 * L + 1) (VecOk Z (2 * L + 1)) := by
  unfold append
  split
  · refine Cost.bind (drop_cost v) (by omega) fun _ _ => ?_
    exact Cost.pure (by omega) (hw.mono (by omega))
  · split
    · refine Cost.bind (drop_cost w) (by omega) fun _ _ => ?_
      exact Cost.pure (by omega) (hv.mono (by omega))
    · split
      · refine Cost.bind (popSide_cost hv _) (by omega) fun r hr => ?_
        refine Cost.lift fun x _ => ?_
        refine Cost.bind (pushSide_cost hw _ x) (by omega) fun q hq => ?_
        refine Cost.bind (drop_cost _) (by omega) fun _ _ => ?_
        exact Cost.pure (by omega) (hq.mono (by omega))
      · split
        · refine Cost.bind (popSide_cost hw _) (by omega) fun r hr => ?_
          refine Cost.lift fun x _ => ?_
          refine Cost.bind (pushSide_cost hv _ x) (by omega) fun q hq => ?_
          refine Cost.bind (drop_cost _) (by omega) fun _ _ => ?_
          exact Cost.pure (by omega) (hq.mono (by omega))
        · exact appendMain_cost hv hw

/-! ### split_off -/

theorem dropEmpty_cost : ∀ {sp : List Addr}, (∀ a ∈ sp, Z.has a) →
    Cost Z K 0 (dropEmpty sp : HM α _) K fun r => (∀ a ∈ r, Z.has a) ∧ r.length ≤ sp.length
  | [], hs => Cost.pure (Nat.le_refl _) ⟨hs, Nat.le_refl _⟩
  | x :: xs, hs => by
    unfold dropEmpty
    reading
    split
    · refine Cost.bind (dropEntry_cost _) (by omega) fun _ _ => ?_
      exact (dropEmpty_cost fun a ha => hs a (by simp [ha])).mono (by omega) (Nat.le_refl _) fun r hr =>
        ⟨hr.1, by have := hr.2; simp; omega⟩
    · exact Cost.pure (Nat.le_refl _) ⟨hs, Nat.le_refl _⟩

theorem popTops_cost : ∀ (fuel : Nat) {v : HVec}, VecOk Z L v → Cost Z K 0 (popTops fuel v : HM α _) K (VecOk Z L)
  | 0, v, hv => by
    unfold popTops
    reading
    split
    · exact Cost.throw
    · exact Cost.pure (Nat.le_refl _) hv
  | fuel + 1, v, hv => by
    unfold popTops
    have h1 := hv.leftLen
    have h2 := hv.rightLen
    reading
    split
    · split
      · refine Cost.lift fun n en => ?_
        refine Cost.bind (dropEntry_cost _) (by omega) fun _ _ => ?_
        exact popTops_cost fuel ⟨hv.left, has_last hv.right, hv.right _ (List.mem_of_getLast? (unwrap_inv en)), h1,
          by dsimp only; rw [List.length_dropLast]; omega⟩
      · refine Cost.lift fun n en => ?_
        refine Cost.bind (dropEntry_cost _) (by omega) fun _ _ => ?_
        exact popTops_cost fuel ⟨has_last hv.left, hv.right, hv.left _ (List.mem_of_getLast? (unwrap_inv en)),
          by dsimp only; rw [List.length_dropLast]; omega, h2⟩
    · exact Cost.pure (Nat.le_refl _) hv

theorem fillLoop_cost (s : Side) : ∀ (fuel : Nat) {sp : List Addr} {root : Addr}, (∀ a ∈ sp, Z.has a) → Z.has root →
    Cost Z K fuel (fillLoop s fuel sp root : HM α _) K fun r =>
      (∀ a ∈ r.2.1, Z.has a) ∧ r.2.1.length + 1 ≤ sp.length + fuel ∧ Z.has r.2.2
  | 0, _, _, _, _ => Cost.throw
  | fuel + 1, sp, root, hs, hr => by
    unfold fillLoop
    have hh : Z.has (sp.head?.getD root) := by
      cases sp with
      | nil => exact hr
      | cons a as => exact hs a (by simp)
    reading
    split
    · exact Cost.pure (Nat.le_refl _) ⟨hs, by dsimp only; omega, hr⟩
    · refine Cost.bind (Entry.popChild_cost hh s) (by omega) fun r hr' => ?_
      cases sp with
      | nil =>
        exact (fillLoop_cost s fuel (has_one hr'.1) hr'.2).mono (by omega) (Nat.le_refl _) fun q hq =>
          ⟨hq.1, by have := hq.2.1; simp at this ⊢; omega, hq.2.2⟩
      | cons a rest =>
        exact (fillLoop_cost s fuel (has_cons hr'.1 (has_cons hr'.2 fun a ha => hs a (by simp [ha]))) hr).mono (by omega) (Nat.le_refl _)
          fun q hq => ⟨hq.1, by have := hq.2.1; simp at this ⊢; omega, hq.2.2⟩

theorem fillSpine_cost {v : HVec} (hv : VecOk Z L v) (s : Side) :
    Cost Z K (K + 1) (fillSpine v s : HM α _) K fun r => VecOk Z (L + K) r.2 := by
  unfold fillSpine
  have hs := hv.spine s
  refine Cost.bind (Entry.level_cost (hv.leafNode s)) (by omega) fun l hl => ?_
  refine Cost.bind ((fillLoop_cost s (l + 1) hs.1 hv.root).le (N' := K + 1) (by omega)) (by omega) fun r hr => ?_
  exact Cost.pure (Nat.le_refl _) (((hv.mono (Nat.le_add_right L K)).withRoot hr.2.2).withSpine s hr.1 (by omega))

theorem repair_cost {v : HVec} (hv : VecOk Z L v) (s : Side) :
    Cost Z K (7 * L + 8 * K + 7) (repair v s : HM α _) K (VecOk Z (L + K)) := by
  unfold repair
  have hs := hv.spine s
  refine Cost.bind (dropEmpty_cost hs.1) (by omega) fun sp hsp => ?_
  dsimp only
  refine Cost.bind (popTops_cost _ (hv.withSpine s hsp.1 (by omega))) (by omega) fun w hw => ?_
  refine Cost.bind (fillSpine_cost hw s) (by omega) fun r hr => ?_
  refine Cost.bind (N1 := 5 * (L + K) + 4) (K1 := K) (Q := VecOk Z (L + K)) ?_ (by omega) fun x hx => ?_
  · split
    · refine Cost.bind (fixupSpineTops_cost hr) (by omega) fun y hy => ?_
      exact (emptyLeaf_cost hy s).le (by omega)
    · exact Cost.pure (Nat.le_refl _) hr
  · exact (fixupSpineTops_cost hx).le (by omega)

theorem cut_cost {v : HVec} (hv : VecOk Z L v) (p : Option (Side × Nat)) (sub at' : Nat) :
    Cost Z K (2 * K + 3) (cut v p sub at' : HM α _) K fun r => VecOk Z L r.1 ∧ VecOk Z L r.2 := by
  unfold cut
  have h1 := hv.leftLen
  have h2 := hv.rightLen
  refine Cost.lift fun rest _ => ?_
  refine Cost.bind (alloc_cost .emptyLeaf) (by omega) fun fresh hf => ?_
  split
  next p =>
    refine Cost.lift fun n en => ?_
    have en := unwrap_inv en
    have hp := (List.getElem?_eq_some_iff.1 en).1
    refine Cost.bind (Entry.splitAtPosition_cost (hv.left _ (List.mem_of_getElem? en)) sub) (by omega) fun r hr => ?_
    refine Cost.bind (dropEntry_cost _) (by omega) fun _ _ => ?_
    refine Cost.pure (Nat.le_refl _) ⟨⟨fun a ha => hv.left a (List.mem_of_mem_take ha), by simp, hr.1, ?_, by simp⟩,
      ⟨has_cons hr.2 fun a ha => hv.left a (List.mem_of_mem_drop ha), hv.right, hv.root, ?_, h2⟩⟩
    · simp only [List.length_take]; omega
    · simp only [List.length_cons, List.length_drop]; omega
  · refine Cost.bind (Entry.splitAtPosition_cost hv.root sub) (by omega) fun r hr => ?_
    refine Cost.bind (dropEntry_cost _) (by omega) fun _ _ => ?_
    exact Cost.pure (Nat.le_refl _) ⟨⟨hv.left, by simp, hr.1, h1, by simp⟩, ⟨by simp, hv.right, hr.2, by simp, h2⟩⟩
  next p =>
    refine Cost.lift fun n en => ?_
    have en := unwrap_inv en
    have hp := (List.getElem?_eq_some_iff.1 en).1
    refine Cost.bind (Entry.splitAtPosition_cost (hv.right _ (List.mem_of_getElem? en)) sub) (by omega) fun r hr => ?_
    refine Cost.pure (Nat.le_refl _) ⟨⟨hv.left, has_cons hr.1 fun a ha => hv.right a (List.mem_of_mem_drop ha), hv.root, h1, ?_⟩,
      ⟨by simp, has_append (fun a ha => hv.right a (List.mem_of_mem_take ha)) (has_one hr.2), hf, by simp, ?_⟩⟩
    · simp only [List.length_cons, List.length_drop]; omega
    · simp only [List.length_append, List.length_take, List.length_singleton]; omega

theorem splitOff_cost {v : HVec} (hv : VecOk Z L v) (i : Nat) :
    Cost Z K (14 * L + 18 * K + 17) (splitOff v i : HM α _) K fun r => VecOk Z (L + K) r.1 ∧ VecOk Z (L + K) r.2 := by
  unfold splitOff
  have hv' := hv.mono (Nat.le_add_right L K)
  split
  · exact Cost.bind new_cost (by omega) fun e he => Cost.pure (Nat.le_refl _) ⟨he, hv'⟩
  · split
    · exact Cost.bind new_cost (by omega) fun e he => Cost.pure (Nat.le_refl _) ⟨hv', he⟩
    · reading
      refine Cost.lift fun p _ => ?_
      refine Cost.bind (cut_cost hv p.1 p.2 i) (by omega) fun c hc => ?_
      refine Cost.bind (repair_cost hc.1 _) (by omega) fun a ha => ?_
      refine Cost.bind (repair_cost hc.2 _) (by omega) fun b hb => ?_
      exact Cost.pure (Nat.le_refl _) ⟨ha, hb⟩

end HVec

/-! ### Mutable foci -/

/-- The array that is borrowed is in the zone. -/
def HNodeOk (Z : Zone) (K : Nat) : HNode → Prop
  | .leaf b => Z.has b.node
  | .internal b => Z.has b.children.node ∧ b.sizes.level ≤ K

theorem Body.view_ok {n : Body α Addr} {a : Addr} {x : HNode} (ha : Z.has a) (hn : BodyOk Z K n) (e : n.view a = .ok x) :
    HNodeOk Z K x := by
  have key : ∀ {κ : Type} {b : CB κ} {v : HBuf}, b.view a = .ok v → v.node = a := by
    intro κ b v e
    obtain ⟨_, _, e⟩ := bind_inv e
    cases e; rfl
  cases n with
  | leaf b =>
    obtain ⟨v, e1, e⟩ := bind_inv e
    cases e
    show Z.has v.node
    rw [key e1]; exact ha
  | internal s t c =>
    obtain ⟨v, e1, e⟩ := bind_inv e
    cases e
    refine ⟨?_, hn.1⟩
    show Z.has v.node
    rw [key e1]; exact ha

theorem Entry.borrowNode_cost {a : Addr} (ha : Z.has a) :
    Cost Z K 1 (Entry.borrowNode a : HM α _) K fun r => Z.has r.1 ∧ HNodeOk Z K r.2 := by
  unfold Entry.borrowNode
  refine Cost.bind (loadMut_cost ha) (by omega) fun a ha => ?_
  refine Cost.bind (load_cost ha) (by omega) fun n hn => ?_
  refine Cost.lift fun v e => ?_
  exact Cost.pure (Nat.le_refl _) ⟨ha, Body.view_ok ha hn e⟩

theorem putSlot_cost {p : Ptr} {k : Addr} (hp : Z.has p.node) (hk : Z.has k) :
    Cost Z K 0 (putSlot p k : HM α _) K fun _ => True := by
  refine ⟨fun h r h' t e => ?_⟩
  obtain ⟨b, h1, e1, e2⟩ := hm_bind_inv e
  obtain ⟨c, hc, rfl, rfl⟩ := poke_inv e1
  have hb : BodyOk Z K c.node := t.fits _ _ hp hc
  revert hb e2
  cases c.node with
  | leaf b => intro e2; cases e2
  | internal s tg c =>
    intro e2 hb
    obtain ⟨d, h2, e3, e4⟩ := hm_bind_inv e2
    cases ed : assignSlot c.data p.slot k with
    | error f => rw [ed] at e3; cases e3
    | ok d =>
      rw [ed] at e3
      cases e3
      cases e4
      refine ⟨t.put fun c' hc' _ => ?_, by rw [put_length]; omega, trivial⟩
      cases hc'
      have := hb.2.assign hk ed
      rw [RingOk.assignSlot_eq ed] at this
      exact ⟨hb.1, this⟩

theorem loadMutSlot_cost {p : Ptr} (hp : Z.has p.node) : Cost Z K 1 (loadMutSlot p : HM α _) K Z.has := by
  unfold loadMutSlot
  refine Cost.bind (load_cost hp) (by omega) fun n hn => ?_
  cases n with
  | leaf b => exact Cost.throw
  | internal s t c =>
    dsimp only
    refine Cost.lift fun k ek => ?_
    have hk := hn.2.mem _ (RingOk.readSlot_mem ek)
    refine Cost.read ⟨fun _ _ _ e => (isOne_inv e).1⟩ fun b => ?_
    refine Cost.ite (fun _ => Cost.pure (Nat.le_refl _) hk) fun _ => ?_
    refine Cost.bind (load_cost hk) (by omega) fun n hn => ?_
    refine Cost.bind (cloneEntries_cost _) (by omega) fun _ _ => ?_
    refine Cost.bind (alloc_cost hn) (by omega) fun b hb => ?_
    refine Cost.bind (putSlot_cost hp hb) (by omega) fun _ _ => ?_
    refine Cost.bind (dropEntry_cost k) (by omega) fun _ _ => ?_
    exact Cost.pure (Nat.le_refl _) hb

theorem borrowSlot_cost {p : Ptr} (hp : Z.has p.node) : Cost Z K 1 (borrowSlot p : HM α _) K (HNodeOk Z K) := by
  unfold borrowSlot
  refine Cost.bind (loadMutSlot_cost hp) (by omega) fun a ha => ?_
  refine Cost.bind (load_cost ha) (by omega) fun n hn => ?_
  refine ⟨fun h r h' t e => ?_⟩
  cases hv : n.view a with
  | error f => rw [hv] at e; cases e
  | ok v => rw [hv] at e; cases e; exact ⟨t, by omega, Body.view_ok ha hn hv⟩

theorem readPtr_still (p : Ptr) : Still (readPtr p : HM α _) := by
  refine ⟨fun h r h' e => ?_⟩
  obtain ⟨n, h1, e1, e2⟩ := hm_bind_inv e
  cases (load_still _).run _ _ _ e1
  cases n with
  | leaf b => exact (Still.lift _).run _ _ _ e2
  | internal s t c => cases e2
macro_rules | `(tactic| still_step) => `(tactic| with_reducible exact readPtr_still _)

theorem writePtr_cost {p : Ptr} (x : α) (hp : Z.has p.node) : Cost Z K 0 (writePtr x p) K fun _ => True := by
  refine ⟨fun h r h' t e => ?_⟩
  obtain ⟨b, h1, e1, e2⟩ := hm_bind_inv e
  obtain ⟨c, hc, rfl, rfl⟩ := poke_inv e1
  have hb : BodyOk Z K c.node := t.fits _ _ hp hc
  revert hb e2
  cases c.node with
  | internal s tg c => intro e2; cases e2
  | leaf b =>
    intro e2 hb
    obtain ⟨d, h2, e3, e4⟩ := hm_bind_inv e2
    cases ed : assignSlot b.data p.slot x with
    | error f => rw [ed] at e3; cases e3
    | ok d =>
      rw [ed] at e3
      cases e3
      cases e4
      refine ⟨t.put fun c' hc' _ => ?_, by rw [put_length]; omega, trivial⟩
      cases hc'
      have := RingOk.assign hb trivial ed
      rw [RingOk.assignSlot_eq ed] at this
      exact this

theorem HBuf.getPtr_node {b : HBuf} {i : Nat} {p : Ptr} (e : b.getPtr i = .ok (some p)) : p.node = b.node := by
  obtain ⟨j, _, e⟩ := bind_inv e
  split at e <;> cases e
  rfl

namespace HInternal

theorem childAtSlot_node {b : HInternal} {i : Nat} {r : Ptr × Nat × Nat} (e : b.childAtSlot i = .ok (some r)) :
    r.1.node = b.children.node := by
  obtain ⟨j, _, e⟩ := bind_inv e
  obtain ⟨o, _, e⟩ := bind_inv e
  split at e
  · obtain ⟨l, _, e⟩ := bind_inv e
    obtain ⟨l, _, e⟩ := bind_inv e
    obtain ⟨l, _, e⟩ := bind_inv e
    obtain ⟨k, ek, e⟩ := bind_inv e
    split at e <;> cases e
    exact HBuf.getPtr_node ek
  · cases e

theorem childForPosition_node {b : HInternal} {i : Nat} {r : Ptr × Nat × Nat} (e : b.childForPosition i = .ok (some r)) :
    r.1.node = b.children.node := by
  obtain ⟨o, _, e⟩ := bind_inv e
  split at e
  · exact childAtSlot_node e
  · cases e

theorem childAtSide_node {b : HInternal} {s : Side} {r : Ptr × Nat × Nat} (e : b.childAtSide s = .ok (some r)) :
    r.1.node = b.children.node := by
  cases s <;> exact childAtSlot_node e

theorem popChild_cost {b : HInternal} (hb : Z.has b.children.node ∧ b.sizes.level ≤ K) (s : Side) :
    Cost Z K 1 (popChild b s : HM α _) K fun r => ∀ q, r = some q → HNodeOk Z K q.1 ∧ HNodeOk Z K (.internal q.2) := by
  unfold popChild
  refine Cost.lift fun o eo => ?_
  split
  next k x =>
    have hk := childAtSide_node eo
    refine Cost.bind (borrowSlot_cost (p := k) (by dsimp only at hk; rw [hk]; exact hb.1)) (by omega) fun c hc => ?_
    cases s with
    | front =>
      refine Cost.pure (Nat.le_refl _) fun q hq => ?_
      cases hq
      exact ⟨hc, hb⟩
    | back =>
      refine Cost.lift fun e _ => ?_
      refine Cost.pure (Nat.le_refl _) fun q hq => ?_
      cases hq
      exact ⟨hc, hb⟩
  · exact Cost.pure (Nat.le_refl _) fun q hq => by cases hq

theorem splitAtPosition_node {b : HInternal} {i : Nat} {r : Nat × HInternal × HInternal} (e : b.splitAtPosition i = .ok r) :
    r.2.1.children.node = b.children.node ∧ r.2.2.children.node = b.children.node ∧ r.2.1.sizes = b.sizes ∧ r.2.2.sizes = b.sizes := by
  obtain ⟨o, _, e⟩ := bind_inv e
  obtain ⟨p, _, e⟩ := bind_inv e
  obtain ⟨q, eq, e⟩ := bind_inv e
  cases e
  obtain ⟨t, et, e⟩ := bind_inv eq
  cases e
  obtain ⟨f, _, e⟩ := bind_inv et
  obtain ⟨_, _, e⟩ := bind_inv e
  cases e
  exact ⟨rfl, rfl, rfl, rfl⟩

end HInternal

/-- What a mutable focus borrows is in the zone. -/
structure FocusOk (Z : Zone) (K : Nat) (f : HFMut) : Prop where
  nodes : ∀ n ∈ f.nodes, HNodeOk Z K n
  path : ∀ p ∈ f.path, HNodeOk Z K (.internal p.1)
  leaf : ∀ b, f.leaf = some b → Z.has b.node

namespace HFMut

theorem focusOk_empty : FocusOk Z K empty := ⟨by simp [empty], by simp [empty], by simp [empty]⟩

theorem fromNodes_ok {ns : List HNode} {f : HFMut} (hn : ∀ n ∈ ns, HNodeOk Z K n) (e : fromNodes ns = .ok f) : FocusOk Z K f := by
  obtain ⟨n, _, e⟩ := bind_inv e
  cases e
  exact ⟨hn, by simp, by simp⟩

theorem splitLoop_cost : ∀ (fuel i : Nat) {l r : List HNode}, (∀ n ∈ l, HNodeOk Z K n) → (∀ n ∈ r, HNodeOk Z K n) →
    Cost Z K fuel (splitLoop fuel i l r : HM α _) K fun q => (∀ n ∈ q.1, HNodeOk Z K n) ∧ ∀ n ∈ q.2, HNodeOk Z K n
  | 0, _, _, _, _, _ => Cost.throw
  | fuel + 1, i, l, r, hl, hr => by
    unfold splitLoop
    split
    · exact Cost.pure (Nat.le_refl _) ⟨hl, hr⟩
    · cases r with
      | nil => exact Cost.throw
      | cons n right =>
        have hright : ∀ n ∈ right, HNodeOk Z K n := fun m hm => hr m (by simp [hm])
        have cons : ∀ {m : HNode} {ms : List HNode}, HNodeOk Z K m → (∀ n ∈ ms, HNodeOk Z K n) → ∀ n ∈ m :: ms, HNodeOk Z K n := by
          intro m ms hm hms n hn
          rcases List.mem_cons.1 hn with rfl | h
          · exact hm
          · exact hms n h
        cases n with
        | internal b =>
          have hb : Z.has b.children.node ∧ b.sizes.level ≤ K := hr (.internal b) (by simp)
          dsimp only
          refine Cost.lift fun q eq => ?_
          obtain ⟨n1, n2, s1, s2⟩ := HInternal.splitAtPosition_node eq
          refine Cost.bind (HInternal.popChild_cost (b := q.2.2) ⟨by rw [n2]; exact hb.1, by rw [s2]; exact hb.2⟩ _) (by omega)
            fun o ho => ?_
          refine Cost.lift fun p ep => ?_
          obtain ⟨h1, h2⟩ := ho p (unwrap_inv ep)
          refine Cost.lift fun le _ => ?_
          refine Cost.lift fun re _ => ?_
          have hleft : HNodeOk Z K (.internal q.2.1) := ⟨by rw [n1]; exact hb.1, by rw [s1]; exact hb.2⟩
          refine (splitLoop_cost fuel _ ?_ ?_).le (by omega)
          · split
            · exact cons hleft hl
            · exact hl
          · refine cons h1 ?_
            split
            · exact cons h2 hright
            · exact hright
        | leaf b =>
          have hb : Z.has b.node := hr (.leaf b) (by simp)
          dsimp only
          refine Cost.lift fun q eq => ?_
          obtain ⟨f, _, e⟩ := bind_inv eq
          obtain ⟨_, _, e⟩ := bind_inv e
          cases e
          refine Cost.pure (Nat.le_refl _) ⟨?_, ?_⟩
          · dsimp only
            split
            · exact cons (m := .leaf _) hb hl
            · exact hl
          · dsimp only
            split
            · exact cons (m := .leaf _) hb hright
            · exact hright

theorem splitAt_cost {f : HFMut} (hf : FocusOk Z K f) (i : Nat) :
    Cost Z K (K + 2) (splitAt f i : HM α _) K fun r => FocusOk Z K r.1 ∧ FocusOk Z K r.2 := by
  unfold splitAt
  split
  · exact Cost.lift fun _ _ => Cost.lift fun _ _ => Cost.pure (Nat.le_refl _) ⟨focusOk_empty, hf⟩
  · split
    · exact Cost.lift fun _ _ => Cost.lift fun _ _ => Cost.pure (Nat.le_refl _) ⟨hf, focusOk_empty⟩
    · refine Cost.lift fun o _ => ?_
      refine Cost.lift fun p _ => ?_
      have h1 : ∀ n ∈ (f.nodes.take p.1).reverse, HNodeOk Z K n := fun n hn =>
        hf.nodes n (List.mem_of_mem_take (List.mem_reverse.1 hn))
      have h2 : ∀ n ∈ f.nodes.drop p.1, HNodeOk Z K n := fun n hn => hf.nodes n (List.mem_of_mem_drop hn)
      have hfuel : splitFuel (f.nodes.drop p.1) ≤ K + 2 := by
        unfold splitFuel
        split
        · omega
        next n rest e =>
          have : HNodeOk Z K n := h2 n (by rw [e]; simp)
          cases n with
          | leaf b => simp [HNode.level]
          | internal b => have := this.2; simp only [HNode.level, HInternal.level]; omega
      refine Cost.bind ((splitLoop_cost _ p.2 h1 h2).le hfuel) (by omega) fun r hr => ?_
      refine Cost.lift fun a ea => ?_
      refine Cost.lift fun b eb => ?_
      refine Cost.lift fun _ _ => ?_
      refine Cost.lift fun _ _ => ?_
      refine Cost.lift fun _ _ => ?_
      refine Cost.lift fun _ _ => ?_
      exact Cost.pure (Nat.le_refl _) ⟨fromNodes_ok (fun n hn => hr.1 n (List.mem_reverse.1 hn)) ea, fromNodes_ok hr.2 eb⟩

theorem descend_cost : ∀ (fuel : Nat) {f : HFMut} (i : Nat), FocusOk Z K f → Cost Z K fuel (descend fuel f i : HM α _) K (FocusOk Z K)
  | 0, _, _, _ => Cost.throw
  | fuel + 1, f, i, hf => by
    unfold descend
    split
    · exact Cost.throw
    next parent plo phi rest hp =>
      have hpar : HNodeOk Z K (.internal parent) := hf.path (parent, plo, phi) (by rw [hp]; simp)
      refine Cost.lift fun o eo => ?_
      refine Cost.lift fun r er => ?_
      cases unwrap_inv er
      have hn := HInternal.childForPosition_node eo
      refine Cost.lift fun _ _ => ?_
      refine Cost.lift fun lo _ => ?_
      refine Cost.lift fun hi _ => ?_
      refine Cost.bind (borrowSlot_cost (p := r.1) (by rw [hn]; exact hpar.1)) (by omega) fun c hc => ?_
      cases c with
      | internal b =>
        refine Cost.le (N := fuel) (descend_cost fuel _ ⟨hf.nodes, fun p hp => ?_, hf.leaf⟩) (by omega)
        rcases List.mem_cons.1 hp with rfl | hp
        · exact hc
        · exact hf.path p hp
      | leaf b =>
        refine Cost.pure (Nat.le_refl _) ⟨hf.nodes, hf.path, fun x hx => ?_⟩
        cases hx
        exact hc

theorem enter_cost {f : HFMut} (hf : FocusOk Z K f) (i s : Nat) : Cost Z K (K + 1) (enter f i s : HM α _) K (FocusOk Z K) := by
  unfold enter
  split
  · exact Cost.lift fun _ _ => (descend_cost 1 _ hf).le (by omega)
  next b lo hi rest hp =>
    have : HNodeOk Z K (.internal b) := hf.path (b, lo, hi) (by rw [hp]; simp)
    have := this.2
    exact Cost.lift fun _ _ => (descend_cost _ _ hf).le (by simp only [HInternal.level]; omega)

theorem moveFrom_cost {f : HFMut} (hf : FocusOk Z K f) (i : Nat) (root : Nat × Nat × Nat) :
    Cost Z K (K + 2) (moveFrom f i root : HM α _) K (FocusOk Z K) := by
  unfold moveFrom
  dsimp only
  have hp : ∀ p ∈ f.path.dropWhile fun p => !inRange p.2.1 p.2.2 i, HNodeOk Z K (.internal p.1) := fun p h =>
    hf.path p (List.dropWhile_sublist _ |>.subset h)
  split
  · refine Cost.lift fun n en => ?_
    have hn : HNodeOk Z K n := hf.nodes n (List.mem_of_getElem? (unwrap_inv en))
    cases n with
    | internal b =>
      dsimp only
      refine Cost.lift fun _ _ => ?_
      refine Cost.lift fun o eo => ?_
      refine Cost.lift fun r er => ?_
      cases unwrap_inv er
      have hnd := HInternal.childForPosition_node eo
      refine Cost.lift fun lo _ => ?_
      refine Cost.lift fun hi _ => ?_
      refine Cost.bind (borrowSlot_cost (p := r.1) (by rw [hnd]; exact hn.1)) (by omega) fun c hc => ?_
      cases c with
      | internal b =>
        refine Cost.le (N := K + 1) (enter_cost (f := { f with path := [(b, lo, hi)] }) ⟨hf.nodes, fun p hp => ?_, hf.leaf⟩ _ _) (by omega)
        rcases List.mem_singleton.1 hp with rfl
        exact hc
      | leaf b =>
        refine Cost.pure (Nat.le_refl _) ⟨hf.nodes, hp, fun x hx => ?_⟩
        cases hx
        exact hc
    | leaf b => exact Cost.pure (Nat.le_refl _) ⟨hf.nodes, hp, hf.leaf⟩
  · exact Cost.le (N := K + 1) (enter_cost (f := { f with path := f.path.dropWhile fun p => !inRange p.2.1 p.2.2 i })
      ⟨hf.nodes, hp, hf.leaf⟩ _ _) (by omega)

theorem focusOk_dropPathNodes {f : HFMut} (hf : FocusOk Z K f) : FocusOk Z K f.dropPathNodes := by
  unfold dropPathNodes
  split
  · exact ⟨hf.nodes, by simp, by simp⟩
  · exact ⟨hf.nodes, by simp, hf.leaf⟩

theorem moveFocus_cost {f : HFMut} (hf : FocusOk Z K f) (i : Nat) : Cost Z K (K + 2) (moveFocus f i : HM α _) K (FocusOk Z K) := by
  unfold moveFocus
  refine Cost.ite (fun _ => Cost.pure (Nat.le_refl _) hf) fun _ => ?_
  dsimp only
  generalize hg : (if f.leaf.isSome then { f with leaf := none, llo := 0, lhi := 0 } else f) = g
  have hgo : FocusOk Z K g := by
    rw [← hg]
    split
    · exact ⟨hf.nodes, hf.path, by simp⟩
    · exact hf
  have key : ∀ w : HFMut, FocusOk Z K w → Cost Z K (K + 2) (match w.root with
      | some root => w.moveFrom i root
      | none =>
        if i < w.len then do
          let p ← unwrap (← w.findNodeInfoForIndex i)
          let start ← usub i p.2
          let nd ← unwrap w.nodes[p.1]?
          let n ← nd.len
          let stop ← uadd start n
          { w with root := some (p.1, start, stop) }.moveFrom i (p.1, start, stop)
        else pure w : HM α HFMut) K (FocusOk Z K) := by
    intro w hwo
    split
    · exact moveFrom_cost hwo _ _
    · split
      · refine Cost.lift fun o _ => ?_
        refine Cost.lift fun p _ => ?_
        refine Cost.lift fun s _ => ?_
        refine Cost.lift fun n _ => ?_
        refine Cost.lift fun l _ => ?_
        refine Cost.lift fun e _ => ?_
        exact moveFrom_cost (f := { w with root := some (p.1, s, e) }) ⟨hwo.nodes, hwo.path, hwo.leaf⟩ _ _
      · exact Cost.pure (Nat.le_refl _) hwo
  refine key (match g.root with
      | some (_, lo, hi) => if !inRange lo hi i then g.dropPathNodes else g
      | none => g) ?_
  split
  · split
    · exact focusOk_dropPathNodes hgo
    · exact hgo
  · exact hgo

theorem get_cost {f : HFMut} (hf : FocusOk Z K f) (i : Nat) :
    Cost Z K (K + 2) (get f i : HM α _) K fun r => (∀ p, r.1 = some p → Z.has p.node) ∧ FocusOk Z K r.2 := by
  unfold get
  refine Cost.bind (moveFocus_cost hf i) (by omega) fun g hg => ?_
  split
  · refine Cost.lift fun pos _ => ?_
    split
    next leaf hl =>
      refine Cost.lift fun x ex => ?_
      refine Cost.pure (Nat.le_refl _) ⟨fun p hp => ?_, hg⟩
      cases hp
      rw [HBuf.getPtr_node ex]
      exact hg.leaf _ hl
    · refine Cost.lift fun root _ => ?_
      refine Cost.lift fun n en => ?_
      refine Cost.lift fun b eb => ?_
      refine Cost.lift fun x ex => ?_
      have hn : HNodeOk Z K n := hg.nodes n (List.mem_of_getElem? (unwrap_inv en))
      cases n with
      | internal b => cases eb
      | leaf b' =>
        cases eb
        refine Cost.pure (Nat.le_refl _) ⟨fun p hp => ?_, hg⟩
        cases hp
        rw [HBuf.getPtr_node ex]
        exact hn
  · exact Cost.pure (Nat.le_refl _) ⟨fun p hp => (by cases hp), hg⟩

end HFMut

namespace HVec

theorem borrowNodes_cost : ∀ {as : List Addr}, (∀ a ∈ as, Z.has a) → Cost Z K as.length (borrowNodes as : HM α _) K fun r =>
    (∀ a ∈ r.1, Z.has a) ∧ r.1.length = as.length ∧ ∀ n ∈ r.2, HNodeOk Z K n
  | [], _ => Cost.pure (Nat.le_refl _) ⟨by simp, rfl, by simp⟩
  | a :: as, ha => by
    unfold borrowNodes
    have ih := borrowNodes_cost (α := α) (as := as) fun b hb => ha b (by simp [hb])
    reading
    split
    · refine Cost.bind (Entry.borrowNode_cost (ha a (by simp))) (by simp) fun b hb => ?_
      refine Cost.bind ih (by simp) fun r hr => ?_
      refine Cost.pure (Nat.le_refl _) ⟨has_cons hb.1 hr.1, by simp [hr.2.1], fun n hn => ?_⟩
      rcases List.mem_cons.1 hn with rfl | hn
      · exact hb.2
      · exact hr.2.2 n hn
    · refine Cost.bind ih (by simp) fun r hr => ?_
      exact Cost.pure (Nat.le_refl _) ⟨has_cons (ha a (by simp)) hr.1, by simp [hr.2.1], hr.2.2⟩

theorem focusMut_cost {v : HVec} (hv : VecOk Z L v) :
    Cost Z K (2 * L + 1) (focusMut v : HM α _) K fun r => VecOk Z L r.1 ∧ FocusOk Z K r.2 := by
  unfold focusMut
  have h1 := hv.leftLen
  have h2 := hv.rightLen
  refine Cost.bind ((borrowNodes_cost hv.left).le h1) (by omega) fun l hl => ?_
  reading
  refine Cost.bind (N1 := 1) (K1 := K) (Q := fun m => Z.has m.1 ∧ ∀ n ∈ m.2, HNodeOk Z K n) ?_ (by omega) fun m hm => ?_
  · split
    · refine Cost.bind (Entry.borrowNode_cost hv.root) (by omega) fun b hb => ?_
      refine Cost.pure (Nat.le_refl _) ⟨hb.1, fun n hn => ?_⟩
      rcases List.mem_singleton.1 hn with rfl
      exact hb.2
    · exact Cost.pure (Nat.le_refl _) ⟨hv.root, by simp⟩
  · refine Cost.bind ((borrowNodes_cost (as := v.right.reverse) fun a ha => hv.right a (List.mem_reverse.1 ha)).le (N' := L)
      (by rw [List.length_reverse]; exact h2)) (by omega) fun r hr => ?_
    refine Cost.lift fun f ef => ?_
    refine Cost.pure (Nat.le_refl _) ⟨⟨hl.1, fun a ha => hr.1 a (List.mem_reverse.1 ha), hm.1, ?_, ?_⟩, HFMut.fromNodes_ok ?_ ef⟩
    · rw [hl.2.1]; exact h1
    · rw [List.length_reverse, hr.2.1, List.length_reverse]; exact h2
    · intro n hn
      rcases List.mem_append.1 hn with hn | hn
      · rcases List.mem_append.1 hn with hn | hn
        · exact hl.2.2 n hn
        · exact hm.2 n hn
      · exact hr.2.2 n hn

end HVec
end Librrb
