import Verif.Proof.StepsVec

/-! # How many steps a call takes in the heap: foci, iterators, and the calls of a program -/
namespace Librrb

open RingOk (bind_inv unwrap_inv)

variable {Z : Zone} {K L N K' : Nat}

/-! ### The shared focus -/

namespace Entry

theorem childRefForPosition_steps (a : Addr) (i : Nat) : Steps Z K 1 (childRefForPosition a i : HM α _) := by
  unfold childRefForPosition
  read1
  split
  · exact Steps.throw
  · refine Steps.lift fun p _ => ?_
    split
    · refine Steps.lift fun r _ => ?_
      split
      · exact Steps.lift fun o _ => Steps.lift fun c _ => Steps.pure
      · exact Steps.pure
    · exact Steps.pure

theorem childRefForPosition_cost {a : Addr} (ha : Z.has a) (i : Nat) :
    Cost Z K 0 (childRefForPosition a i : HM α _) K fun r => ∀ q, r = some q → Z.has q.1 := by
  unfold childRefForPosition
  refine Cost.bind (load_cost ha) (Nat.le_refl _) fun n hn => ?_
  cases n with
  | leaf b => exact Cost.throw
  | internal s t c =>
    dsimp only
    refine Cost.lift fun p _ => ?_
    split
    · refine Cost.lift fun r _ => ?_
      split
      · refine Cost.lift fun o eo => Cost.lift fun c ec => Cost.pure (Nat.le_refl _) fun q hq => ?_
        cases hq
        cases unwrap_inv ec
        exact hn.2.get eo
      · exact Cost.pure (Nat.le_refl _) fun q hq => by cases hq
    · exact Cost.pure (Nat.le_refl _) fun q hq => by cases hq

theorem leafGet_steps (a : Addr) (i : Nat) : Steps Z K 1 (leafGet a i : HM α _) := by
  unfold leafGet
  read1
  split
  · exact Steps.lift'
  · exact Steps.throw

end Entry

/-- What a shared focus has on its path is in the zone. -/
def HPathOk (Z : Zone) (p : List (Addr × Nat × Nat)) : Prop := ∀ x ∈ p, Z.has x.1

namespace HPFocus

theorem treePath_steps : ∀ (fuel : Nat) (p : List (Addr × Nat × Nat)) (i : Nat), HPathOk Z p →
    Steps Z K (2 * fuel) (treePath fuel p i : HM α _)
  | 0, _, _, _ => Steps.throw
  | _ + 1, [], _, _ => Steps.throw
  | fuel + 1, (a, lo, hi) :: rest, i, hp => by
    unfold treePath
    refine Steps.bind (Entry.childRefForPosition_steps a i) (Entry.childRefForPosition_cost (hp (a, lo, hi) (by simp)) i) (by omega)
      fun r hr => ?_
    split
    · exact Steps.throw
    next child clo chi =>
      refine Steps.lift fun len _ => ?_
      read1
      refine Steps.ite (fun _ => Steps.pure) fun _ => ?_
      refine Steps.lift fun j _ => ?_
      refine (treePath_steps fuel _ _ fun x hx => ?_).mono (by omega)
      rcases List.mem_cons.1 hx with rfl | hx
      · exact hr (child, clo, chi) rfl
      · exact hp x hx

theorem treePath_cost : ∀ (fuel : Nat) (p : List (Addr × Nat × Nat)) (i : Nat), HPathOk Z p →
    Cost Z K 0 (treePath fuel p i : HM α _) K fun f => HPathOk Z f.path
  | 0, _, _, _ => Cost.throw
  | _ + 1, [], _, _ => Cost.throw
  | fuel + 1, (a, lo, hi) :: rest, i, hp => by
    unfold treePath
    refine Cost.bind (Entry.childRefForPosition_cost (hp (a, lo, hi) (by simp)) i) (by omega) fun r hr => ?_
    split
    · exact Cost.throw
    next child clo chi =>
      refine Cost.lift fun len _ => ?_
      refine Cost.read (load_still _) fun n => ?_
      refine Cost.ite (fun _ => Cost.pure (Nat.le_refl _) hp) fun _ => ?_
      refine Cost.lift fun j _ => ?_
      refine treePath_cost fuel _ _ fun x hx => ?_
      rcases List.mem_cons.1 hx with rfl | hx
      · exact hr (child, clo, chi) rfl
      · exact hp x hx

theorem single {a : Addr} {n : Nat × Nat} (ha : Z.has a) : HPathOk Z [(a, n)] := fun x hx => by
  rcases List.mem_singleton.1 hx with rfl
  exact ha

theorem fromTree_steps {a : Addr} (ha : Z.has a) : Steps Z K (2 * K + 3) (fromTree a : HM α _) := by
  unfold fromTree
  refine Steps.bind (load_steps a) (load_cost ha) (by omega) fun nd hn => ?_
  have := hn.level
  refine Steps.lift fun n _ => ?_
  exact Steps.ite (fun _ => Steps.pure) fun _ => (treePath_steps _ _ _ (single ha)).mono (by omega)

theorem fromTree_cost {a : Addr} (ha : Z.has a) : Cost Z K 0 (fromTree a : HM α _) K fun f => HPathOk Z f.path := by
  unfold fromTree
  refine Cost.read (load_still _) fun nd => ?_
  refine Cost.lift fun n _ => ?_
  exact Cost.ite (fun _ => Cost.pure (Nat.le_refl _) fun x hx => by cases hx) fun _ => treePath_cost _ _ _ (single ha)

theorem popPath_ok {i : Nat} : ∀ {p q : List (Addr × Nat × Nat)}, popPath i p = .ok q → HPathOk Z p → HPathOk Z q
  | [], _, e, _ => by cases e
  | (a, lo, hi) :: rest, q, e, hp => by
    unfold popPath at e
    split at e
    · cases e; exact hp
    · exact popPath_ok e fun x hx => hp x (by simp [hx])

theorem enterPath_steps (i : Nat) {p : List (Addr × Nat × Nat)} (hp : HPathOk Z p) : Steps Z K (2 * K + 3) (enterPath i p : HM α _) := by
  match p, hp with
  | [], _ => exact Steps.throw
  | (a, s, hi) :: rest, hp =>
    unfold enterPath
    have ha : Z.has a := hp (a, s, hi) (by simp)
    refine Steps.lift fun j _ => ?_
    refine Steps.bind (Entry.level_steps a) (Entry.level_cost ha) (by omega) fun l hl => ?_
    exact (treePath_steps _ _ _ hp).mono (by omega)

theorem enterPath_cost (i : Nat) {p : List (Addr × Nat × Nat)} (hp : HPathOk Z p) :
    Cost Z K 0 (enterPath i p : HM α _) K fun f => HPathOk Z f.path := by
  match p, hp with
  | [], _ => exact Cost.throw
  | (a, s, hi) :: rest, hp =>
    unfold enterPath
    refine Cost.lift fun j _ => ?_
    refine Cost.read (Entry.level_still a) fun l => ?_
    exact treePath_cost _ _ _ hp

theorem moveFocus_steps {pf : HPFocus} (hp : HPathOk Z pf.path) (i : Nat) : Steps Z K (2 * K + 3) (moveFocus pf i : HM α _) := by
  unfold moveFocus
  refine Steps.ite (fun _ => ?_) fun _ => Steps.pure
  exact Steps.lift fun p e => enterPath_steps _ (popPath_ok e hp)

theorem moveFocus_cost {pf : HPFocus} (hp : HPathOk Z pf.path) (i : Nat) :
    Cost Z K 0 (moveFocus pf i : HM α _) K fun f => HPathOk Z f.path := by
  unfold moveFocus
  refine Cost.ite (fun _ => ?_) fun _ => Cost.pure (Nat.le_refl _) hp
  exact Cost.lift fun p e => enterPath_cost _ (popPath_ok e hp)

theorem get_steps {pf : HPFocus} (hp : HPathOk Z pf.path) (i : Nat) : Steps Z K (2 * K + 5) (get pf i : HM α _) := by
  unfold get
  split
  · exact ((Entry.leafGet_steps _ _).and_pure).mono (by omega)
  · read1
    refine Steps.ite (fun _ => Steps.pure) fun _ => ?_
    refine Steps.bind (moveFocus_steps hp i) (moveFocus_cost hp i) (by omega) fun f hf => ?_
    refine Steps.lift fun j _ => ?_
    exact ((Entry.leafGet_steps _ _).and_pure).mono (by omega)

theorem get_cost {pf : HPFocus} (hp : HPathOk Z pf.path) (i : Nat) :
    Cost Z K 0 (get pf i : HM α _) K fun r => HPathOk Z r.2.path := by
  unfold get
  split
  · exact Cost.read (Entry.leafGet_still _ _) fun x => Cost.pure (Nat.le_refl _) hp
  · refine Cost.read (Entry.len_still _) fun n => ?_
    refine Cost.ite (fun _ => Cost.pure (Nat.le_refl _) hp) fun _ => ?_
    refine Cost.bind (moveFocus_cost hp i) (by omega) fun f hf => ?_
    refine Cost.lift fun j _ => ?_
    exact Cost.read (Entry.leafGet_still _ _) fun x => Cost.pure (Nat.le_refl _) hf

end HPFocus

theorem spineIter_length {v : HVec} (hv : VecOk Z L v) : v.spineIter.length ≤ 2 * L + 1 := by
  have := hv.leftLen
  have := hv.rightLen
  simp only [VecOf.spineIter, List.length_append, List.length_map, List.length_zipIdx, List.length_reverse, List.length_cons,
    List.length_nil]
  omega

theorem spineIter_has {v : HVec} (hv : VecOk Z L v) : ∀ x ∈ v.spineIter, Z.has x.2 := by
  intro x hx
  simp only [VecOf.spineIter, List.mem_append, List.mem_map, List.mem_reverse, List.mem_singleton] at hx
  rcases hx with (⟨p, hp, rfl⟩ | rfl) | ⟨p, hp, rfl⟩
  · exact hv.left _ (List.fst_mem_of_mem_zipIdx hp)
  · exact hv.root
  · exact hv.right _ (List.fst_mem_of_mem_zipIdx hp)

/-- What a shared focus refers to is in the zone. -/
structure SharedOk (Z : Zone) (L : Nat) (f : HFocus) : Prop where
  tree : VecOk Z L f.tree
  path : HPathOk Z f.node.path

namespace HFocus

theorem pickLoop_steps (lo hi : Nat) : ∀ (l : List (Option (Side × Nat) × Addr)) (n : Nat) (p : Pick),
    Steps Z K l.length (pickLoop lo hi l n p : HM α _)
  | [], _, _ => Steps.pure
  | (pos, a) :: rest, n, p => by
    unfold pickLoop
    rw [List.length_cons]
    read1
    exact Steps.lift fun s _ => (pickLoop_steps lo hi rest _ _).mono (by omega)

theorem pickLoop_cost (lo hi : Nat) : ∀ (l : List (Option (Side × Nat) × Addr)) (n : Nat) (p : Pick), (∀ x ∈ l, Z.has x.2) →
    Z.has p.node → Cost Z K 0 (pickLoop lo hi l n p : HM α _) K fun r => Z.has r.node
  | [], _, _, _, hp => Cost.pure (Nat.le_refl _) hp
  | (pos, a) :: rest, n, p, hl, hp => by
    unfold pickLoop
    refine Cost.read (Entry.len_still _) fun n => ?_
    refine Cost.lift fun s _ => pickLoop_cost lo hi rest _ _ (fun x hx => hl x (by simp [hx])) ?_
    split
    · exact hl (pos, a) (by simp)
    · exact hp

theorem narrowedTree_steps {v : HVec} (hv : VecOk Z L v) (lo hi : Nat) :
    Steps Z K (2 * L + 2 * K + 4) (narrowedTree v lo hi : HM α _) := by
  unfold narrowedTree
  dsimp only
  refine Steps.bind ((pickLoop_steps _ _ _ _ _).mono (spineIter_length hv)) (pickLoop_cost _ _ _ _ _ (spineIter_has hv) hv.root)
    (by omega) fun p hp => ?_
  exact ((HPFocus.fromTree_steps hp).and_pure).mono (by omega)

theorem narrowedTree_cost {v : HVec} (hv : VecOk Z L v) (lo hi : Nat) :
    Cost Z K 0 (narrowedTree v lo hi : HM α _) K (SharedOk Z L) := by
  unfold narrowedTree
  dsimp only
  refine Cost.bind (pickLoop_cost _ _ _ _ _ (spineIter_has hv) hv.root) (by omega) fun p hp => ?_
  refine Cost.bind (HPFocus.fromTree_cost hp) (by omega) fun f hf => ?_
  exact Cost.pure (Nat.le_refl _) ⟨hv, hf⟩

theorem new_steps {v : HVec} (hv : VecOk Z L v) : Steps Z K (2 * L + 2 * K + 4) (new v : HM α _) := narrowedTree_steps hv _ _

theorem new_cost {v : HVec} (hv : VecOk Z L v) : Cost Z K 0 (new v : HM α _) K (SharedOk Z L) := narrowedTree_cost hv _ _

theorem enter_steps (f : HFocus) (pos : Option (Side × Nat)) {a : Addr} (ha : Z.has a) (lo hi i : Nat) :
    Steps Z K (4 * K + 6) (enter f pos a lo hi i : HM α _) := by
  unfold enter
  refine Steps.bind (HPFocus.fromTree_steps ha) (HPFocus.fromTree_cost ha) (by omega) fun p hp => ?_
  refine Steps.lift fun j _ => ?_
  exact ((HPFocus.moveFocus_steps hp _).and_pure).mono (by omega)

theorem enter_cost {f : HFocus} (hf : SharedOk Z L f) (pos : Option (Side × Nat)) {a : Addr} (ha : Z.has a) (lo hi i : Nat) :
    Cost Z K 0 (enter f pos a lo hi i : HM α _) K (SharedOk Z L) := by
  unfold enter
  refine Cost.bind (HPFocus.fromTree_cost ha) (by omega) fun p hp => ?_
  refine Cost.lift fun j _ => ?_
  refine Cost.bind (HPFocus.moveFocus_cost hp _) (by omega) fun q hq => ?_
  exact Cost.pure (Nat.le_refl _) ⟨hf.tree, hq⟩

theorem refocusBack_steps (f : HFocus) (i : Nat) : ∀ (l : List (Option (Side × Nat) × Addr)) (n : Nat), (∀ x ∈ l, Z.has x.2) →
    Steps Z K (l.length + 4 * K + 6) (refocusBack f i l n : HM α _)
  | [], _, _ => Steps.pure
  | (pos, a) :: rest, n, hl => by
    unfold refocusBack
    rw [List.length_cons]
    read1
    refine Steps.lift fun s _ => ?_
    refine Steps.ite (fun _ => (enter_steps f pos (hl (pos, a) (by simp)) _ _ _).mono (by omega)) fun _ => ?_
    exact (refocusBack_steps f i rest _ fun x hx => hl x (by simp [hx])).mono (by omega)

theorem refocusBack_cost {f : HFocus} (hf : SharedOk Z L f) (i : Nat) : ∀ (l : List (Option (Side × Nat) × Addr)) (n : Nat),
    (∀ x ∈ l, Z.has x.2) → Cost Z K 0 (refocusBack f i l n : HM α _) K (SharedOk Z L)
  | [], _, _ => Cost.pure (Nat.le_refl _) hf
  | (pos, a) :: rest, n, hl => by
    unfold refocusBack
    refine Cost.read (Entry.len_still _) fun n => ?_
    refine Cost.lift fun s _ => ?_
    refine Cost.ite (fun _ => enter_cost hf pos (hl (pos, a) (by simp)) _ _ _) fun _ => ?_
    exact refocusBack_cost hf i rest _ fun x hx => hl x (by simp [hx])

theorem refocusFwd_steps (f : HFocus) (i : Nat) : ∀ (l : List (Option (Side × Nat) × Addr)) (n : Nat), (∀ x ∈ l, Z.has x.2) →
    Steps Z K (l.length + 4 * K + 6) (refocusFwd f i l n : HM α _)
  | [], _, _ => Steps.pure
  | (pos, a) :: rest, n, hl => by
    unfold refocusFwd
    rw [List.length_cons]
    read1
    refine Steps.lift fun s _ => ?_
    refine Steps.ite (fun _ => (enter_steps f pos (hl (pos, a) (by simp)) _ _ _).mono (by omega)) fun _ => ?_
    exact (refocusFwd_steps f i rest _ fun x hx => hl x (by simp [hx])).mono (by omega)

theorem refocusFwd_cost {f : HFocus} (hf : SharedOk Z L f) (i : Nat) : ∀ (l : List (Option (Side × Nat) × Addr)) (n : Nat),
    (∀ x ∈ l, Z.has x.2) → Cost Z K 0 (refocusFwd f i l n : HM α _) K (SharedOk Z L)
  | [], _, _ => Cost.pure (Nat.le_refl _) hf
  | (pos, a) :: rest, n, hl => by
    unfold refocusFwd
    refine Cost.read (Entry.len_still _) fun n => ?_
    refine Cost.lift fun s _ => ?_
    refine Cost.ite (fun _ => enter_cost hf pos (hl (pos, a) (by simp)) _ _ _) fun _ => ?_
    exact refocusFwd_cost hf i rest _ fun x hx => hl x (by simp [hx])

theorem refocus_steps {f : HFocus} (hf : SharedOk Z L f) (i : Nat) : Steps Z K (2 * L + 4 * K + 7) (refocus f i : HM α _) := by
  unfold refocus
  have h1 := spineIter_length hf.tree
  have h2 := spineIter_has hf.tree
  refine Steps.lift fun _ _ => ?_
  refine Steps.ite (fun _ => ?_) fun _ => ?_
  · refine Steps.lift fun s _ => ?_
    refine (refocusBack_steps f i _ _ fun x hx => h2 x (List.mem_reverse.1 (List.mem_of_mem_drop hx))).mono ?_
    rw [List.length_drop, List.length_reverse]; omega
  · refine Steps.lift fun s _ => ?_
    refine (refocusFwd_steps f i _ _ fun x hx => h2 x (List.mem_of_mem_drop hx)).mono ?_
    rw [List.length_drop]; omega

theorem refocus_cost {f : HFocus} (hf : SharedOk Z L f) (i : Nat) : Cost Z K 0 (refocus f i : HM α _) K (SharedOk Z L) := by
  unfold refocus
  have h2 := spineIter_has hf.tree
  refine Cost.lift fun _ _ => ?_
  refine Cost.ite (fun _ => ?_) fun _ => ?_
  · refine Cost.lift fun s _ => ?_
    exact refocusBack_cost hf i _ _ fun x hx => h2 x (List.mem_reverse.1 (List.mem_of_mem_drop hx))
  · refine Cost.lift fun s _ => ?_
    exact refocusFwd_cost hf i _ _ fun x hx => h2 x (List.mem_of_mem_drop hx)

theorem get_steps {f : HFocus} (hf : SharedOk Z L f) (i : Nat) : Steps Z K (2 * L + 6 * K + 12) (get f i : HM α _) := by
  unfold get
  refine Steps.lift fun j _ => ?_
  refine Steps.ite (fun _ => ?_) fun _ => Steps.pure
  refine Steps.bind (N1 := 2 * L + 4 * K + 7) (N0 := 0) (K1 := K) (Q := SharedOk Z L) ?_ ?_ (by omega) fun g hg => ?_
  · exact Steps.ite (fun _ => refocus_steps hf _) fun _ => Steps.pure
  · exact Cost.ite (fun _ => refocus_cost hf _) fun _ => Cost.pure (Nat.le_refl _) hf
  · exact Steps.lift fun k _ => ((HPFocus.get_steps hg.path _).and_pure).mono (by omega)

theorem get_cost {f : HFocus} (hf : SharedOk Z L f) (i : Nat) : Cost Z K 0 (get f i : HM α _) K fun r => SharedOk Z L r.2 := by
  unfold get
  refine Cost.lift fun j _ => ?_
  refine Cost.ite (fun _ => ?_) fun _ => Cost.pure (Nat.le_refl _) hf
  refine Cost.bind (N1 := 0) (K1 := K) (Q := SharedOk Z L) ?_ (by omega) fun g hg => ?_
  · exact Cost.ite (fun _ => refocus_cost hf _) fun _ => Cost.pure (Nat.le_refl _) hf
  · refine Cost.lift fun k _ => ?_
    exact Cost.bind (HPFocus.get_cost hg.path _) (by omega) fun r hr => Cost.pure (Nat.le_refl _) ⟨hg.tree, hr⟩

end HFocus

namespace HVIter

theorem new_steps {v : HVec} (hv : VecOk Z L v) : Steps Z K (2 * L + 2 * K + 4) (new v : HM α _) := (HFocus.new_steps hv).and_pure

theorem new_cost {v : HVec} (hv : VecOk Z L v) : Cost Z K 0 (new v : HM α _) K fun it => SharedOk Z L it.focus :=
  Cost.bind (HFocus.new_cost hv) (by omega) fun _ hf => Cost.pure (Nat.le_refl _) hf

theorem next_steps {it : HVIter} (hf : SharedOk Z L it.focus) : Steps Z K (2 * L + 6 * K + 12) (next it : HM α _) := by
  unfold next
  refine Steps.ite (fun _ => ?_) fun _ => Steps.pure
  refine Steps.bind (HFocus.get_steps hf _) (HFocus.get_cost hf _) (by omega) fun r _ => ?_
  exact Steps.lift fun x _ => Steps.pure

theorem next_cost {it : HVIter} (hf : SharedOk Z L it.focus) : Cost Z K 0 (next it : HM α _) K fun r => SharedOk Z L r.2.focus := by
  unfold next
  refine Cost.ite (fun _ => ?_) fun _ => Cost.pure (Nat.le_refl _) hf
  refine Cost.bind (HFocus.get_cost hf _) (by omega) fun r hr => ?_
  exact Cost.lift fun x _ => Cost.pure (Nat.le_refl _) hr

theorem nextBack_steps {it : HVIter} (hf : SharedOk Z L it.focus) : Steps Z K (2 * L + 6 * K + 12) (nextBack it : HM α _) := by
  unfold nextBack
  refine Steps.ite (fun _ => ?_) fun _ => Steps.pure
  exact Steps.lift fun k _ => (HFocus.get_steps hf _).and_pure

theorem nextBack_cost {it : HVIter} (hf : SharedOk Z L it.focus) :
    Cost Z K 0 (nextBack it : HM α _) K fun r => SharedOk Z L r.2.focus := by
  unfold nextBack
  refine Cost.ite (fun _ => ?_) fun _ => Cost.pure (Nat.le_refl _) hf
  refine Cost.lift fun k _ => ?_
  exact Cost.bind (HFocus.get_cost hf _) (by omega) fun r hr => Cost.pure (Nat.le_refl _) hr

theorem step_steps (s : Side) {it : HVIter} (hf : SharedOk Z L it.focus) : Steps Z K (2 * L + 6 * K + 12) (step s it : HM α _) := by
  cases s
  · exact next_steps hf
  · exact nextBack_steps hf

theorem step_cost (s : Side) {it : HVIter} (hf : SharedOk Z L it.focus) :
    Cost Z K 0 (step s it : HM α _) K fun r => SharedOk Z L r.2.focus := by
  cases s
  · exact next_cost hf
  · exact nextBack_cost hf

theorem run_steps : ∀ (l : List Side) {it : HVIter}, SharedOk Z L it.focus →
    Steps Z K (l.length * (2 * L + 6 * K + 12)) (run l it : HM α _)
  | [], _, _ => Steps.pure
  | s :: rest, it, hf => by
    unfold run
    have e : (s :: rest).length * (2 * L + 6 * K + 12) = rest.length * (2 * L + 6 * K + 12) + (2 * L + 6 * K + 12) := by
      rw [List.length_cons, Nat.succ_mul]
    rw [e]
    refine Steps.bind (step_steps s hf) (step_cost s hf) (by omega) fun r hr => ?_
    exact ((run_steps rest hr).and_pure).mono (by omega)

end HVIter

theorem HVec.iterCmp_steps (cmp : α → α → Ordering) : ∀ (fuel : Nat) {a b : HVIter}, SharedOk Z L a.focus → SharedOk Z L b.focus →
    Steps Z K (fuel * (2 * (2 * L + 6 * K + 12))) (HVec.iterCmp cmp fuel a b)
  | 0, _, _, _, _ => Steps.throw
  | fuel + 1, a, b, ha, hb => by
    unfold HVec.iterCmp
    rw [Nat.succ_mul]
    refine Steps.bind (HVIter.next_steps ha) (HVIter.next_cost ha) (by omega) fun x hx => ?_
    split
    · exact ((HVIter.next_steps hb).and_pure).mono (by omega)
    · refine Steps.bind (HVIter.next_steps hb) (HVIter.next_cost hb) (by omega) fun y hy => ?_
      split
      · exact Steps.pure
      · split
        · exact (HVec.iterCmp_steps cmp fuel hx hy).mono (by omega)
        · exact Steps.pure

theorem HVec.cmpVec_steps (cmp : α → α → Ordering) {v w : HVec} (hv : VecOk Z L v) (hw : VecOk Z L w) :
    Steps Z K ((v.len + 1) * (2 * (2 * L + 6 * K + 12)) + 2 * (2 * L + 2 * K + 4)) (HVec.cmpVec cmp v w) := by
  unfold HVec.cmpVec
  refine Steps.bind (HVIter.new_steps hv) (HVIter.new_cost hv) (by omega) fun a ha => ?_
  refine Steps.bind (HVIter.new_steps hw) (HVIter.new_cost hw) (by omega) fun b hb => ?_
  exact (HVec.iterCmp_steps cmp _ ha hb).mono (by omega)

/-! ### The mutable focus -/

theorem poke_then {a : Addr} {f : Body α Addr → Body α Addr} {k : Body α Addr → HM α γ} (hk : ∀ n, Steps Z K 0 (k n))
    (hn : ∀ n h h', (k n).steps h = (k n).steps h') : Steps Z K 1 (poke a f >>= k) := by
  refine ⟨fun h t => ?_⟩
  rw [HM.steps_bind]
  have h1 := (poke_steps (Z := Z) (K := K) a f).le h t
  cases poke a f h with
  | error f => simpa using h1
  | ok q =>
    obtain ⟨n, h'⟩ := q
    have h2 := (hk n).le h t
    dsimp only
    rw [hn n h' h]
    omega

theorem lift_steps (x : M γ) (h h' : Heap α) : (liftM x >>= fun _ => (pure () : HM α Unit)).steps h =
    (liftM x >>= fun _ => (pure () : HM α Unit)).steps h' := by
  cases x <;> rfl

theorem putSlot_steps (p : Ptr) (k : Addr) : Steps Z K 1 (putSlot p k : HM α _) := by
  refine poke_then (fun n => ?_) fun n h h' => ?_
  · cases n with
    | leaf b => exact Steps.throw
    | internal s t c => exact Steps.lift fun _ _ => Steps.pure
  · cases n with
    | leaf b => rfl
    | internal s t c => exact lift_steps _ _ _

theorem writePtr_steps (x : α) (p : Ptr) : Steps Z K 1 (writePtr x p) := by
  refine poke_then (fun n => ?_) fun n h h' => ?_
  · cases n with
    | internal s t c => exact Steps.throw
    | leaf b => exact Steps.lift fun _ _ => Steps.pure
  · cases n with
    | internal s t c => rfl
    | leaf b => exact lift_steps _ _ _

theorem readPtr_steps (p : Ptr) : Steps Z K 1 (readPtr p : HM α _) := by
  unfold readPtr
  read1
  split
  · exact Steps.lift'
  · exact Steps.throw

theorem loadMutSlot_steps {p : Ptr} (hp : Z.has p.node) : Steps Z K 70 (loadMutSlot p : HM α _) := by
  unfold loadMutSlot
  refine Steps.bind (load_steps _) (load_cost hp) (by omega) fun n hn => ?_
  cases n with
  | leaf b => exact Steps.throw
  | internal s t c =>
    dsimp only
    refine Steps.lift fun k ek => ?_
    have hk := hn.2.mem _ (RingOk.readSlot_mem ek)
    refine Steps.read (isOne_steps k) ⟨fun _ _ _ e => (isOne_inv e).1⟩ (by omega) fun b => ?_
    refine Steps.ite (fun _ => Steps.pure) fun _ => ?_
    refine Steps.bind (load_steps _) (load_cost hk) (by omega) fun n hn => ?_
    refine Steps.bind ((cloneEntries_steps _).mono hn.kids) (cloneEntries_cost _) (by omega) fun _ _ => ?_
    refine Steps.bind (alloc_steps n) (alloc_cost hn) (by omega) fun b hb => ?_
    refine Steps.bind (putSlot_steps p b) (putSlot_cost hp hb) (by omega) fun _ _ => ?_
    refine Steps.bind (dropEntry_steps k) (dropEntry_cost k) (by omega) fun _ _ => ?_
    exact Steps.pure

theorem borrowSlot_steps {p : Ptr} (hp : Z.has p.node) : Steps Z K 71 (borrowSlot p : HM α _) := by
  unfold borrowSlot
  refine Steps.bind (loadMutSlot_steps hp) (loadMutSlot_cost hp) (by omega) fun a _ => ?_
  read1
  exact Steps.lift'

theorem Entry.borrowNode_steps {a : Addr} (ha : Z.has a) : Steps Z K 69 (Entry.borrowNode a : HM α _) := by
  unfold Entry.borrowNode
  refine Steps.bind (loadMut_steps ha) (loadMut_cost ha) (by omega) fun b hb => ?_
  read1
  exact Steps.lift fun v _ => Steps.pure

theorem HInternal.popChild_steps {b : HInternal} (hb : Z.has b.children.node) (s : Side) :
    Steps Z K 71 (popChild b s : HM α _) := by
  unfold popChild
  refine Steps.lift fun o eo => ?_
  split
  next k x =>
    have hk := childAtSide_node eo
    have hz : Z.has k.node := by dsimp only at hk; rw [hk]; exact hb
    refine Steps.bind (borrowSlot_steps hz) (borrowSlot_cost hz) (by omega) fun c hc => ?_
    cases s with
    | front => exact Steps.pure
    | back => exact Steps.lift fun e _ => Steps.pure
  · exact Steps.pure

namespace HFMut

theorem splitLoop_steps : ∀ (fuel i : Nat) {l r : List HNode}, (∀ n ∈ r, HNodeOk Z K n) →
    Steps Z K (71 * fuel) (splitLoop fuel i l r : HM α _)
  | 0, _, _, _, _ => Steps.throw
  | fuel + 1, i, l, r, hr => by
    unfold splitLoop
    split
    · exact Steps.pure
    · cases r with
      | nil => exact Steps.throw
      | cons n right =>
        cases n with
        | internal b =>
          have hb : Z.has b.children.node ∧ b.sizes.level ≤ K := hr (.internal b) (by simp)
          dsimp only
          refine Steps.lift fun q eq => ?_
          obtain ⟨n1, n2, s1, s2⟩ := HInternal.splitAtPosition_node eq
          have hq : Z.has q.2.2.children.node ∧ q.2.2.sizes.level ≤ K := ⟨by rw [n2]; exact hb.1, by rw [s2]; exact hb.2⟩
          refine Steps.bind (HInternal.popChild_steps hq.1 _) (HInternal.popChild_cost hq _) (by omega) fun o ho => ?_
          refine Steps.lift fun p ep => ?_
          obtain ⟨h1, h2⟩ := ho p (unwrap_inv ep)
          refine Steps.lift fun le _ => ?_
          refine Steps.lift fun re _ => ?_
          refine (splitLoop_steps fuel _ fun m hm => ?_).mono (by omega)
          rcases List.mem_cons.1 hm with rfl | hm
          · exact h1
          · split at hm
            · rcases List.mem_cons.1 hm with rfl | hm
              · exact h2
              · exact hr m (by simp [hm])
            · exact hr m (by simp [hm])
        | leaf b =>
          dsimp only
          exact Steps.lift fun q eq => Steps.pure

theorem splitAt_steps {f : HFMut} (hf : FocusOk Z K f) (i : Nat) : Steps Z K (71 * K + 142) (splitAt f i : HM α _) := by
  unfold splitAt
  split
  · exact Steps.lift fun _ _ => Steps.lift fun _ _ => Steps.pure
  · split
    · exact Steps.lift fun _ _ => Steps.lift fun _ _ => Steps.pure
    · refine Steps.lift fun o _ => ?_
      refine Steps.lift fun p _ => ?_
      have h1 : ∀ n ∈ (f.nodes.take p.1).reverse, HNodeOk Z K n := fun n hn =>
        hf.nodes n (List.mem_of_mem_take (List.mem_reverse.1 hn))
      have h2 : ∀ n ∈ f.nodes.drop p.1, HNodeOk Z K n := fun n hn => hf.nodes n (List.mem_of_mem_drop hn)
      have hfuel : splitFuel (f.nodes.drop p.1) ≤ K + 2 := by
        unfold splitFuel
        split
        · omega
        next n rest e =>
          have : HNodeOk Z K n := h2 n (by rw [e]; simp)
          cases n with
          | leaf b => simp [HNode.level]
          | internal b => have := this.2; simp only [HNode.level, HInternal.level]; omega
      refine Steps.bind ((splitLoop_steps _ p.2 h2).mono (by omega)) (splitLoop_cost _ p.2 h1 h2) (Nat.le_refl _) fun r hr => ?_
      refine Steps.lift fun a ea => ?_
      refine Steps.lift fun b eb => ?_
      exact Steps.lift fun _ _ => Steps.lift fun _ _ => Steps.lift fun _ _ => Steps.lift fun _ _ => Steps.pure

theorem descend_steps : ∀ (fuel : Nat) {f : HFMut} (i : Nat), FocusOk Z K f → Steps Z K (71 * fuel) (descend fuel f i : HM α _)
  | 0, _, _, _ => Steps.throw
  | fuel + 1, f, i, hf => by
    unfold descend
    split
    · exact Steps.throw
    next parent plo phi rest hp =>
      have hpar : HNodeOk Z K (.internal parent) := hf.path (parent, plo, phi) (by rw [hp]; simp)
      refine Steps.lift fun o eo => ?_
      refine Steps.lift fun r er => ?_
      cases unwrap_inv er
      have hn := HInternal.childForPosition_node eo
      have hz : Z.has r.1.node := by rw [hn]; exact hpar.1
      refine Steps.lift fun _ _ => ?_
      refine Steps.lift fun lo _ => ?_
      refine Steps.lift fun hi _ => ?_
      refine Steps.bind (borrowSlot_steps hz) (borrowSlot_cost hz) (by omega) fun c hc => ?_
      cases c with
      | internal b =>
        refine Steps.mono (N := 71 * fuel) (descend_steps fuel _ ⟨hf.nodes, fun p hp => ?_, hf.leaf⟩) (by omega)
        rcases List.mem_cons.1 hp with rfl | hp
        · exact hc
        · exact hf.path p hp
      | leaf b => exact Steps.pure

theorem enter_steps {f : HFMut} (hf : FocusOk Z K f) (i s : Nat) : Steps Z K (71 * K + 71) (enter f i s : HM α _) := by
  unfold enter
  split
  · exact Steps.lift fun _ _ => (descend_steps 1 _ hf).mono (by omega)
  next b lo hi rest hp =>
    have : HNodeOk Z K (.internal b) := hf.path (b, lo, hi) (by rw [hp]; simp)
    have := this.2
    exact Steps.lift fun _ _ => (descend_steps _ _ hf).mono (by simp only [HInternal.level]; omega)

theorem moveFrom_steps {f : HFMut} (hf : FocusOk Z K f) (i : Nat) (root : Nat × Nat × Nat) :
    Steps Z K (71 * K + 142) (moveFrom f i root : HM α _) := by
  unfold moveFrom
  dsimp only
  have hp : ∀ p ∈ f.path.dropWhile fun p => !inRange p.2.1 p.2.2 i, HNodeOk Z K (.internal p.1) := fun p h =>
    hf.path p (List.dropWhile_sublist _ |>.subset h)
  split
  · refine Steps.lift fun n en => ?_
    have hn : HNodeOk Z K n := hf.nodes n (List.mem_of_getElem? (unwrap_inv en))
    cases n with
    | internal b =>
      dsimp only
      refine Steps.lift fun _ _ => ?_
      refine Steps.lift fun o eo => ?_
      refine Steps.lift fun r er => ?_
      cases unwrap_inv er
      have hnd := HInternal.childForPosition_node eo
      have hz : Z.has r.1.node := by rw [hnd]; exact hn.1
      refine Steps.lift fun lo _ => ?_
      refine Steps.lift fun hi _ => ?_
      refine Steps.bind (borrowSlot_steps hz) (borrowSlot_cost hz) (by omega) fun c hc => ?_
      cases c with
      | internal b =>
        refine Steps.mono (N := 71 * K + 71) (enter_steps (f := { f with path := [(b, lo, hi)] }) ⟨hf.nodes, fun p hp => ?_, hf.leaf⟩ _ _)
          (by omega)
        rcases List.mem_singleton.1 hp with rfl
        exact hc
      | leaf b => exact Steps.pure
    | leaf b => exact Steps.pure
  · exact Steps.mono (N := 71 * K + 71) (enter_steps (f := { f with path := f.path.dropWhile fun p => !inRange p.2.1 p.2.2 i })
      ⟨hf.nodes, hp, hf.leaf⟩ _ _) (by omega)

theorem moveFocus_steps {f : HFMut} (hf : FocusOk Z K f) (i : Nat) : Steps Z K (71 * K + 142) (moveFocus f i : HM α _) := by
  unfold moveFocus
  refine Steps.ite (fun _ => Steps.pure) fun _ => ?_
  dsimp only
  generalize hg : (if f.leaf.isSome then { f with leaf := none, llo := 0, lhi := 0 } else f) = g
  have hgo : FocusOk Z K g := by
    rw [← hg]
    split
    · exact ⟨hf.nodes, hf.path, by simp⟩
    · exact hf
  have key : ∀ w : HFMut, FocusOk Z K w → Steps Z K (71 * K + 142) (match w.root with
      | some root => w.moveFrom i root
      | none =>
        if i < w.len then do
          let p ← unwrap (← w.findNodeInfoForIndex i)
          let start ← usub i p.2
          let nd ← unwrap w.nodes[p.1]?
          let n ← nd.len
          let stop ← uadd start n
          { w with root := some (p.1, start, stop) }.moveFrom i (p.1, start, stop)
        else pure w : HM α HFMut) := by
    intro w hwo
    split
    · exact moveFrom_steps hwo _ _
    · split
      · refine Steps.lift fun o _ => ?_
        refine Steps.lift fun p _ => ?_
        refine Steps.lift fun s _ => ?_
        refine Steps.lift fun n _ => ?_
        refine Steps.lift fun l _ => ?_
        refine Steps.lift fun e _ => ?_
        exact moveFrom_steps (f := { w with root := some (p.1, s, e) }) ⟨hwo.nodes, hwo.path, hwo.leaf⟩ _ _
      · exact Steps.pure
  refine key (match g.root with
      | some (_, lo, hi) => if !inRange lo hi i then g.dropPathNodes else g
      | none => g) ?_
  split
  · split
    · exact focusOk_dropPathNodes hgo
    · exact hgo
  · exact hgo

theorem get_steps {f : HFMut} (hf : FocusOk Z K f) (i : Nat) : Steps Z K (71 * K + 142) (get f i : HM α _) := by
  unfold get
  refine Steps.bind (moveFocus_steps hf i) (moveFocus_cost hf i) (by omega) fun g hg => ?_
  split
  · refine Steps.lift fun pos _ => ?_
    split
    · exact Steps.lift fun x ex => Steps.pure
    · exact Steps.lift fun root _ => Steps.lift fun n en => Steps.lift fun b eb => Steps.lift fun x ex => Steps.pure
  · exact Steps.pure

end HFMut

namespace HVec

theorem borrowNodes_steps : ∀ {as : List Addr}, (∀ a ∈ as, Z.has a) → Steps Z K (70 * as.length) (borrowNodes as : HM α _)
  | [], _ => Steps.pure
  | a :: as, ha => by
    unfold borrowNodes
    have ih := borrowNodes_steps (α := α) (as := as) fun b hb => ha b (by simp [hb])
    rw [List.length_cons]
    read1
    split
    · refine Steps.bind (Entry.borrowNode_steps (ha a (by simp))) (Entry.borrowNode_cost (ha a (by simp))) (by omega) fun b hb => ?_
      exact ih.and_pure.mono (by omega)
    · exact ih.and_pure.mono (by omega)

theorem focusMut_steps {v : HVec} (hv : VecOk Z L v) : Steps Z K (140 * L + 70) (focusMut v : HM α _) := by
  unfold focusMut
  have h1 := hv.leftLen
  have h2 := hv.rightLen
  have hr : ∀ a ∈ v.right.reverse, Z.has a := fun a ha => hv.right a (List.mem_reverse.1 ha)
  refine Steps.bind (borrowNodes_steps hv.left) (borrowNodes_cost hv.left) (by omega) fun l _ => ?_
  read1
  refine Steps.bind (N1 := 69) (N0 := 1) (K1 := K) (Q := fun _ => True) ?_ ?_ (by omega) fun m _ => ?_
  · exact Steps.ite (fun _ => (Entry.borrowNode_steps hv.root).and_pure) fun _ => Steps.pure
  · exact Cost.ite (fun _ => Cost.bind (Entry.borrowNode_cost hv.root) (by omega) fun _ _ => Cost.pure (Nat.le_refl _) trivial)
      fun _ => Cost.pure (Nat.le_refl _) trivial
  · refine Steps.bind (borrowNodes_steps hr) (borrowNodes_cost hr) (by rw [List.length_reverse]; omega) fun r _ => ?_
    exact Steps.lift fun f _ => Steps.pure

end HVec

/-! ### Loops -/

theorem hrunAll_steps {step : ι → σ → HM α (β × σ)} {P : σ → Prop} {n m : Nat}
    (hs : ∀ o s, P s → Steps Z K n (step o s)) (hc : ∀ o s, P s → Cost Z K m (step o s) K fun r => P r.2) : ∀ (l : List ι) (s : σ),
      P s → Steps Z K (l.length * n) (hrunAll step l s)
  | [], _, h => Steps.pure
  | o :: os, s, h => by
    have e : (o :: os).length * n = os.length * n + n := by rw [List.length_cons, Nat.succ_mul]
    rw [e]
    refine Steps.bind (hs o s h) (hc o s h) (by omega) fun r hr => ?_
    exact (hrunAll_steps hs hc os r.2 hr).and_pure.mono (by omega)

theorem FOp.haccess_steps (o : FOp α) (p : Option Ptr) : Steps Z K 2 (o.haccess p) := by
  cases p with
  | none => exact Steps.pure
  | some p =>
    refine Steps.read (readPtr_steps p) (readPtr_still p) (by omega) fun x => ?_
    cases o with
    | read i => exact Steps.pure
    | write i y => exact (writePtr_steps y p).and_pure.mono (by omega)

theorem FOp.hrun_steps (o : FOp α) {f : HFMut} (hf : FocusOk Z K f) : Steps Z K (71 * K + 144) (o.hrun f) := by
  unfold FOp.hrun
  refine Steps.bind (HFMut.get_steps hf _) (HFMut.get_cost hf _) (by omega) fun r hr => ?_
  exact (o.haccess_steps r.1).and_pure.mono (by omega)

theorem TOp.hrun_steps (t : TOp α) {fs : List HFMut} (hf : ∀ f ∈ fs, FocusOk Z K f) : Steps Z K (71 * K + 144) (t.hrun fs) := by
  cases t with
  | use k o =>
    unfold TOp.hrun
    dsimp only
    cases e : fs[k]? with
    | none => exact Steps.pure
    | some f => exact (o.hrun_steps (hf f (List.mem_of_getElem? e))).and_pure
  | split k i =>
    unfold TOp.hrun
    dsimp only
    cases e : fs[k]? with
    | none => exact Steps.pure
    | some f => exact (HFMut.splitAt_steps (hf f (List.mem_of_getElem? e)) i).and_pure.mono (by omega)

theorem HVIterMut.step_steps (s : Side) {it : HVIterMut} (hf : FocusOk Z K it.focus) :
    Steps Z K (71 * K + 142) (HVIterMut.step s it : HM α _) := by
  cases s with
  | front =>
    show Steps Z K _ (HVIterMut.next it : HM α _)
    unfold HVIterMut.next
    refine Steps.ite (fun _ => ?_) fun _ => Steps.pure
    refine Steps.bind (HFMut.get_steps hf _) (HFMut.get_cost hf _) (by omega) fun r hr => ?_
    exact Steps.lift fun x ex => Steps.pure
  | back =>
    show Steps Z K _ (HVIterMut.nextBack it : HM α _)
    unfold HVIterMut.nextBack
    refine Steps.ite (fun _ => ?_) fun _ => Steps.pure
    exact Steps.lift fun x ex => (HFMut.get_steps hf _).and_pure

theorem HVIterMut.step_cost (s : Side) {it : HVIterMut} (hf : FocusOk Z K it.focus) :
    Cost Z K (K + 2) (HVIterMut.step s it : HM α _) K fun _ => True := by
  cases s with
  | front =>
    show Cost Z K _ (HVIterMut.next it : HM α _) K _
    unfold HVIterMut.next
    refine Cost.ite (fun _ => ?_) fun _ => Cost.pure (Nat.le_refl _) trivial
    refine Cost.bind (HFMut.get_cost hf _) (by omega) fun r hr => ?_
    exact Cost.lift fun x ex => Cost.pure (Nat.le_refl _) trivial
  | back =>
    show Cost Z K _ (HVIterMut.nextBack it : HM α _) K _
    unfold HVIterMut.nextBack
    refine Cost.ite (fun _ => ?_) fun _ => Cost.pure (Nat.le_refl _) trivial
    refine Cost.lift fun x ex => ?_
    exact Cost.bind (HFMut.get_cost hf _) (by omega) fun r hr => Cost.pure (Nat.le_refl _) trivial

theorem hmapStep_steps (g : α → α) (s : Side) {it : HVIterMut} (hf : FocusOk Z K it.focus) :
    Steps Z K (71 * K + 144) (hmapStep g s it) := by
  unfold hmapStep
  refine Steps.bind (HVIterMut.step_steps s hf) (HVIterMut.step_cost s hf) (by omega) fun r _ => ?_
  split
  · exact Steps.pure
  next p _ =>
    refine Steps.read (readPtr_steps p) (readPtr_still p) (by omega) fun x => ?_
    exact (writePtr_steps _ p).and_pure.mono (by omega)

/-! ### The calls of a program -/

theorem Act.hrun_steps {v : HVec} (hv : VecOk Z K v) (a : Act α) {n : Nat} (hn : a.stepBound K = some n) : Steps Z K n (a.hrun v) := by
  cases a with
  | len | isEmpty => cases hn; exact Steps.pure
  | get i => cases hn; exact (HVec.get_steps hv i).and_pure.mono (by omega)
  | front => cases hn; exact (HVec.frontBack_steps v _).and_pure
  | back => cases hn; exact (HVec.frontBack_steps v _).and_pure
  | iterate script =>
    cases hn
    refine Steps.bind (HVIter.new_steps hv) (HVIter.new_cost hv) (by omega) fun it hit => ?_
    refine (HVIter.run_steps script hit).and_pure.mono ?_
    have : script.length * (2 * K + 6 * K + 12) = script.length * (8 * K + 12) := by congr 1; omega
    omega
  | focusRead is =>
    cases hn
    refine Steps.bind (HFocus.new_steps hv) (HFocus.new_cost hv) (by omega) fun f hf => ?_
    refine (hrunAll_steps (P := SharedOk Z K) (fun i f h => HFocus.get_steps h i) (fun i f h => HFocus.get_cost h i) is f hf).and_pure.mono ?_
    have : is.length * (2 * K + 6 * K + 12) = is.length * (8 * K + 12) := by congr 1; omega
    omega
  | set i x => cases hn; exact (HVec.set_steps hv i x).and_pure.mono (by omega)
  | setEnd s x => cases hn; exact (HVec.setFrontBack_steps hv s x).and_pure
  | pushBack x => cases hn; exact (HVec.pushSide_steps hv .back x).and_pure
  | pushFront x => cases hn; exact (HVec.pushSide_steps hv .front x).and_pure
  | popBack => cases hn; exact (HVec.popSide_steps hv .back).and_pure
  | popFront => cases hn; exact (HVec.popSide_steps hv .front).and_pure
  | splitOff | sliceFromStart | sliceToEnd | extractSlice | insert | remove | reverseRange | sortRange => cases hn
  | mapEnds g script =>
    cases hn
    refine Steps.bind (N0 := 2 * K + 1) (K1 := K) (Q := fun w => FocusOk Z K w.2.focus) (HVec.focusMut_steps hv).and_pure
      (Cost.bind (HVec.focusMut_cost hv) (by omega) fun r hr => Cost.pure (Nat.le_refl _) hr.2) (by omega) fun w hw => ?_
    exact (hrunAll_steps (P := fun it => FocusOk Z K it.focus) (fun s it h => hmapStep_steps g s h) (fun s it h => hmapStep_cost g s h)
      script w.2 hw).and_pure.mono (by omega)
  | editFocus ops =>
    cases hn
    refine Steps.bind (HVec.focusMut_steps hv) (HVec.focusMut_cost hv) (by omega) fun w hw => ?_
    exact (hrunAll_steps (P := FocusOk Z K) (fun o f h => o.hrun_steps h) (fun o f h => o.hrun_cost h) ops w.2 hw.2).and_pure.mono
      (by omega)
  | shareFocus ops =>
    cases hn
    refine Steps.bind (HVec.focusMut_steps hv) (HVec.focusMut_cost hv) (by omega) fun w hw => ?_
    exact (hrunAll_steps (P := fun fs => ∀ f ∈ fs, FocusOk Z K f) (fun o f h => o.hrun_steps h) (fun o f h => o.hrun_cost h) ops [w.2]
      (by simpa using hw.2)).and_pure.mono (by omega)

end Librrb
