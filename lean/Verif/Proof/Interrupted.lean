import Verif.Proof.SoundCalls
import Verif.Proof.CloneUnwindCut
import Verif.Model.Interrupted

/-!
# Programs that go on after a panic of an item's `Clone`
-/
namespace Librrb

theorem CB.All.free {P : α → Prop} {b : CB α} (h : b.All P) : Tidy (fun _ => True) b.drop := by
  obtain ⟨l, r, -⟩ := h
  obtain ⟨d, items, e, -⟩ := CB.drop_ok r
  exact .of_eq e trivial

theorem forM_tidy {f : τ → M Unit} : ∀ (l : List τ), (∀ x ∈ l, Tidy (fun _ => True) (f x)) → Tidy (fun _ => True) (l.forM f)
  | [], _ => .ok trivial
  | x :: xs, h => .bind (h x (by simp)) fun _ _ => forM_tidy xs fun y hy => h y (by simp [hy])

theorem Node.Sound.free {nd : Node α} (h : nd.Sound) : Tidy (fun _ => True) nd.free := by
  induction h with
  | leaf hb =>
    rw [Node.free]
    exact .bind hb.free fun _ _ => .ok trivial
  | @internal s t c ks hs hc hk ih =>
    rw [Node.free]
    refine .bind (CB.All.free hs) fun _ _ => .bind (CB.All.free (P := Node.Sound) ⟨ks, hc, hk⟩) fun _ _ => forM_tidy _ fun x _ => ?_
    exact ih x.1 (hc.toList ▸ x.2)

namespace RVec

variable {cp : Copier γ α} {v : RVec α}

theorem Sound.free (h : v.Sound) : Tidy (fun _ => True) v.free :=
  .bind (forM_tidy _ fun x hx => (h.left x hx).free) fun _ _ => .bind (forM_tidy _ fun x hx => (h.right x hx).free) fun _ _ => h.root.free

theorem Sound.getMore (h : v.Sound) (k i : Nat) : Tidy (fun _ => True) (v.getMore k i) := by
  refine .bind (h.find i) fun p _ => ?_
  rcases p with _ | ⟨pos, sub⟩
  · exact .ok trivial
  · exact .bind (h.nodeAt pos) fun nd hn => .bind (Node.getAux_tidy _ hn sub) fun o _ =>
      .bind (P := fun _ => True) (.unwrap fun _ _ => trivial) fun _ _ => .ok trivial

theorem Sound.appendMainB {other : RVec α} (h : v.Sound) (ho : other.Sound) : CTidy Sound (v.appendMainB cp other) := by
  refine .bind (P := fun _ => True) (.steady (.uadd fun _ => trivial)) fun n _ => .bind (raiseSelfC_tidy _ _ h) fun v h =>
    .bind (raiseOtherC_tidy h _ _ ho) fun other ho => .bind .massert fun _ _ => .bind .massert fun _ _ =>
    .bind (.steady (firstUp_tidy .back h.right h.root)) fun r hr => .bind (.steady (firstUp_tidy .front ho.left ho.root)) fun s hs =>
    .bind (appendLoopC_tidy (put := fun _ _ => ⟨_, _, _, _⟩) (fun sp t h1 h2 => .of h.left h1 h2) _ _ _ _ _ hr.1 hs.1 hr.2 hs.2) fun roots hro =>
    .bind (.share (.of h.left ho.right hro.1) hro.2 hro.1 _ _) fun q hq =>
    .bind (P := fun _ => True) (.steady (Node.freeSlots_tidy fun _ => trivial)) fun f _ =>
    .bind (P := fun p : Node α × Node α => p.1.Sound ∧ p.2.Sound) ?_ fun p hp =>
    .bind (P := fun _ => True) (.steady (hp.2.isEmpty fun _ => trivial)) fun e _ => .bind (P := Sound) ?_ fun v h => h.fixupC
  · split
    · exact .bind (.share (.of h.left ho.right hq.2) hq.2 hq.1 _ _) fun t ht => .pure ⟨ht.1, ht.2⟩
    · exact .pure ⟨hq.2, hq.1⟩
  · split
    · exact .bind (.steady (Node.emptyInternal_tidy _)) fun nr hn =>
        .pure ⟨h.left.append (.one hp.1), ho.right.append (.one hp.2), hn⟩
    · exact .pure ⟨h.left, ho.right, hp.1⟩

theorem Sound.appendB {other : RVec α} (h : v.Sound) (ho : other.Sound) : CTidy Sound (v.appendB cp other) := by
  unfold RVec.appendB
  split
  · exact .pure ho
  split
  · exact .pure h
  split
  · exact .bind (h.popSideC .back) fun r hr => .bind (P := fun _ => True) (.steady (.unwrap fun _ _ => trivial)) fun x _ =>
      (ho.pushSideC .front x).leaving hr
  split
  · exact .bind ((ho.popSideC .back).leaving h) fun r hr => .bind (P := fun _ => True) (.steady (.unwrap fun _ _ => trivial)) fun x _ =>
      h.pushSideC .back x
  · exact h.appendMainB ho

theorem Sound.extractSliceB (h : v.Sound) (a b : Bound) : CTidy (fun r => r.1.Sound ∧ r.2.Sound) (v.extractSliceB cp a b) := by
  have key : ∀ s t : M Nat, Tidy (fun _ => True) s → Tidy (fun _ => True) t → CTidy (fun r => r.1.Sound ∧ r.2.Sound) (do
      let start ← steady s
      let stop ← steady t
      let a ← v.splitOffC cp stop
      let b ← a.1.splitOffC cp start
      let v ← b.1.appendB cp a.2
      Pure.pure (v, b.2)) := fun s t hs ht =>
    .bind (.steady hs) fun _ _ => .bind (.steady ht) fun _ _ => .bind (h.splitOffC _) fun a ha => .bind (ha.1.splitOffC _) fun b hb =>
      .bind (hb.1.appendB ha.2) fun v h => .pure ⟨h, hb.2⟩
  refine key _ _ ?_ ?_
  · cases a <;> first | exact .ok trivial | exact .uadd fun _ => trivial
  · cases b <;> first | exact .ok trivial | exact .uadd fun _ => trivial

theorem Sound.insertB (h : v.Sound) (i : Nat) (x : α) : CTidy Sound (v.insertB cp i x) :=
  .bind (h.splitOffC i) fun r hr => .bind (hr.1.pushSideC .back x) fun v h => h.appendB hr.2

theorem Sound.removeB (h : v.Sound) (i : Nat) : CTidy (fun r => r.2.Sound) (v.removeB cp i) := by
  unfold RVec.removeB
  split
  · exact .bind (h.splitOffC i) fun r hr => .bind ((hr.2.popSideC .front).leaving hr.1) fun q hq =>
      .bind (hr.1.appendB hq) fun v h => .pure h
  · exact .pure h

end RVec

theorem foldlM_tidy {σ : Type} {I : σ → Prop} {f : σ → τ → M σ} (hf : ∀ s x, I s → Tidy I (f s x)) : ∀ (l : List τ) (s : σ), I s →
    Tidy I (l.foldlM f s)
  | [], _, h => .ok h
  | x :: xs, s, h => by
    rw [List.foldlM_cons]
    exact .bind (hf s x h) fun s h => foldlM_tidy hf xs s h

namespace Node

variable {nd : Node α}

theorem Sound.childRefAtSlot (h : nd.Sound) (i : Nat) : Tidy (fun o => ∀ a, o = some a → a.1.Sound) (nd.childRefAtSlot i) := by
  cases nd with
  | leaf b => exact Tidy.panic
  | internal s t c =>
    obtain ⟨hs, hc⟩ := sound_internal.1 h
    refine .bind (hs.getChildRange (P := fun _ => True) (fun _ => trivial) i) fun r _ => ?_
    cases r with
    | none => exact .ok nofun
    | some r => exact .bind (hc.get i) fun o ho => .bind (.unwrap ho) fun k hk => .ok fun a ha => by cases ha; exact hk

theorem Sound.childRefForPosition (h : nd.Sound) (i : Nat) :
    Tidy (fun o => ∀ a, o = some a → a.1.Sound) (nd.childRefForPosition i) := by
  cases nd with
  | leaf b => exact Tidy.panic
  | internal s t c =>
    refine .bind ((sound_internal.1 h).1.positionInfoFor (P := fun _ => True) (fun _ => trivial) i) fun r _ => ?_
    cases r with
    | none => exact .ok nofun
    | some r => exact h.childRefAtSlot _

end Node

namespace PFocus

/-- All rings the focus knows are in order. -/
structure Sound (pf : PFocus α) : Prop where
  path : ∀ p ∈ pf.path, p.1.Sound
  leaf : pf.leaf.All fun _ => True

theorem treePath_tidy : ∀ (fuel : Nat) (path : List (Node α × Nat × Nat)) (i : Nat), (∀ p ∈ path, p.1.Sound) →
    Tidy Sound (treePath fuel path i) := by
  intro fuel
  induction fuel with
  | zero => intro path i h; exact Tidy.diverge
  | succ fuel ih =>
    intro path i h
    cases path with
    | nil => exact Tidy.panic
    | cons p rest =>
      refine .bind ((h p (by simp)).childRefForPosition i) fun r hr => ?_
      cases r with
      | none => exact Tidy.panic
      | some r =>
        obtain ⟨child, lo, hi⟩ := r
        have hc : child.Sound := hr _ rfl
        refine .bind (P := fun _ => True) (.usub fun _ => trivial) fun n _ => ?_
        cases child with
        | leaf b => exact .ok ⟨h, Node.sound_leaf.1 hc⟩
        | internal s t c =>
          refine .bind (P := fun _ => True) (.usub fun _ => trivial) fun n _ => ih _ _ fun q hq => ?_
          rcases List.mem_cons.1 hq with rfl | hq
          · exact hc
          · exact h q hq

theorem fromTree_tidy (k : Nat) {nd : Node α} (h : nd.Sound) : Tidy Sound (fromTreeMore k nd) := by
  cases nd with
  | leaf b => exact .ok ⟨nofun, Node.sound_leaf.1 h⟩
  | internal s t c =>
    refine .bind (h.len (P := fun _ => True) fun _ => trivial) fun n _ => treePath_tidy _ _ _ fun q hq => ?_
    rcases List.mem_singleton.1 hq with rfl
    exact h

theorem popPath_tidy (i : Nat) : ∀ (path : List (Node α × Nat × Nat)), (∀ p ∈ path, p.1.Sound) →
    Tidy (fun l => ∀ p ∈ l, p.1.Sound) (popPath i path)
  | [], _ => Tidy.panic
  | (nd, lo, hi) :: rest, h => by
    unfold popPath
    split
    · exact .ok h
    · exact popPath_tidy i rest fun p hp => h p (by simp [hp])

theorem Sound.moveFocus {pf : PFocus α} (h : pf.Sound) (k i : Nat) : Tidy Sound (pf.moveFocusMore k i) := by
  unfold PFocus.moveFocusMore
  split
  · refine .bind (popPath_tidy i _ h.path) fun path hp => .bind (P := fun _ => True) ?_ fun start _ =>
      .bind (P := fun _ => True) (.usub fun _ => trivial) fun n _ => treePath_tidy _ _ _ hp
    cases path with
    | nil => exact Tidy.panic
    | cons p rest => exact .ok trivial
  · exact .ok h

theorem Sound.get {pf : PFocus α} (h : pf.Sound) (k i : Nat) : Tidy (fun r => r.2.Sound) (pf.getMore k i) := by
  unfold PFocus.getMore
  split
  · exact .bind (h.leaf.get i) fun _ _ => .ok h
  · rename_i e
    refine .bind ((h.path _ (List.mem_of_getLast? e)).len (P := fun _ => True) fun _ => trivial) fun n _ => ?_
    split
    · exact .ok h
    · exact .bind (h.moveFocus _ i) fun pf h => .bind (P := fun _ => True) (.usub fun _ => trivial) fun k _ =>
        .bind (h.leaf.get k) fun _ _ => .ok h

end PFocus

namespace Focus

/-- All rings the focus knows are in order. -/
structure Sound (f : Focus α) : Prop where
  tree : f.tree.Sound
  node : f.node.Sound

theorem spineIter_sound {v : RVec α} (h : v.Sound) : ∀ p ∈ v.spineIter, p.2.Sound := by
  intro p hp
  simp only [RVec.spineIter, List.mem_append, List.mem_map, List.mem_singleton, List.mem_reverse] at hp
  rcases hp with (⟨q, hq, rfl⟩ | rfl) | ⟨q, hq, rfl⟩
  · exact h.left _ (List.fst_mem_of_mem_zipIdx hq)
  · exact h.root
  · exact h.right _ (List.fst_mem_of_mem_zipIdx hq)

theorem pickLoop_tidy (lo hi : Nat) : ∀ (l : List (Option (Side × Nat) × Node α)) (e : Nat) (p : Pick α), (∀ q ∈ l, q.2.Sound) →
    p.node.Sound → Tidy (fun p => p.node.Sound) (pickLoop lo hi l e p)
  | [], _, _, _, h => .ok h
  | (pos, nd) :: rest, e, p, hl, h => by
    have hn := hl (pos, nd) (by simp)
    refine .bind (hn.len (P := fun _ => True) fun _ => trivial) fun n _ => .bind (P := fun _ => True) (.uadd fun _ => trivial) fun stop _ =>
      pickLoop_tidy lo hi rest _ _ (fun q hq => hl q (by simp [hq])) ?_
    split
    · exact hn
    · exact h

theorem narrowedTree_tidy (k : Nat) {v : RVec α} (h : v.Sound) (lo hi : Nat) : Tidy Sound (narrowedTreeMore k v lo hi) :=
  .bind (pickLoop_tidy _ _ _ _ _ (spineIter_sound h) h.root) fun _ hp => .bind (PFocus.fromTree_tidy _ hp) fun _ hf => .ok ⟨h, hf⟩

theorem Sound.enter {f : Focus α} (h : f.Sound) (k : Nat) (pos : Option (Side × Nat)) {nd : Node α} (hn : nd.Sound) (a b i : Nat) :
    Tidy Sound (f.enterMore k pos nd a b i) :=
  .bind (PFocus.fromTree_tidy _ hn) fun _ hp => .bind (P := fun _ => True) (.usub fun _ => trivial) fun _ _ =>
    .bind (hp.moveFocus _ _) fun _ hp => .ok ⟨h.tree, hp⟩

theorem Sound.refocusBack {f : Focus α} (h : f.Sound) (k i : Nat) : ∀ (l : List (Option (Side × Nat) × Node α)) (e : Nat),
    (∀ q ∈ l, q.2.Sound) → Tidy Sound (f.refocusBackMore k i l e)
  | [], _, _ => .ok h
  | (pos, nd) :: rest, e, hl => by
    have hn := hl (pos, nd) (by simp)
    refine .bind (hn.len (P := fun _ => True) fun _ => trivial) fun n _ => .bind (P := fun _ => True) (.usub fun _ => trivial) fun st _ => ?_
    split
    · exact h.enter k pos hn _ _ _
    · exact h.refocusBack k i rest _ fun q hq => hl q (by simp [hq])

theorem Sound.refocusFwd {f : Focus α} (h : f.Sound) (k i : Nat) : ∀ (l : List (Option (Side × Nat) × Node α)) (e : Nat),
    (∀ q ∈ l, q.2.Sound) → Tidy Sound (f.refocusFwdMore k i l e)
  | [], _, _ => .ok h
  | (pos, nd) :: rest, e, hl => by
    have hn := hl (pos, nd) (by simp)
    refine .bind (hn.len (P := fun _ => True) fun _ => trivial) fun n _ => .bind (P := fun _ => True) (.uadd fun _ => trivial) fun st _ => ?_
    split
    · exact h.enter k pos hn _ _ _
    · exact h.refocusFwd k i rest _ fun q hq => hl q (by simp [hq])

theorem Sound.refocus {f : Focus α} (h : f.Sound) (k i : Nat) : Tidy Sound (f.refocusMore k i) := by
  refine .bind (P := fun _ => True) (.massert trivial) fun _ _ => ?_
  have hs := spineIter_sound h.tree
  split
  · refine .bind (P := fun _ => True) ?_ fun n _ => h.refocusBack k i _ _ fun q hq => hs q (List.mem_reverse.1 (List.mem_of_mem_drop hq))
    rcases f.pos with _ | ⟨_ | _, k⟩ <;> first | exact .ok trivial | exact .usub fun _ => trivial
  · refine .bind (P := fun _ => True) ?_ fun n _ => h.refocusFwd k i _ _ fun q hq => hs q (List.mem_of_mem_drop hq)
    rcases f.pos with _ | ⟨_ | _, k⟩ <;> first | exact .ok trivial | exact .usub fun _ => trivial

theorem Sound.get {f : Focus α} (h : f.Sound) (k i : Nat) : Tidy (fun r => r.2.Sound) (f.getMore k i) := by
  refine .bind (P := fun _ => True) (.uadd fun _ => trivial) fun n _ => ?_
  split
  · refine .bind (P := Sound) ?_ fun f h => .bind (P := fun _ => True) (.usub fun _ => trivial) fun j _ =>
      .bind (h.node.get k j) fun r hr => .ok ⟨h.tree, hr⟩
    split
    · exact h.refocus k n
    · exact .ok h
  · exact .ok h

theorem Sound.narrow {f : Focus α} (h : f.Sound) (k : Nat) (a b : Bound) : Tidy Sound (f.narrowMore k a b) := by
  refine .bind (P := fun _ => True) ?_ fun _ _ => .bind (P := fun _ => True) ?_ fun _ _ => .bind (P := fun _ => True) (.massert trivial) fun _ _ =>
    .bind (P := fun _ => True) (.uadd fun _ => trivial) fun _ _ => .bind (P := fun _ => True) (.uadd fun _ => trivial) fun _ _ =>
    .bind (P := fun _ => True) (.usub fun _ => trivial) fun _ _ => narrowedTree_tidy _ h.tree _ _
  · cases a <;> first | exact .ok trivial | exact .uadd fun _ => trivial
  · cases b <;> first | exact .ok trivial | exact .uadd fun _ => trivial | exact .usub fun _ => trivial

theorem Sound.splitAt {f : Focus α} (h : f.Sound) (k i : Nat) : Tidy (fun r => r.1.Sound ∧ r.2.Sound) (f.splitAtMore k i) :=
  .bind (P := fun _ => True) (.usub fun _ => trivial) fun _ _ => .bind (P := fun _ => True) (.massert trivial) fun _ _ =>
    .bind (narrowedTree_tidy _ h.tree _ _) fun _ h1 => .bind (narrowedTree_tidy _ h.tree _ _) fun _ h2 => .ok ⟨h1, h2⟩

end Focus

theorem Look.exec_tidy (k : Nat) {f : Focus α} (h : f.Sound) (l : Look) : Tidy Focus.Sound (l.exec k f) := by
  cases l with
  | get i => exact .bind (h.get k i) fun _ hr => .ok hr
  | narrow a b => exact h.narrow k a b
  | splitAt i s => cases s <;> exact .bind (h.splitAt k i) fun _ hr => .ok (by first | exact hr.1 | exact hr.2)

theorem VIter.step_tidy (k : Nat) (s : Side) {it : VIter α} (h : it.focus.Sound) : Tidy (fun r => r.2.focus.Sound) (VIter.stepMore k s it) := by
  cases s with
  | front =>
    simp only [VIter.stepMore]
    split
    · exact .bind (h.get k _) fun r hr => .bind (P := fun _ => True) (.unwrap fun _ _ => trivial) fun _ _ => .ok hr
    · exact .ok h
  | back =>
    simp only [VIter.stepMore]
    split
    · exact .bind (P := fun _ => True) (.usub fun _ => trivial) fun _ _ => .bind (h.get k _) fun r hr => .ok hr
    · exact .ok h

namespace RVec

variable {cp : Copier γ α}

theorem appendMainB_any (v other : RVec α) : Tracks cp (fun _ => True) (appendMainB cp v other) (appendMain v other) := by
  unfold appendMainB appendMain
  refine .bind .steady fun _ _ => .bind (raiseSelf_any _ _ _) fun _ _ => .bind (raiseOther_tracks trivial _ _ _) fun _ _ =>
    .bind .steady fun _ _ => .bind .steady fun _ _ => .bind .steady fun _ _ => .bind .steady fun _ _ =>
    .bind (appendLoop_tracks (fun _ _ => trivial) _ _ _ _ _) fun _ _ => .bind (.share (.inl trivial) (.inl trivial)) fun _ _ =>
    .bind .steady fun _ _ => .bind ?_ fun _ _ => .bind .steady fun _ _ => .bind ?_ fun _ _ => fixup_any _
  · split
    · exact .bind (.share (.inl trivial) (.inl trivial)) fun _ _ => .pure
    · exact .pure
  · split
    · exact .bind .steady fun _ _ => .pure
    · exact .pure

theorem appendB_any (v other : RVec α) : Tracks cp (fun _ => True) (v.appendB cp other) (v.append other) := by
  unfold appendB append
  split
  · exact .pure
  split
  · exact .pure
  split
  · exact .bind (popSide_any _ _) fun _ _ => .bind .steady fun _ _ => leaving_any (pushSide_any _ _ _)
  split
  · exact .bind (leaving_any (popSide_any _ _)) fun _ _ => .bind .steady fun _ _ => pushSide_any _ _ _
  exact appendMainB_any _ _

theorem insertB_any (v : RVec α) (k : Nat) (x : α) : Tracks cp (fun _ => True) (v.insertB cp k x) (v.insert k x) :=
  .bind (splitOff_any _ _) fun _ _ => .bind (pushSide_any _ _ _) fun _ _ => appendB_any _ _

theorem removeB_any (v : RVec α) (k : Nat) : Tracks cp (fun _ => True) (v.removeB cp k) (v.remove k) := by
  unfold removeB remove
  split
  · exact .bind (splitOff_any _ _) fun _ _ => .bind (leaving_any (popSide_any _ _)) fun _ _ =>
      .bind (appendB_any _ _) fun _ _ => .pure
  · exact .pure

end RVec

/-! ### More steps change nothing -/

theorem Node.getAux_more (k : Nat) : ∀ (n : Nat) (nd : Node α) (i : Nat), Leq (nd.getAux n i) (nd.getAux (k + n) i)
  | 0, _, _ => .diverge
  | n + 1, .leaf b, _ => .refl _
  | n + 1, .internal s t c, i => by
    rw [← Nat.add_assoc]
    unfold Node.getAux
    refine .bind (.refl _) fun p _ => ?_
    rcases p with _ | ⟨a, b⟩
    · exact .refl _
    · exact .bind (.refl _) fun _ _ => .bind (.refl _) fun child _ => Node.getAux_more k n child b

theorem RVec.get_more (v : RVec α) (k i : Nat) : Leq (v.get i) (v.getMore k i) := by
  refine .bind (.refl _) fun p _ => ?_
  rcases p with _ | ⟨pos, sub⟩
  · exact .refl _
  · exact .bind (.refl _) fun nd _ => .bind (Node.getAux_more k _ nd sub) fun _ _ => .refl _

theorem Leq.ite {c : Prop} [Decidable c] {a b a' b' : M τ} (h : Leq a a') (h' : Leq b b') :
    Leq (if c then a else b) (if c then a' else b') := by
  split
  · exact h
  · exact h'

namespace PFocus

theorem treePath_more (k : Nat) : ∀ (n : Nat) (p : List (Node α × Nat × Nat)) (i : Nat),
    Leq (treePath n p i) (treePath (k + n) p i)
  | 0, _, _ => .diverge
  | n + 1, [], _ => .refl _
  | n + 1, (nd, lo, hi) :: rest, i => by
    rw [← Nat.add_assoc]
    unfold treePath
    refine .bind (.refl _) fun r _ => ?_
    split
    · exact .refl _
    · refine .bind (.refl _) fun n _ => ?_
      split
      · exact .refl _
      · exact .bind (.refl _) fun _ _ => treePath_more k _ _ _

theorem fromTree_more (k : Nat) (nd : Node α) : Leq (fromTree nd) (fromTreeMore k nd) := by
  cases nd with
  | leaf b => exact .refl _
  | internal s t c => exact .bind (.refl _) fun _ _ => treePath_more k _ _ _

theorem moveFocus_more (k : Nat) (pf : PFocus α) (i : Nat) : Leq (pf.moveFocus i) (pf.moveFocusMore k i) :=
  .ite (.bind (.refl _) fun _ _ => .bind (.refl _) fun _ _ => .bind (.refl _) fun _ _ => treePath_more k _ _ _) (.refl _)

theorem get_more (k : Nat) (pf : PFocus α) (i : Nat) : Leq (pf.get i) (pf.getMore k i) := by
  unfold PFocus.get PFocus.getMore
  cases pf.path.getLast? with
  | none => exact .refl _
  | some p => exact .bind (.refl _) fun _ _ => .ite (.refl _) (.bind (moveFocus_more k pf i) fun _ _ => .refl _)

end PFocus

namespace Focus

theorem narrowedTree_more (k : Nat) (v : RVec α) (lo hi : Nat) : Leq (narrowedTree v lo hi) (narrowedTreeMore k v lo hi) :=
  .bind (.refl _) fun _ _ => .bind (PFocus.fromTree_more k _) fun _ _ => .refl _

theorem enter_more (k : Nat) (f : Focus α) (pos : Option (Side × Nat)) (nd : Node α) (a b i : Nat) :
    Leq (f.enter pos nd a b i) (f.enterMore k pos nd a b i) :=
  .bind (PFocus.fromTree_more k _) fun _ _ => .bind (.refl _) fun _ _ => .bind (PFocus.moveFocus_more k _ _) fun _ _ => .refl _

theorem refocusBack_more (k : Nat) (f : Focus α) (i : Nat) : ∀ (l : List (Option (Side × Nat) × Node α)) (e : Nat),
    Leq (f.refocusBack i l e) (f.refocusBackMore k i l e)
  | [], _ => .refl _
  | (pos, nd) :: rest, e => .bind (.refl _) fun _ _ => .bind (.refl _) fun _ _ =>
      .ite (enter_more k f pos nd _ _ _) (refocusBack_more k f i rest _)

theorem refocusFwd_more (k : Nat) (f : Focus α) (i : Nat) : ∀ (l : List (Option (Side × Nat) × Node α)) (e : Nat),
    Leq (f.refocusFwd i l e) (f.refocusFwdMore k i l e)
  | [], _ => .refl _
  | (pos, nd) :: rest, e => .bind (.refl _) fun _ _ => .bind (.refl _) fun _ _ =>
      .ite (enter_more k f pos nd _ _ _) (refocusFwd_more k f i rest _)

theorem refocus_more (k : Nat) (f : Focus α) (i : Nat) : Leq (f.refocus i) (f.refocusMore k i) :=
  .bind (.refl _) fun _ _ => .ite (.bind (.refl _) fun _ _ => refocusBack_more k f i _ _)
    (.bind (.refl _) fun _ _ => refocusFwd_more k f i _ _)

theorem get_more (k : Nat) (f : Focus α) (i : Nat) : Leq (f.get i) (f.getMore k i) :=
  .bind (.refl _) fun _ _ => .ite (.bind (.ite (refocus_more k f _) (.refl _)) fun f _ => .bind (.refl _) fun _ _ =>
    .bind (PFocus.get_more k f.node _) fun _ _ => .refl _) (.refl _)

theorem narrow_more (k : Nat) (f : Focus α) (a b : Bound) : Leq (f.narrow a b) (f.narrowMore k a b) :=
  .bind (.refl _) fun _ _ => .bind (.refl _) fun _ _ => .bind (.refl _) fun _ _ => .bind (.refl _) fun _ _ =>
    .bind (.refl _) fun _ _ => .bind (.refl _) fun _ _ => narrowedTree_more k _ _ _

theorem splitAt_more (k : Nat) (f : Focus α) (i : Nat) : Leq (f.splitAt i) (f.splitAtMore k i) :=
  .bind (.refl _) fun _ _ => .bind (.refl _) fun _ _ => .bind (narrowedTree_more k _ _ _) fun _ _ =>
    .bind (narrowedTree_more k _ _ _) fun _ _ => .refl _

end Focus

theorem VIter.step_more (k : Nat) (s : Side) (it : VIter α) : Leq (VIter.step s it) (VIter.stepMore k s it) := by
  cases s
  · exact .ite (.bind (Focus.get_more k _ _) fun _ _ => .refl _) (.refl _)
  · exact .ite (.bind (.refl _) fun _ _ => .bind (Focus.get_more k _ _) fun _ _ => .refl _) (.refl _)

theorem Leq.returns {m m' : M τ} (h : Leq m m') {a : τ} (e : m = .ok a) : m' = .ok a := by
  rcases h with rfl | rfl
  · cases e
  · exact e

/-- The rings of all vectors are in order. -/
def Vars.Sound (vars : Vars α) : Prop := ∀ i, (vars i).Sound

theorem Vars.Sound.put {vars : Vars α} (h : vars.Sound) (i : Nat) {v : RVec α} (hv : v.Sound) : (vars.put i v).Sound := fun k => by
  unfold Vars.put
  split
  · exact hv
  · exact h k

theorem caught_tidy {vars : Vars α} (h : vars.Sound) (i : Nat) {m : CM γ α (Vars α)} (hm : CTidy Vars.Sound m) (g : γ) :
    Tidy (fun r => r.1.Sound) (caught vars i m g) := by
  have := hm g
  unfold caught
  cases e : m g with
  | mk r g' =>
    rw [e] at this
    cases r with
    | ok a => exact this
    | error s =>
      cases s with
      | fault e => exact this
      | unwound w => exact .ok (h.put i this)

theorem Attempt.exec_tidy {cp : Copier γ α} {vars : Vars α} (h : vars.Sound) (c : Attempt α) (g : γ) :
    Tidy (fun r => r.1.Sound) (c.exec cp vars g) := by
  cases c with
  | clone i j => exact caught_tidy h i (.bind (.steady (h j).free) fun _ _ => .pure (h.put j (h i))) g
  | drop i => exact caught_tidy h i (.bind (.steady (h i).free) fun _ _ => .pure (h.put i .new)) g
  | push i s x => exact caught_tidy h i (.bind ((h i).pushSideC s x) fun _ hv => .pure (h.put i hv)) g
  | pop i s => exact caught_tidy h i (.bind ((h i).popSideC s) fun _ hv => .pure (h.put i hv)) g
  | get i k => exact caught_tidy h i (.bind (.steady ((h i).getMore _ k)) fun _ _ => .pure h) g
  | frontBack i s => exact caught_tidy h i (.bind (.steady ((h i).frontBack s)) fun _ _ => .pure h) g
  | iter i steps =>
    refine caught_tidy h i (.bind (P := fun it : VIter α => it.focus.Sound) (.steady (.bind (Focus.narrowedTree_tidy _ (h i) _ _) fun _ hf =>
      .ok hf)) fun it hit => .bind (P := fun it : VIter α => it.focus.Sound) (.steady (foldlM_tidy (fun it s hit => ?_) _ _ hit)) fun _ _ => .pure h) g
    exact .bind (VIter.step_tidy _ s hit) fun _ hr => .ok hr
  | focus i looks =>
    exact caught_tidy h i (.bind (.steady (Focus.narrowedTree_tidy _ (h i) _ _)) fun f hf =>
      .bind (.steady (foldlM_tidy (fun f l hf => Look.exec_tidy _ hf l) _ _ hf)) fun _ _ => .pure h) g
  | set i k x =>
    refine caught_tidy h i (.bind ((h i).setC k x) fun r hr => .pure (h.put i ?_)) g
    cases r with
    | none => exact h i
    | some v => exact hr v rfl
  | setFrontBack i s x =>
    refine caught_tidy h i (.bind ((h i).setFrontBackC s x) fun r hr => .pure (h.put i ?_)) g
    cases r with
    | none => exact h i
    | some v => exact hr v rfl
  | splitOff i k j =>
    exact caught_tidy h i (.bind ((h i).splitOffC k) fun r hr => .bind (.steady (h j).free) fun _ _ => .pure ((h.put i hr.1).put j hr.2)) g
  | sliceFromStart i k =>
    exact caught_tidy h i (.bind (P := RVec.Sound) (.bind ((h i).splitOffC k) fun r hr => .pure hr.1) fun _ hv => .pure (h.put i hv)) g
  | sliceToEnd i k =>
    exact caught_tidy h i (.bind (P := RVec.Sound) (.bind ((h i).splitOffC k) fun r hr => .pure hr.2) fun _ hv => .pure (h.put i hv)) g
  | append i j => exact caught_tidy (h.put j .new) i (.bind ((h i).appendB (h j)) fun _ hv => .pure ((h.put j .new).put i hv)) g
  | prepend i j => exact caught_tidy (h.put j .new) i (.bind ((h j).appendB (h i)) fun _ hv => .pure ((h.put j .new).put i hv)) g
  | extractSlice i a b j =>
    exact caught_tidy h i (.bind ((h i).extractSliceB a b) fun r hr => .bind (.steady (h j).free) fun _ _ => .pure ((h.put i hr.1).put j hr.2)) g
  | insert i k x => exact caught_tidy h i (.bind ((h i).insertB k x) fun _ hv => .pure (h.put i hv)) g
  | remove i k => exact caught_tidy h i (.bind ((h i).removeB k) fun _ hv => .pure (h.put i hv)) g

theorem Attempt.run_tidy {cp : Copier γ α} : ∀ (cs : List (Attempt α)) {vars : Vars α} (_ : vars.Sound) (g : γ),
    Tidy (fun r => r.1.Sound) (Attempt.run cp cs vars g)
  | [], _, h, _ => .ok h
  | c :: cs, _, h, g => .bind (Attempt.exec_tidy h c g) fun _ hr => Attempt.run_tidy cs hr _

end Librrb
