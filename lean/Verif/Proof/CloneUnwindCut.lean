import Verif.Model.CloneUnwindCut
import Verif.Proof.CloneUnwind
import Verif.Proof.SplitOff
import Verif.Proof.Tall

/-! # What cutting and joining leave behind when cloning an item panics -/
namespace Librrb

section
variable {cp : Copier γ α} {Q : RVec α → Prop}

theorem Tracks.leaving {Q' : RVec α → Prop} {m : CM γ α τ} {r : M τ} {w : RVec α} (h : Tracks cp Q' m r) (hw : Q w) :
    Tracks cp Q (leaving w m) r := by
  intro hd g
  have k := h hd g
  unfold Librrb.leaving
  generalize m g = x at k ⊢
  obtain ⟨((e | u) | a), g'⟩ := x
  · exact k
  · exact ⟨hw, k.2⟩
  · exact k

theorem Tracks.leaving_silent {m : CM γ α τ} {r : M τ} {w : RVec α} (h : Tracks cp (fun _ => False) m r) :
    Tracks cp Q (Librrb.leaving w m) r := by
  intro hd g
  have k := h hd g
  unfold Librrb.leaving
  generalize m g = x at k ⊢
  obtain ⟨((e | u) | a), g'⟩ := x
  · exact k
  · exact k.1.elim
  · exact k

theorem Tracks.touched {nd : Node α} {left : RVec α} (h : Q left ∨ nd.slots = 0 ∨ nd.isLeaf = false) :
    Tracks cp Q (cp.touch left nd) (.ok ()) := by
  have := Tracks.touch (cp := cp) (f := Pure.pure ()) (r := .ok ()) h .pure
  intro hd g
  have k := this hd g
  rw [CM.bind_apply] at k
  generalize cp.touch left nd g = x at k ⊢
  obtain ⟨((e | u) | a), g'⟩ := x
  · exact k
  · exact k
  · rfl

namespace Node

theorem popChild_slots {nd : Node α} {s : Side} {q : Node α × Node α} (e : nd.popChild s = .ok q) : nd.slots ≠ 0 := by
  intro h0
  cases nd with
  | leaf b => cases e
  | internal a t c =>
    simp only [Node.slots] at h0
    unfold popChild at e
    dsimp only at e
    rcases h : a.popChild s with f | r
    · rw [h] at e; cases e
    · rw [h] at e
      have : c.pop s = .error .panic := by
        cases s <;> simp [CB.pop, CB.tryPop, CB.tryPopFront, CB.tryPopBack, CB.isEmpty, h0, unwrap] <;> rfl
      simp only [ok_bind, this] at e
      cases e

/-- The first part of a node, and what is left of it. -/
theorem splitAtChild_parts {n : Nat} {nd : Node α} (w : nd.Wf (n + 1)) {idx : Nat} {r : Node α × Node α}
    (e : nd.splitAtChild idx = .ok r) : r.1.Wf (n + 1) ∧ r.2.Wf (n + 1) ∧ nd.toList = r.1.toList ++ r.2.toList := by
  cases nd with
  | leaf b => exact absurd w.level (by simp [Node.level])
  | internal s t c =>
    unfold splitAtChild at e
    dsimp only at e
    split at e
    · obtain ⟨w2, t2, s2⟩ := w.newEmpty
      obtain ⟨k, a', b', e', wa, wb, -, -, -, mv, q1, q2⟩ := share_ok w w2 .front idx
      rw [e'] at e
      simp only [ok_bind] at e
      have e := Except.ok.inj e
      subst e
      refine ⟨wb, wa, ?_⟩
      rw [q1, q2, t2]
      simp [Side.add]
    · cases e

theorem debugCheckAux_more (k : Nat) : ∀ (n : Nat) (nd : Node α) (i j : Nat),
    Leq (nd.debugCheckAux n i j) (nd.debugCheckAux (k + n) i j)
  | 0, _, _, _ => .diverge
  | n + 1, .leaf b, _, _ => .refl _
  | n + 1, .internal s t c, i, j => by
    rw [← Nat.add_assoc]
    unfold debugCheckAux
    exact .bind (.refl _) fun _ _ => .bind (.refl _) fun _ _ => .bind (.foldIter (fun st child => .bind (.refl _) fun _ _ =>
      .bind (.refl _) fun _ _ => .bind (.refl _) fun _ _ => .bind (debugCheckAux_more k n child _ _) fun _ _ => .refl _) _ _) fun _ _ => .refl _

theorem setAux_more (k : Nat) : ∀ (n : Nat) (nd : Node α) (i : Nat) (x : α),
    Leq (nd.setAux n i x) (nd.setAux (k + n) i x)
  | 0, _, _, _ => .diverge
  | n + 1, .leaf b, _, _ => .refl _
  | n + 1, .internal s t c, i, x => by
    rw [← Nat.add_assoc]
    unfold setAux
    refine .bind (.refl _) fun p _ => ?_
    rcases p with _ | ⟨a, b⟩
    · exact .refl _
    · exact .bind (.refl _) fun _ _ => .bind (.refl _) fun child _ => .bind (setAux_more k n child b x) fun _ _ => .refl _

theorem splitAtPositionAux_tracks : ∀ (fuel : Nat) (left : Node α → RVec α) (nd : Node α) (pos : Nat),
    (∀ b, nd = .leaf b → Q (left nd)) →
    ((∀ b, nd ≠ .leaf b) → ∀ idx r q, nd.splitAtChild idx = .ok r → r.2.popChild .front = .ok q → Q (left r.1)) →
    Tracks cp Q (splitAtPositionAuxC cp (cp.more + fuel) left nd pos) (splitAtPositionAux fuel nd pos)
  | 0, _, _, _, _, _ => .diverge
  | fuel + 1, left, .leaf b, pos, h, _ => .touch (.inl (h b rfl)) .steady
  | fuel + 1, left, .internal s t c, pos, _, h => by
    rw [← Nat.add_assoc]
    unfold splitAtPositionAuxC splitAtPositionAux
    refine .bind .steady fun _ _ => .bind .steady fun _ _ => .bind .steady fun _ _ => .bind .steady fun p _ =>
      .bind .steady fun r hr => .bind .steady fun q hq => .bind .steady fun _ _ => ?_
    have hQ := h (fun _ e => by cases e) _ r q hr hq
    refine .bind ?_ fun _ _ => .bind (.more (debugCheckAux_more _ _ _ _ _)) fun _ _ => .bind .steady fun _ _ =>
      .bind (.more (debugCheckAux_more _ _ _ _ _)) fun _ _ => .pure
    split
    · exact .bind .steady fun _ _ => .pure
    · split
      · exact .bind .steady fun _ _ => .pure
      · exact .bind (splitAtPositionAux_tracks fuel _ _ _ (fun _ _ => hQ) fun _ _ _ _ _ _ => hQ) fun _ _ =>
          .bind .steady fun _ _ => .bind .steady fun _ _ => .pure

theorem touchAux_tracks {left : RVec α} (hQ : Q left) : ∀ (fuel : Nat) (nd : Node α) (idx : Nat) {f : CM γ α τ} {r : M τ},
    Tracks cp Q f r → (∃ x, nd.getAux fuel idx = .ok x) → Tracks cp Q (nd.touchAux cp left (cp.more + fuel) idx >>= fun _ => f) r
  | 0, _, _, _, _, _, h => by obtain ⟨x, e⟩ := h; cases e
  | fuel + 1, .leaf b, _, _, _, hf, _ => .touch (.inl hQ) hf
  | fuel + 1, .internal s t c, idx, f, r, hf, h => by
    obtain ⟨x, e⟩ := h
    rw [← Nat.add_assoc]
    unfold touchAux
    unfold getAux at e
    rcases h1 : s.positionInfoFor idx with f1 | p
    · rw [h1] at e; cases e
    · rw [h1] at e
      intro hd g
      rw [CM.bind_apply, CM.bind_apply]
      simp only [steady]
      rcases p with _ | ⟨i, j⟩
      · exact hf hd g
      · simp only [ok_bind] at e
        dsimp only
        rcases h2 : c.get i with f2 | o
        · rw [h2] at e; cases e
        · rw [h2] at e
          rcases o with _ | child
          · cases e
          · simp only [ok_bind, unwrap_some] at e
            have := touchAux_tracks hQ fuel child j hf ⟨x, e⟩ hd g
            rw [CM.bind_apply] at this
            rw [CM.bind_apply]
            simp only [steady, unwrap]
            rw [CM.bind_apply]
            exact this

end Node

namespace RVec

/-! ### The length that is written -/

theorem fixupStep_len {v : RVec α} {r : RVec α × Bool} (e : v.fixupStep = .ok r) : r.1.len = v.len := by
  unfold fixupStep at e
  obtain ⟨a, -, e⟩ := bind_ok e
  obtain ⟨b, -, e⟩ := bind_ok e
  dsimp only at e
  generalize (if v.root.level == 1 then RRB_WIDTH else RRB_WIDTH - 2) = least at e
  generalize (if a.slots > b.slots then a.slots - b.slots else b.slots - a.slots) = diff at e
  split at e
  · obtain ⟨q, -, e⟩ := bind_ok e
    cases e; rfl
  · split at e
    · split at e
      · obtain ⟨q, -, e⟩ := bind_ok e
        cases e; rfl
      · obtain ⟨q, -, e⟩ := bind_ok e
        cases e; rfl
    · cases e; rfl

theorem fixupLoop_len : ∀ (fuel : Nat) {v v' : RVec α}, fixupLoop fuel v = .ok v' → v'.len = v.len
  | 0, v, v', e => by
    unfold fixupLoop at e
    split at e
    · cases e
    · cases e; rfl
  | fuel + 1, v, v', e => by
    unfold fixupLoop at e
    split at e
    · obtain ⟨r, hr, e⟩ := bind_ok e
      have := fixupStep_len hr
      split at e
      · rw [fixupLoop_len fuel e, this]
      · cases e; exact this
    · cases e; rfl

theorem popTops_len : ∀ (fuel : Nat) {v v' : RVec α}, popTops fuel v = .ok v' → v'.len = v.len
  | 0, v, v', e => by
    unfold popTops at e
    obtain ⟨b, -, e⟩ := bind_ok e
    split at e
    · cases e
    · cases e; rfl
  | fuel + 1, v, v', e => by
    unfold popTops at e
    obtain ⟨b, -, e⟩ := bind_ok e
    split at e
    · split at e
      · obtain ⟨nd, -, e⟩ := bind_ok e
        exact (popTops_len fuel e).trans rfl
      · obtain ⟨nd, -, e⟩ := bind_ok e
        exact (popTops_len fuel e).trans rfl
    · cases e; rfl

theorem fillSpine_len {v : RVec α} {s : Side} {r : Bool × RVec α} (e : v.fillSpine s = .ok r) : r.2.len = v.len := by
  unfold fillSpine at e
  obtain ⟨q, -, e⟩ := bind_ok e
  cases e
  exact withSpine_len _ _ _

theorem emptyLeaf_len {v v' : RVec α} {s : Side} (e : v.emptyLeaf s = .ok v') : v'.len = v.len := by
  unfold emptyLeaf at e
  obtain ⟨_, -, e⟩ := bind_ok e
  obtain ⟨_, -, e⟩ := bind_ok e
  obtain ⟨_, -, e⟩ := bind_ok e
  obtain ⟨_, -, e⟩ := bind_ok e
  obtain ⟨_, -, e⟩ := bind_ok e
  obtain ⟨_, -, e⟩ := bind_ok e
  obtain ⟨_, -, e⟩ := bind_ok e
  rw [fixupLoop_len _ e, withSpine_len]

theorem fixup_tracks_len (v : RVec α) :
    Tracks cp (fun w => w.len = v.len) (v.fixupSpineTopsC cp) v.fixupSpineTops :=
  fixupLoop_tracks (fun w => w.len = v.len)
    (fun u hu _ _ => fixupStep_tracks u (fun _ _ _ _ _ => .inl hu) (fun _ _ _ _ => .inl hu))
    (fun _ _ hu _ _ e => (fixupStep_len e).trans hu) _ v rfl

theorem emptyLeaf_tracks_len (v : RVec α) (s : Side) :
    Tracks cp (fun w => w.len = v.len) (v.emptyLeafC cp s) (v.emptyLeaf s) := by
  unfold emptyLeafC emptyLeaf
  refine .bind .steady fun _ _ => .bind .steady fun _ _ => .bind .steady fun _ _ => .bind .steady fun _ _ =>
    .bind .steady fun _ _ => .bind .steady fun _ _ => .bind .steady fun r _ => ?_
  exact (fixup_tracks_len _).mono fun w hw => hw.trans (withSpine_len _ _ _)

theorem fillLoop_more (side : Side) (k : Nat) : ∀ (n : Nat) (sp : List (Node α)) (root : Node α),
    Leq (fillLoop side n sp root) (fillLoop side (k + n) sp root)
  | 0, _, _ => .diverge
  | n + 1, sp, root => by
    rw [← Nat.add_assoc]
    unfold fillLoop
    split
    · exact .refl _
    · refine .bind (.refl _) fun r _ => ?_
      split
      · exact fillLoop_more side k n _ _
      · exact fillLoop_more side k n _ _

theorem fillSpine_more (v : RVec α) (k : Nat) (s : Side) : Leq (v.fillSpine s) (v.fillSpineMore k s) :=
  .bind (fillLoop_more _ _ _ _ _) fun _ _ => .refl _

/-- While a part is repaired its length is what it is. -/
theorem repair_tracks_len (v : RVec α) (s : Side) :
    Tracks cp (fun w => w.len = v.len) (v.repairC cp s) (v.repair s) := by
  unfold repairC repair
  refine .bind .steady fun sp _ => ?_
  dsimp only
  refine .bind .steady fun u hu => .bind (.more (fillSpine_more _ _ _)) fun r hr => ?_
  have h1 : u.len = v.len := (popTops_len _ hu).trans (withSpine_len _ _ _)
  have h2 : r.2.len = v.len := (fillSpine_len hr).trans h1
  refine .bind (r := if r.1 then do
      let v ← r.2.fixupSpineTops
      v.emptyLeaf s
    else .ok r.2) ?_ fun y hy => ?_
  · split
    · exact .bind ((fixup_tracks_len _).mono fun w hw => hw.trans h2) fun z hz =>
        (emptyLeaf_tracks_len z s).mono fun w hw => hw.trans ((fixupLoop_len _ hz).trans h2)
    · exact .pure
  · have h3 : y.len = v.len := by
      split at hy
      · obtain ⟨z, hz, hy⟩ := bind_ok hy
        rw [emptyLeaf_len hy, fixupLoop_len _ hz, h2]
      · cases hy; exact h2
    exact (fixup_tracks_len _).mono fun w hw => hw.trans h3

theorem repair_len {v v' : RVec α} {s : Side} (e : v.repair s = .ok v') : v'.len = v.len := by
  unfold repair at e
  obtain ⟨sp, -, e⟩ := bind_ok e
  dsimp only at e
  obtain ⟨u, hu, e⟩ := bind_ok e
  obtain ⟨r, hr, e⟩ := bind_ok e
  obtain ⟨y, hy, e⟩ := bind_ok e
  have h1 : u.len = v.len := (popTops_len _ hu).trans (withSpine_len _ _ _)
  have h2 : r.2.len = v.len := (fillSpine_len hr).trans h1
  rw [fixupLoop_len _ e]
  split at hy
  · obtain ⟨z, hz, hy⟩ := bind_ok hy
    rw [emptyLeaf_len hy, fixupLoop_len _ hz, h2]
  · cases hy; exact h2

theorem cut_len {v : RVec α} {pos : Option (Side × Nat)} {sub k : Nat} {c : RVec α × RVec α} (e : v.cut pos sub k = .ok c) :
    c.1.len = k := by
  unfold cut at e
  obtain ⟨_, -, e⟩ := bind_ok e
  rcases pos with _ | ⟨(_ | _), p⟩
  · obtain ⟨_, -, e⟩ := bind_ok e
    cases e; rfl
  · obtain ⟨_, -, e⟩ := bind_ok e
    obtain ⟨_, -, e⟩ := bind_ok e
    cases e; rfl
  · obtain ⟨_, -, e⟩ := bind_ok e
    obtain ⟨_, -, e⟩ := bind_ok e
    cases e; rfl

/-! ### A vector that has lost nodes of its spines -/

/-- The number of items in some nodes. -/
def itemsIn (l : List (Node α)) : Nat := (l.map fun x => x.toList.length).sum

theorem itemsIn_cons (x : Node α) (l : List (Node α)) : itemsIn (x :: l) = x.toList.length + itemsIn l := by
  simp [itemsIn]

theorem itemsIn_append (a b : List (Node α)) : itemsIn (a ++ b) = itemsIn a + itemsIn b := by
  simp [itemsIn]

theorem findLoop_root : ∀ (L R : List (Node α)) (index i fe bs : Nat), (∀ x ∈ L, ∃ n, x.Wf n) → (∀ x ∈ R, ∃ n, x.Wf n) →
    fe + itemsIn (L.take R.length) ≤ index → index + itemsIn (R.take L.length) < bs →
    findLoop index L R i fe bs = .ok (none, index - (fe + itemsIn (L.take R.length)))
  | [], R, index, i, fe, bs, _, _, h1, h2 => by
    simp [itemsIn] at h1 h2
    simp only [findLoop]
    rw [massert_ok (by simp; omega), usub_ok (by omega)]
    simp [itemsIn]
  | l :: L, [], index, i, fe, bs, _, _, h1, h2 => by
    simp [itemsIn] at h1 h2
    simp only [findLoop]
    rw [massert_ok (by simp; omega), usub_ok (by omega)]
    simp [itemsIn]
  | l :: L, r :: R, index, i, fe, bs, wl, wr, h1, h2 => by
    obtain ⟨n, wn⟩ := wl l (by simp)
    obtain ⟨m, wm⟩ := wr r (by simp)
    simp only [List.length_cons, List.take_succ_cons, itemsIn_cons] at h1 h2
    simp only [findLoop, wn.len, wm.len, ok_bind]
    rw [if_neg (by omega), usub_ok (by omega)]
    simp only [ok_bind]
    rw [if_neg (by omega), findLoop_root L R index (i + 1) _ _ (fun x hx => wl x (by simp [hx])) (fun x hx => wr x (by simp [hx]))
      (by omega) (by omega)]
    simp only [List.length_cons, List.take_succ_cons, itemsIn_cons]
    congr 2
    omega

/-- If there are less items than `len` says, some index is read past the end of the root. -/
theorem get_lost {w : RVec α} {h : Nat} (wl : ∀ x ∈ w.left, ∃ n, x.Wf n) (wr : ∀ x ∈ w.right, ∃ n, x.Wf n)
    (wt : w.root.Wf h)
    (hl : itemsIn (w.left.take w.right.length) + w.root.toList.length + itemsIn (w.right.take w.left.length) < w.len) :
    ∃ i, i < w.len ∧ w.get i = .error .panic := by
  refine ⟨itemsIn (w.left.take w.right.length) + w.root.toList.length, by omega, ?_⟩
  unfold get findNodeInfoForIndex
  rw [if_neg (by omega), findLoop_root _ _ _ _ _ _ wl wr (by omega) (by omega)]
  simp only [ok_bind, nodeAt, Node.get_ok wt]
  rw [List.getElem?_eq_none (by omega)]
  rfl

/-- The vector has lost items: `len` is what it was, but reading some index below it panics. -/
def Lost (v w : RVec α) : Prop := w.len = v.len ∧ ∃ i, i < w.len ∧ w.get i = .error .panic

theorem spine_wf {n : Nat} {sp : List (Node α)} (h : Spine n sp) : ∀ x ∈ sp, ∃ k, x.Wf k := by
  induction sp generalizing n with
  | nil => intro x hx; cases hx
  | cons y ys ih =>
    intro x hx
    rcases List.mem_cons.1 hx with rfl | hx
    · exact ⟨n, h.1⟩
    · exact ih h.2.2 x hx

theorem itemsIn_spine (s : Side) (sp : List (Node α)) : itemsIn sp = (spineList s sp).length := by
  induction sp with
  | nil => cases s <;> simp [itemsIn]
  | cons x xs ih => rw [itemsIn_cons, spineList_cons, ih]; cases s <;> simp [Side.add] <;> omega

theorem length_parts {v : RVec α} : v.toList.length = itemsIn v.left + v.root.toList.length + itemsIn v.right := by
  rw [toList_eq v .front, itemsIn_spine .front, itemsIn_spine .back]
  simp [Side.add]
  omega

theorem itemsIn_take_drop (l : List (Node α)) (p : Nat) (nd : Node α) (h : l[p]? = some nd) :
    itemsIn l = itemsIn (l.take p) + nd.toList.length + itemsIn (l.drop (p + 1)) := by
  obtain ⟨hp, e⟩ := List.getElem?_eq_some_iff.1 h
  conv_lhs => rw [← List.take_append_drop p l, List.drop_eq_getElem_cons hp, e]
  rw [itemsIn_append, itemsIn_cons]
  omega

theorem itemsIn_take_le (l : List (Node α)) (p : Nat) : itemsIn (l.take p) ≤ itemsIn l := by
  conv_rhs => rw [← List.take_append_drop p l, itemsIn_append]
  omega

/-- The cut of a vector that is more than a leaf. -/
theorem cut_tracks {v : RVec α} {h : Nat} (i : InvH v (h + 1)) {k : Nat} (hk : k < v.toList.length)
    {pos : Option (Side × Nat)} {sub : Nat} (hf : Found v k pos sub) :
    Tracks cp (Lost v) (v.cutC cp pos sub k) (v.cut pos sub k) := by
  have hL := i.length .front
  have hR := i.length .back
  have sL := spine_wf (i.spine .front)
  have sR := spine_wf (i.spine .back)
  simp only [spine_front, spine_back] at hL hR sL sR
  have hlen := i.len
  rw [length_parts] at hlen
  unfold cutC cut
  refine .bind .steady fun rest _ => ?_
  cases hf with
  | front A B nd sub e hi hs =>
    have hp : v.left[A.length]? = some nd := by simp [e]
    have hsum := itemsIn_take_drop _ _ _ hp
    have hlt : A.length < v.left.length := by rw [e]; simp
    refine .bind .steady fun node _ => ?_
    refine .bind (Node.splitAtPositionAux_tracks _ _ _ _ ?_ ?_) fun _ _ => .pure
    all_goals
      intros
      refine ⟨rfl, get_lost (fun x hx => sL x (List.mem_of_mem_take hx)) sR i.root ?_⟩
      simp only [List.length_take, List.take_take]
      have h1 := itemsIn_take_le v.left (min v.right.length A.length)
      have h2 := itemsIn_take_le v.right (min A.length v.left.length)
      have h3 : min v.right.length A.length = A.length := by omega
      rw [h3]
      omega
  | root sub hi hs =>
    refine .bind (Node.splitAtPositionAux_tracks _ _ _ _ ?_ ?_) fun _ _ => .pure
    · intro b e
      have := i.root.level
      rw [e] at this
      simp [Node.level] at this
    · intro _ idx r q e1 e2
      obtain ⟨w1, w2, t⟩ := Node.splitAtChild_parts i.root e1
      have h0 : r.2.toList ≠ [] := fun e => Node.popChild_slots e2 (w2.slots_eq_zero.2 e)
      have h1 := List.length_pos_of_ne_nil h0
      refine ⟨rfl, get_lost sL (by simp) w1 ?_⟩
      rw [t] at hlen
      simp [itemsIn] at hlen ⊢
      omega
  | back A B nd sub e hi hs =>
    have hp : v.right[A.length]? = some nd := by simp [e]
    have hsum := itemsIn_take_drop _ _ _ hp
    refine .bind .steady fun node _ => ?_
    refine .bind (Node.splitAtPositionAux_tracks _ _ _ _ ?_ ?_) fun _ _ => .pure
    all_goals
      intros
      refine ⟨rfl, get_lost sL (fun x hx => sR x (List.mem_of_mem_drop hx)) i.root ?_⟩
      dsimp only
      have h1 := itemsIn_take_le v.left (v.right.drop (A.length + 1)).length
      have h2 := itemsIn_take_le (v.right.drop (A.length + 1)) v.left.length
      omega

/-- `split_off` inside a vector that is more than a leaf. -/
theorem splitOff_tall {v : RVec α} {h : Nat} (i : InvH v (h + 1)) (k : Nat) :
    Tracks cp (fun w => Lost v w ∨ (w.len = k ∧ k < v.len)) (v.splitOffC cp k) (v.splitOff k) := by
  unfold splitOffC splitOff
  by_cases h0 : k = 0
  · subst h0
    exact .pure
  have h0' : (k == 0) = false := by simpa using h0
  simp only [h0', Bool.false_eq_true, if_false, ge_iff_le]
  by_cases hk : v.len ≤ k
  · simp only [if_pos hk]
    exact .pure
  simp only [if_neg hk]
  have hlt : k < v.toList.length := by rw [← i.len]; omega
  refine .bind .steady fun info hi => .bind .steady fun p hp => ?_
  have hf : Found v k p.1 p.2 := by
    obtain ⟨pos, sub, e, hf⟩ := findNodeInfo_ok i hlt
    rw [e] at hi
    cases hi
    cases hp
    exact hf
  refine .bind ((cut_tracks i hlt hf).mono fun w => .inl) fun c hc => ?_
  have hcl := cut_len hc
  refine .bind ((repair_tracks_len _ _).mono fun w hw => .inr ⟨hw.trans hcl, by omega⟩) fun a ha => ?_
  exact .bind ((repair_tracks_len _ _).leaving (.inr ⟨(repair_len ha).trans hcl, by omega⟩)) fun b _ => .pure

/-- A leaf that is all of a vector needs no repair. -/
theorem repair_leaf (v : RVec α) (s : Side) (hl : v.left = []) (hr : v.right = []) (hw : v.root.Wf 0) :
    Tracks cp Q (v.repairC cp s) (v.repair s) := by
  unfold repairC repair
  refine .bind .steady fun sp hsp => ?_
  have : sp = [] := by
    cases s <;> simp only [spine_front, spine_back, hl, hr, dropEmpty] at hsp <;> cases hsp <;> rfl
  subst this
  have hv : v.withSpine s [] = v := by
    obtain ⟨l, r, t, n⟩ := v
    simp only at hl hr
    subst hl hr
    cases s <;> rfl
  dsimp only
  rw [hv]
  refine .bind .steady fun u hu => ?_
  have hu' : u = v := by
    obtain ⟨l, r, t, n⟩ := v
    simp only at hl hr
    subst hl hr
    rw [show (⟨[], [], t, n⟩ : RVec α).left.length + (⟨[], [], t, n⟩ : RVec α).right.length + 1 = 0 + 1 from rfl, popTops] at hu
    obtain ⟨b, -, hu⟩ := bind_ok hu
    split at hu
    · cases hu
    · cases hu; rfl
  subst hu'
  refine .bind (.more (fillSpine_more _ _ _)) fun r hr' => ?_
  obtain ⟨x, b, hb, -⟩ := Node.wf_zero.1 hw
  have hr2 : r.1 = false ∧ r.2 = u := by
    have hsp : u.spine s = [] := by cases s <;> simp [hl, hr]
    unfold fillSpine at hr'
    rw [hsp] at hr'
    unfold fillLoop at hr'
    simp only [List.head?_nil, Option.getD_none, hb] at hr'
    cases hr'
    refine ⟨by simp, ?_⟩
    rw [← hb]
    exact hv
  rw [hr2.1, hr2.2]
  simp only [Bool.false_eq_true, if_false]
  refine .bind .pure fun y hy => ?_
  cases hy
  unfold fixupSpineTopsC fixupSpineTops fixupLoopC fixupLoop
  have : (u.root.slots == 0 && !u.root.isLeaf) = false := by rw [hw.isLeaf]; simp
  simp only [this, Bool.false_eq_true, if_false]
  exact .pure

/-- `split_off` of a vector that is a leaf. -/
theorem splitOff_leaf {v : RVec α} (i : InvH v 0) (k : Nat) :
    Tracks cp (fun w => w = v) (v.splitOffC cp k) (v.splitOff k) := by
  have hl := List.eq_nil_of_length_eq_zero (i.length .front)
  have hr := List.eq_nil_of_length_eq_zero (i.length .back)
  simp only [spine_front, spine_back] at hl hr
  unfold splitOffC splitOff
  by_cases h0 : k = 0
  · subst h0
    exact .pure
  have h0' : (k == 0) = false := by simpa using h0
  simp only [h0', Bool.false_eq_true, if_false, ge_iff_le]
  by_cases hk : v.len ≤ k
  · simp only [if_pos hk]
    exact .pure
  simp only [if_neg hk]
  have hlt : k < v.toList.length := by rw [← i.len]; omega
  refine .bind .steady fun info hi => .bind .steady fun p hp => ?_
  have hp' : p = (none, k) := by
    unfold findNodeInfoForIndex at hi
    rw [if_neg hk, hl] at hi
    simp only [findLoop] at hi
    rw [massert_ok (by simp; omega), usub_ok (by omega)] at hi
    cases hi
    cases hp
    rfl
  subst hp'
  have hroot : k < v.root.toList.length := by
    have : v.toList = v.root.toList := by simp [RVec.toList, hl, hr]
    rwa [← this]
  obtain ⟨a, b, e, wa, wb, -⟩ := Node.splitAtPosition_ok i.root hroot
  refine .bind (r := v.cut none k k) ?_ fun c hc => ?_
  · unfold cutC cut
    refine .bind .steady fun rest _ => .bind (Node.splitAtPositionAux_tracks _ _ _ _ ?_ ?_) fun _ _ => .pure
    · intro _ _
      obtain ⟨l, r, t, n⟩ := v
      simp only at hr
      subst hr
      rfl
    · intro hn
      obtain ⟨x, b, hb, -⟩ := Node.wf_zero.1 i.root
      exact absurd hb (hn b)
  · have h1 : c.1.left = [] ∧ c.1.right = [] ∧ c.1.root = a ∧ c.2.left = [] ∧ c.2.right = [] ∧ c.2.root = b := by
      unfold cut at hc
      obtain ⟨_, -, hc⟩ := bind_ok hc
      simp only [e, ok_bind] at hc
      cases hc
      exact ⟨hl, rfl, rfl, rfl, hr, rfl⟩
    obtain ⟨c1, c2, c3, c4, c5, c6⟩ := h1
    refine .bind (repair_leaf _ _ c1 c2 (c3 ▸ wa)) fun a _ => ?_
    exact .bind ((repair_leaf (Q := fun _ => False) _ _ c4 c5 (c6 ▸ wb)).leaving_silent) fun _ _ => .pure

/-! ### Calls that return what they return otherwise -/

theorem leaving_any {m : CM γ α τ} {r : M τ} {w : RVec α} (h : Tracks cp (fun _ => True) m r) :
    Tracks cp (fun _ => True) (leaving w m) r := h.leaving trivial

theorem repair_any (v : RVec α) (s : Side) : Tracks cp (fun _ => True) (v.repairC cp s) (v.repair s) :=
  (repair_tracks_len v s).mono fun _ _ => trivial

theorem cut_any (v : RVec α) (pos : Option (Side × Nat)) (sub k : Nat) :
    Tracks cp (fun _ => True) (v.cutC cp pos sub k) (v.cut pos sub k) := by
  unfold cutC cut
  refine .bind .steady fun _ _ => ?_
  rcases pos with _ | ⟨(_ | _), p⟩
  · exact .bind (Node.splitAtPositionAux_tracks _ _ _ _ (fun _ _ => trivial) fun _ _ _ _ _ _ => trivial) fun _ _ => .pure
  · exact .bind .steady fun _ _ =>
      .bind (Node.splitAtPositionAux_tracks _ _ _ _ (fun _ _ => trivial) fun _ _ _ _ _ _ => trivial) fun _ _ => .pure
  · exact .bind .steady fun _ _ =>
      .bind (Node.splitAtPositionAux_tracks _ _ _ _ (fun _ _ => trivial) fun _ _ _ _ _ _ => trivial) fun _ _ => .pure

theorem splitOff_any (v : RVec α) (k : Nat) : Tracks cp (fun _ => True) (v.splitOffC cp k) (v.splitOff k) := by
  unfold splitOffC splitOff
  split
  · exact .pure
  split
  · exact .pure
  exact .bind .steady fun _ _ => .bind .steady fun _ _ => .bind (cut_any _ _ _ _) fun _ _ =>
    .bind (repair_any _ _) fun _ _ => .bind (leaving_any (repair_any _ _)) fun _ _ => .pure

theorem raiseSelf_any : ∀ (fuel t : Nat) (v : RVec α),
    Tracks cp (fun _ => True) (raiseSelfC cp fuel t v) (raiseSelf fuel t v)
  | 0, t, v => by
    unfold raiseSelfC raiseSelf
    split
    · exact .steady
    · exact .pure
  | fuel + 1, t, v => by
    unfold raiseSelfC raiseSelf
    split
    · exact .bind .steady fun _ _ => .bind (.share (.inl trivial) (.inl trivial)) fun _ _ => raiseSelf_any fuel t _
    · exact .pure

theorem raiseOther_tracks {w : RVec α} (hw : Q w) : ∀ (fuel t : Nat) (v : RVec α),
    Tracks cp Q (raiseOtherC cp w fuel t v) (raiseOther fuel t v)
  | 0, t, v => by
    unfold raiseOtherC raiseOther
    split
    · exact .steady
    · exact .pure
  | fuel + 1, t, v => by
    unfold raiseOtherC raiseOther
    split
    · exact .bind .steady fun _ _ => .bind (.share (.inl hw) (.inl hw)) fun _ _ => raiseOther_tracks hw fuel t _
    · exact .pure

theorem stealLoop_tracks {w : RVec α} (hw : Q w) : ∀ (fuel : Nat) (a b : Node α),
    Tracks cp Q (stealLoopC cp w (cp.more + fuel) a b) (stealLoop fuel a b)
  | 0, a, b => by
    cases cp.more + 0 <;>
    · unfold stealLoopC stealLoop
      refine .bind .steady fun _ _ => .bind .steady fun _ _ => ?_
      split
      · exact .diverge
      · exact .pure
  | fuel + 1, a, b => by
    rw [← Nat.add_assoc]
    unfold stealLoopC stealLoop
    refine .bind .steady fun _ _ => .bind .steady fun _ _ => ?_
    split
    · refine .bind .steady fun _ _ => .bind (.share (.inl hw) (.inl hw)) fun _ _ => .bind .steady fun _ _ =>
        .bind ?_ fun _ _ => stealLoop_tracks hw fuel _ _
      split
      · exact .steady
      · exact .pure
    · exact .pure

theorem packLoop_tracks {w : RVec α} (hw : Q w) : ∀ (fuel i j : Nat) (c : CB (Node α)),
    Tracks cp Q (Node.packLoopC cp w (cp.more + fuel) i j c) (Node.packLoop fuel i j c)
  | 0, i, j, c => by
    cases cp.more + 0 <;>
    · unfold Node.packLoopC Node.packLoop
      split
      · exact .diverge
      · exact .pure
  | fuel + 1, i, j, c => by
    rw [← Nat.add_assoc]
    unfold Node.packLoopC Node.packLoop
    split
    · split
      · exact packLoop_tracks hw fuel _ _ _
      · exact .bind .steady fun _ _ => .bind .steady fun _ _ => .bind .steady fun _ _ => .touch (.inl hw) <| .touch (.inl hw) <|
          .bind .steady fun _ _ => .bind .steady fun _ _ => .bind .steady fun _ _ => .bind .steady fun _ _ =>
          .bind .steady fun _ _ => packLoop_tracks hw fuel _ _ _
    · exact .pure

theorem packChildren_tracks {w : RVec α} (hw : Q w) (nd : Node α) :
    Tracks cp Q (nd.packChildrenC cp w) nd.packChildren := by
  cases nd with
  | leaf b =>
    unfold Node.packChildrenC Node.packChildren
    exact .steady
  | internal s t c =>
    unfold Node.packChildrenC Node.packChildren
    refine .bind .steady fun _ _ => ?_
    split
    · exact .pure
    · exact .bind .steady fun _ _ => .bind .steady fun _ _ => .bind (packLoop_tracks hw _ _ _ _) fun _ _ =>
        .bind .steady fun _ _ => .bind .steady fun _ _ => .bind .steady fun _ _ => .bind .steady fun _ _ => .pure

theorem joinLevel_tracks {w : RVec α} (hw : Q w) (a b : Node α) :
    Tracks cp Q (joinLevelC cp w a b) (joinLevel a b) :=
  .bind (packChildren_tracks hw _) fun _ _ => .bind .steady fun _ _ => .bind (stealLoop_tracks hw _ _ _) fun _ _ =>
    .bind .steady fun _ _ => .bind (packChildren_tracks hw _) fun _ _ => .bind .steady fun _ _ => .pure

theorem appendLoop_tracks {put : List (Node α) → Node α → RVec α} (hw : ∀ sp t, Q (put sp t)) :
    ∀ (n : Nat) (ls ol : List (Node α)) (root oroot : Node α),
    Tracks cp Q (appendLoopC cp put n ls ol root oroot) (appendLoop n ls ol root oroot)
  | 0, [], ol, root, oroot => .bind .steady fun _ _ => .pure
  | _ + 1, [], ol, root, oroot => .bind .steady fun _ _ => .pure
  | 0, _ :: _, _, _, _ => .steady
  | n + 1, l :: ls, ol, root, oroot =>
    .bind .steady fun _ _ => .bind (joinLevel_tracks (hw _ _) _ _) fun _ _ => .bind .steady fun _ _ =>
      .bind .steady fun _ _ => appendLoop_tracks hw n _ _ _ _

theorem appendMain_any (v other : RVec α) :
    Tracks cp (fun _ => True) (appendMainC cp v other) (appendMain v other) := by
  unfold appendMainC appendMain
  exact .bind .steady fun _ _ => .bind (raiseSelf_any _ _ _) fun _ _ => .bind (raiseOther_tracks trivial _ _ _) fun _ _ =>
    .bind .steady fun _ _ => .bind .steady fun _ _ => .bind .steady fun _ _ => .bind .steady fun _ _ =>
    .bind (appendLoop_tracks (fun _ _ => trivial) _ _ _ _ _) fun _ _ => .bind (.share (.inl trivial) (.inl trivial)) fun _ _ =>
    .bind .steady fun _ _ => .bind .steady fun _ _ => .bind .steady fun _ _ => .bind .steady fun _ _ => .steady

theorem append_any (v other : RVec α) : Tracks cp (fun _ => True) (v.appendC cp other) (v.append other) := by
  unfold appendC append
  split
  · exact .pure
  split
  · exact .pure
  split
  · exact .bind (popSide_any _ _) fun _ _ => .bind .steady fun _ _ => leaving_any (pushSide_any _ _ _)
  split
  · exact .bind (leaving_any (popSide_any _ _)) fun _ _ => .bind .steady fun _ _ => pushSide_any _ _ _
  exact appendMain_any _ _

theorem extractSlice_any (v : RVec α) (a b : Bound) :
    Tracks cp (fun _ => True) (v.extractSliceC cp a b) (v.extractSlice a b) :=
  .bind .steady fun _ _ => .bind .steady fun _ _ => .bind (splitOff_any _ _) fun _ _ => .bind (splitOff_any _ _) fun _ _ =>
    .bind (append_any _ _) fun _ _ => .pure

theorem insert_any (v : RVec α) (k : Nat) (x : α) : Tracks cp (fun _ => True) (v.insertC cp k x) (v.insert k x) :=
  .bind (splitOff_any _ _) fun _ _ => .bind (pushSide_any _ _ _) fun _ _ => append_any _ _

theorem remove_any (v : RVec α) (k : Nat) : Tracks cp (fun _ => True) (v.removeC cp k) (v.remove k) := by
  unfold removeC remove
  split
  · exact .bind (splitOff_any _ _) fun _ _ => .bind (leaving_any (popSide_any _ _)) fun _ _ =>
      .bind (append_any _ _) fun _ _ => .pure
  · exact .pure

/-! ### Joining short vectors -/

/-- Two vectors that are leaves: nothing is moved before both are borrowed. -/
theorem append_leaves {v other : RVec α} (i : InvH v 0) (j : InvH other 0) (h1 : v.len ≠ 1) (h2 : other.len ≠ 1) :
    Tracks cp (fun w => w = v) (v.appendC cp other) (v.append other) := by
  obtain ⟨l, r, t, n⟩ := v
  obtain ⟨l', r', t', n'⟩ := other
  have a1 := List.eq_nil_of_length_eq_zero (i.length .front)
  have a2 := List.eq_nil_of_length_eq_zero (i.length .back)
  have a3 := List.eq_nil_of_length_eq_zero (j.length .front)
  have a4 := List.eq_nil_of_length_eq_zero (j.length .back)
  simp only [spine_front, spine_back] at a1 a2 a3 a4 h1 h2
  subst a1 a2 a3 a4
  unfold appendC append
  split
  · exact .pure
  split
  · exact .pure
  have e1 : (n == 1) = false := by simpa using h1
  have e2 : (n' == 1) = false := by simpa using h2
  simp only [e1, e2, Bool.false_eq_true, if_false]
  unfold appendMainC appendMain
  refine .bind .steady fun _ _ => .bind (r := .ok (⟨[], [], t, n⟩ : RVec α)) .pure fun a ha => ?_
  cases ha
  refine .bind (r := .ok (⟨[], [], t', n'⟩ : RVec α)) .pure fun a ha => ?_
  cases ha
  refine .bind .steady fun _ _ => .bind .steady fun _ _ => .bind .steady fun r hr => .bind .steady fun s hs => ?_
  cases hr
  cases hs
  refine .bind (r := .ok (t, t')) (.bind .steady fun _ _ => .pure) fun q hq => ?_
  cases hq
  exact .bind (.share (.inl rfl) (.inl rfl)) fun _ _ =>
    .bind .steady fun _ _ => .bind .steady fun _ _ => .bind .steady fun _ _ => .bind .steady fun _ _ => .steady

/-- `pop` of a leaf leaves `len - 1`. -/
theorem pop_leaf_len (v : RVec α) (s : Side) (h : v.spine s = []) :
    Tracks cp (fun w => w.len = v.len - 1) (v.popSideC cp s) (v.popSide s) := by
  unfold popSideC popSide
  rw [h]
  refine .bind .steady fun _ _ => ?_
  simp only [List.isEmpty_nil, if_true]
  refine .bind .steady fun _ _ => ?_
  split
  · refine .bind .steady fun n hn => .touch (.inl ?_) <| .bind .steady fun _ _ => .pure
    unfold usub at hn
    split at hn
    · cases hn; rfl
    · cases hn
  · exact .pure

/-- The one item of a vector is taken out before it is pushed to the other one. -/
theorem append_one {v : RVec α} {h : Nat} (i : InvH v h) (h1 : v.len = 1) (other : RVec α) :
    Tracks cp (fun w => w.len = 0) (v.appendC cp other) (v.append other) := by
  have h0 : h = 0 := by
    rcases Nat.eq_zero_or_pos h with e | e
    · exact e
    · have := InvH.two_le i e
      rw [← i.len] at this
      omega
  subst h0
  unfold appendC append
  split
  · exact .pure
  split
  · exact .pure
  have e1 : (v.len == 1) = true := by simpa using h1
  simp only [e1, if_true]
  have hr := List.eq_nil_of_length_eq_zero (i.length .back)
  refine .bind ((pop_leaf_len v .back hr).mono fun w hw => by omega) fun r hr => .bind .steady fun x _ => ?_
  obtain ⟨x, hx⟩ : ∃ x, v.toList = [x] := List.length_eq_one_iff.1 (by rw [← i.len]; exact h1)
  obtain ⟨v', _, e, i', t, -⟩ := popSide_ok i .back (x := x) (l := []) hx
  have : r = (some x, v') := Except.ok.inj (hr.symm.trans e)
  subst this
  exact (pushSide_any _ _ _).leaving (by rw [i'.len, t]; rfl)

/-- `insert` before the first item: all items are in a local variable. -/
theorem insert_first (v : RVec α) (x : α) :
    Tracks cp (fun w => w.len = 0) (v.insertC cp 0 x) (v.insert 0 x) := by
  refine .bind (r := v.splitOff 0) .pure fun r hr => ?_
  cases hr
  obtain ⟨u, _, e, i, t, -⟩ := pushSide_ok (new_inv (α := α)) .back x (by rw [new_toList]; simp)
  refine .bind (r := (RVec.new : RVec α).pushBack x) ?_ fun y hy => ?_
  · unfold pushBackC pushBack pushSideC pushSide
    refine .bind .steady fun f hf => ?_
    have : f = 64 := by cases hf; rfl
    subst this
    refine .bind (r := .ok RVec.new) .pure fun z hz => ?_
    cases hz
    exact .touch (.inr (.inl rfl)) <| .bind .steady fun _ _ => .bind .steady fun _ _ => .pure
  · have : y = u := Except.ok.inj (hy.symm.trans e)
    subst this
    exact append_one i (by rw [i.len, t, new_toList]; rfl) v

/-! ### The length that is left -/

/-- What `complete_leaf` leaves has the length of the vector. -/
theorem completeLeaf_tracks_len (v : RVec α) (s : Side) :
    Tracks cp (fun w => w.len = v.len) (v.completeLeafC cp s) (v.completeLeaf s) := by
  unfold completeLeafC completeLeaf
  refine .bind .steady fun _ _ => .bind .steady fun _ _ => .bind .steady fun _ _ => .bind .steady fun r _ => ?_
  dsimp only
  split
  · exact .bind .steady fun _ _ => .bind (.share (.inl (withSpine_len _ _ _)) (.inl (withSpine_len _ _ _))) fun _ _ => .pure
  · split
    · exact (fixup_tracks_len _).mono fun w hw => hw.trans (withSpine_len _ _ _)
    · exact .pure

theorem completeLeaf_len {v v' : RVec α} {s : Side} (e : v.completeLeaf s = .ok v') : v'.len = v.len := by
  unfold completeLeaf at e
  obtain ⟨_, -, e⟩ := bind_ok e
  obtain ⟨_, -, e⟩ := bind_ok e
  obtain ⟨_, -, e⟩ := bind_ok e
  obtain ⟨r, -, e⟩ := bind_ok e
  dsimp only at e
  split at e
  · obtain ⟨_, -, e⟩ := bind_ok e
    obtain ⟨_, -, e⟩ := bind_ok e
    cases e
    rw [withSpine_len, withSpine_len]
  · split at e
    · exact (fixupLoop_len _ e).trans (withSpine_len _ _ _)
    · cases e
      exact withSpine_len _ _ _

/-- What `push_side` leaves is at most one longer than the vector. -/
theorem pushSide_tracks_len (v : RVec α) (s : Side) (x : α) :
    Tracks cp (fun w => w.len ≤ v.len + 1) (v.pushSideC cp s x) (v.pushSide s x) := by
  unfold pushSideC pushSide
  refine .bind .steady fun free _ => .bind ?_ fun u hu => ?_
  · split
    · exact (completeLeaf_tracks_len v s).mono fun w hw => by omega
    · exact .pure
  · have hl : u.len = v.len := by
      split at hu
      · exact completeLeaf_len hu
      · cases hu; rfl
    refine .touch (.inl (by omega)) (.bind .steady fun nd _ => .bind .steady fun len hlen => ?_)
    have : len = u.len + 1 := by
      unfold uadd at hlen
      split at hlen
      · cases hlen; rfl
      · cases hlen
    dsimp only
    split
    · refine (fixup_tracks_len _).mono fun w hw => ?_
      have : w.len = len := hw
      omega
    · exact .pure

theorem raiseSelf_tracks_len : ∀ (fuel t : Nat) (v : RVec α),
    Tracks cp (fun w => w.len = v.len) (raiseSelfC cp fuel t v) (raiseSelf fuel t v)
  | 0, t, v => by
    unfold raiseSelfC raiseSelf
    split
    · exact .steady
    · exact .pure
  | fuel + 1, t, v => by
    unfold raiseSelfC raiseSelf
    split
    · exact .bind .steady fun _ _ => .bind (.share (.inl rfl) (.inl rfl)) fun _ _ => raiseSelf_tracks_len fuel t _
    · exact .pure

theorem raiseSelf_len : ∀ (fuel t : Nat) {v r : RVec α}, raiseSelf fuel t v = .ok r → r.len = v.len
  | 0, t, v, r, e => by
    unfold raiseSelf at e
    split at e
    · cases e
    · cases e; rfl
  | fuel + 1, t, v, r, e => by
    unfold raiseSelf at e
    split at e
    · obtain ⟨nr, h1, e⟩ := bind_ok e
      obtain ⟨q, -, e⟩ := bind_ok e
      exact (raiseSelf_len fuel t e).trans rfl
    · cases e; rfl

theorem withLeafNode_len (v : RVec α) (s : Side) (nd : Node α) : (v.withLeafNode s nd).len = v.len := by
  unfold withLeafNode
  split
  · rfl
  · exact withSpine_len _ _ _

/-- What `pop_side` leaves is not longer than the vector. -/
theorem popSide_tracks_len (v : RVec α) (s : Side) :
    Tracks cp (fun w => w.len ≤ v.len) (v.popSideC cp s) (v.popSide s) := by
  unfold popSideC popSide
  refine .bind .steady fun _ _ => ?_
  split
  · refine .bind .steady fun e _ => ?_
    split
    · refine .bind .steady fun n hn => .touch (.inl ?_) (.bind .steady fun _ _ => .pure)
      unfold usub at hn
      split at hn
      · cases hn
        exact Nat.sub_le _ _
      · cases hn
    · exact .pure
  · refine .touch (.inl (Nat.le_refl _)) (.bind .steady fun r _ => .bind .steady fun e _ => .bind ?_ fun v _ =>
      .bind .steady fun _ _ => .pure)
    split
    · exact (emptyLeaf_tracks_len _ s).mono fun w hw => Nat.le_of_eq (hw.trans (withLeafNode_len _ _ _))
    · split
      · exact (fixup_tracks_len _).mono fun w hw => Nat.le_of_eq (hw.trans (withLeafNode_len _ _ _))
      · exact .pure

theorem popSide_len {v : RVec α} {s : Side} {r : Option α × RVec α} (e : v.popSide s = .ok r) : r.2.len ≤ v.len := by
  unfold popSide at e
  obtain ⟨_, -, e⟩ := bind_ok e
  have hsub : ∀ {a b c : Nat}, usub a b = .ok c → c ≤ a := fun {a b c} h => by
    unfold usub at h
    split at h
    · cases h
      exact Nat.sub_le _ _
    · cases h
  split at e
  · obtain ⟨_, -, e⟩ := bind_ok e
    split at e
    · obtain ⟨n, hn, e⟩ := bind_ok e
      obtain ⟨_, -, e⟩ := bind_ok e
      cases e
      exact hsub hn
    · cases e
      exact Nat.le_refl _
  · obtain ⟨q, -, e⟩ := bind_ok e
    obtain ⟨_, -, e⟩ := bind_ok e
    obtain ⟨u, hu, e⟩ := bind_ok e
    obtain ⟨n, hn, e⟩ := bind_ok e
    cases e
    refine Nat.le_trans (hsub hn) (Nat.le_of_eq ?_)
    split at hu
    · rw [emptyLeaf_len hu, withLeafNode_len]
    · split at hu
      · rw [fixupLoop_len _ hu, withLeafNode_len]
      · cases hu
        rw [withLeafNode_len]

/-- What `append` leaves has at most the length of the vector, unless there is one item to append, which is pushed. -/
theorem append_tracks_len (v other : RVec α) :
    Tracks cp (fun w => w.len ≤ v.len ∨ other.len = 1 ∧ w.len ≤ v.len + 1) (v.appendC cp other) (v.append other) := by
  unfold appendC append
  split
  · exact .pure
  split
  · exact .pure
  split
  · rename_i h1
    have h1 : v.len = 1 := by simpa using h1
    refine .bind (popSide_tracks_len v .back |>.mono fun w hw => .inl hw) fun r hr => .bind .steady fun _ _ =>
      (pushSide_any _ _ _).leaving (.inl (popSide_len hr))
  split
  · rename_i h1
    have h1 : other.len = 1 := by simpa using h1
    exact .bind ((popSide_any _ _).leaving (.inl (Nat.le_refl _))) fun _ _ => .bind .steady fun _ _ =>
      (pushSide_tracks_len _ _ _).mono fun w hw => .inr ⟨h1, hw⟩
  unfold appendMainC appendMain
  refine .bind .steady fun _ _ => .bind ((raiseSelf_tracks_len _ _ _).mono fun w hw => .inl (by omega)) fun u hu => ?_
  have hl := raiseSelf_len _ _ hu
  exact .bind (raiseOther_tracks (.inl (by omega)) _ _ _) fun _ _ =>
    .bind .steady fun _ _ => .bind .steady fun _ _ => .bind .steady fun _ _ => .bind .steady fun _ _ =>
    .bind (appendLoop_tracks (fun _ _ => .inl (by simp only; omega)) _ _ _ _ _) fun _ _ =>
    .bind (.share (.inl (.inl (by simp only; omega))) (.inl (.inl (by simp only; omega)))) fun _ _ =>
    .bind .steady fun _ _ => .bind .steady fun _ _ => .bind .steady fun _ _ => .bind .steady fun _ _ => .steady

/-- What `split_off` leaves: a leaf as it was, or a vector that has lost items. -/
theorem splitOff_tracks {v : RVec α} {h : Nat} (i : InvH v h) (k : Nat) :
    Tracks cp (fun w => w = v ∧ h = 0 ∨ Lost v w ∨ w.len < v.len) (v.splitOffC cp k) (v.splitOff k) := by
  cases h with
  | zero => exact (splitOff_leaf i k).mono fun w hw => .inl ⟨hw, rfl⟩
  | succ h => exact (splitOff_tall i k).mono fun w hw => .inr (hw.imp id fun q => by omega)

/-- What `remove` leaves: a leaf as it was, or a vector that has lost items. -/
theorem remove_tracks {v : RVec α} {h : Nat} (i : InvH v h) (k : Nat) :
    Tracks cp (fun w => w = v ∧ h = 0 ∨ Lost v w ∨ w.len < v.len) (v.removeC cp k) (v.remove k) := by
  unfold removeC remove
  split
  · rename_i hk
    obtain ⟨a, c, _, _, e, ia, ic, ta, tc, -, -⟩ := splitOff_ok i k
    refine .bind (splitOff_tracks i k) fun r hr => ?_
    have : r = (a, c) := Except.ok.inj (hr.symm.trans e)
    subst this
    have la : a.len = k := by rw [ia.len, ta, List.length_take, ← i.len]; omega
    have lc : c.len = v.len - k := by rw [ic.len, tc, List.length_drop, ← i.len]
    refine .bind ((popSide_any _ _).leaving (.inr (.inr (by simp only; omega)))) fun q hq => ?_
    have hc : c.toList ≠ [] := fun e => by rw [ic.len, e] at lc; simp at lc; omega
    obtain ⟨x, t, ht⟩ := List.exists_cons_of_ne_nil hc
    obtain ⟨c', _, e', ic', tc', -⟩ := popSide_ok ic .front (x := x) (l := t) ht
    have : q = (some x, c') := Except.ok.inj (hq.symm.trans e')
    subst this
    have lc' : c'.len = v.len - k - 1 := by
      rw [ic'.len, tc', ← lc, ic.len, ht]; simp
    exact .bind ((append_tracks_len _ _).mono fun w hw => .inr (.inr (by
      simp only at hw
      omega))) fun _ _ => .pure
  · exact .pure

/-- What `insert` leaves, unless the place is the last but one. -/
theorem insert_tracks {v : RVec α} {h : Nat} (i : InvH v h) (k : Nat) (x : α) (hk : k + 1 < v.len) (hlt : v.len < USIZE_LIMIT) :
    Tracks cp (fun w => w = v ∧ h = 0 ∨ Lost v w ∨ w.len < v.len) (v.insertC cp k x) (v.insert k x) := by
  unfold insertC insert
  obtain ⟨a, c, _, _, e, ia, ic, ta, tc, -, -⟩ := splitOff_ok i k
  refine .bind (splitOff_tracks i k) fun r hr => ?_
  have : r = (a, c) := Except.ok.inj (hr.symm.trans e)
  subst this
  have la : a.len = k := by rw [ia.len, ta, List.length_take, ← i.len]; omega
  have lc : c.len = v.len - k := by rw [ic.len, tc, List.length_drop, ← i.len]
  refine .bind ((pushSide_tracks_len _ _ _).mono fun w hw => .inr (.inr (by simp only at hw; omega))) fun u hu => ?_
  obtain ⟨u', _, e', iu, tu, -⟩ := pushSide_ok ia .back x (by rw [← ia.len]; omega)
  have : u = u' := Except.ok.inj (hu.symm.trans e')
  subst this
  have lu : u.len = k + 1 := by rw [iu.len, tu, ← la, ia.len]; simp [Side.cons]
  exact (append_tracks_len _ _).mono fun w hw => .inr (.inr (by
      simp only at hw
      omega))

/-- What `extract_slice` leaves if there are items in the slice. -/
theorem extractSlice_tracks {v : RVec α} {h : Nat} (i : InvH v h) {sb eb : Bound} {p q : Nat} (hs : rangeStart sb = .ok p)
    (he : rangeEnd v.len eb = .ok q) (hp : p < q) (hq : q ≤ v.len) :
    Tracks cp (fun w => w = v ∧ h = 0 ∨ Lost v w ∨ w.len < v.len) (v.extractSliceC cp sb eb) (v.extractSlice sb eb) := by
  unfold extractSliceC extractSlice
  refine .bind .steady fun p' hs' => .bind .steady fun q' he' => ?_
  have : p' = p := Except.ok.inj (hs'.symm.trans hs)
  subst this
  have : q' = q := Except.ok.inj (he'.symm.trans he)
  subst this
  obtain ⟨a, c, ha, _, e, ia, ic, ta, tc, hha, -⟩ := splitOff_ok i q'
  refine .bind (splitOff_tracks i q') fun r hr => ?_
  have : r = (a, c) := Except.ok.inj (hr.symm.trans e)
  subst this
  have la : a.len = q' := by rw [ia.len, ta, List.length_take, ← i.len]; omega
  have lc : c.len = v.len - q' := by rw [ic.len, tc, List.length_drop, ← i.len]
  obtain ⟨a', s, _, _, e', ia', is, ta', ts, -, -⟩ := splitOff_ok ia p'
  have la' : a'.len = p' := by rw [ia'.len, ta', List.length_take, ← ia.len]; omega
  refine .bind ?_ fun r' hr' => ?_
  · by_cases hv : q' = v.len
    · have : a = v := by
        unfold splitOff at e
        rw [if_neg (by simp; omega), if_pos (by omega)] at e
        cases e; rfl
      subst this
      exact splitOff_tracks i p'
    · refine (splitOff_tracks ia p').mono fun w hw => .inr (.inr ?_)
      rcases hw with ⟨rfl, -⟩ | ⟨hw, -⟩ | hw <;> omega
  have : r' = (a', s) := Except.ok.inj (hr'.symm.trans e')
  subst this
  exact .bind ((append_tracks_len _ _).mono fun w hw => .inr (.inr (by
      simp only at hw
      omega))) fun _ _ => .pure

/-- A cut at the end clones nothing. -/
theorem splitOff_end {v : RVec α} {k : Nat} (hk : v.len ≤ k) : Tracks cp Q (v.splitOffC cp k) (v.splitOff k) := by
  unfold splitOffC splitOff
  split
  · exact .pure
  · exact .pure

/-- What `extract_slice` leaves if there are no items in the slice, unless it is before the last item. -/
theorem extractSlice_empty_tracks {v : RVec α} {h : Nat} (i : InvH v h) {sb eb : Bound} {p q : Nat} (hs : rangeStart sb = .ok p)
    (he : rangeEnd v.len eb = .ok q) (hp : q ≤ p) (hq : q + 1 ≠ v.len) :
    Tracks cp (fun w => w = v ∧ h = 0 ∨ Lost v w ∨ w.len < v.len) (v.extractSliceC cp sb eb) (v.extractSlice sb eb) := by
  unfold extractSliceC extractSlice
  refine .bind .steady fun p' hs' => .bind .steady fun q' he' => ?_
  have : p' = p := Except.ok.inj (hs'.symm.trans hs)
  subst this
  have : q' = q := Except.ok.inj (he'.symm.trans he)
  subst this
  obtain ⟨a, c, ha, _, e, ia, ic, ta, tc, hha, -⟩ := splitOff_ok i q'
  refine .bind (splitOff_tracks i q') fun r hr => ?_
  have : r = (a, c) := Except.ok.inj (hr.symm.trans e)
  subst this
  have la : a.len = min q' v.len := by rw [ia.len, ta, List.length_take, ← i.len]
  have lc : c.len = v.len - q' := by rw [ic.len, tc, List.length_drop, ← i.len]
  obtain ⟨a', s, _, _, e', ia', is, ta', ts, -, -⟩ := splitOff_ok ia p'
  have la' : a'.len = a.len := by rw [ia'.len, ta', List.length_take, ← ia.len]; omega
  refine .bind (splitOff_end (by simp only; omega)) fun r' hr' => ?_
  have : r' = (a', s) := Except.ok.inj (hr'.symm.trans e')
  subst this
  refine .bind ?_ fun _ _ => .pure
  by_cases hv : q' < v.len
  · exact (append_tracks_len _ _).mono fun w hw => .inr (.inr (by simp only at hw; omega))
  · have h0 : c.isEmpty = true := by simp [isEmpty]; omega
    unfold appendC append
    split
    · exact .pure
    · exact .pure

/-! ### Joining tall vectors -/

/-- Nodes that are not leaves. -/
def Inner (nd : Node α) : Prop := ∃ s t c, nd = .internal s t c

theorem Inner.share {left : RVec α} {src dst : Node α} {side : Side} {n : Nat} (h1 : Inner src) (h2 : Inner dst) :
    Tracks cp Q (cp.share left src dst side n) (src.shareChildrenWith dst side n) := by
  obtain ⟨_, _, _, rfl⟩ := h1
  obtain ⟨_, _, _, rfl⟩ := h2
  exact .bind (r := .ok ()) .pure fun _ _ => .bind (r := .ok ()) .pure fun _ _ => .steady

theorem Inner.newEmpty {nd : Node α} (h : Inner nd) : Inner nd.newEmpty := by
  obtain ⟨_, _, _, rfl⟩ := h
  exact ⟨_, _, _, rfl⟩

theorem inner_emptyInternal {n : Nat} {nd : Node α} (e : Node.emptyInternal n = .ok nd) : Inner nd := by
  unfold Node.emptyInternal at e
  obtain ⟨_, -, e⟩ := bind_ok e
  split at e
  · cases e; exact ⟨_, _, _, rfl⟩
  · cases e; exact ⟨_, _, _, rfl⟩

theorem inner_pushChild {nd c r : Node α} {s : Side} (e : nd.pushChild s c = .ok r) : Inner r := by
  cases nd with
  | leaf b => cases e
  | internal s t k =>
    unfold Node.pushChild at e
    dsimp only at e
    obtain ⟨_, -, e⟩ := bind_ok e
    obtain ⟨_, -, e⟩ := bind_ok e
    obtain ⟨_, -, e⟩ := bind_ok e
    obtain ⟨_, -, e⟩ := bind_ok e
    cases e
    exact ⟨_, _, _, rfl⟩

theorem pushUp_inner {s : Side} {c root : Node α} {sp : List (Node α)} {r : List (Node α) × Node α}
    (h : Inner root) (e : pushUp s c sp root = .ok r) : r.1.length = sp.length ∧ Inner r.2 := by
  unfold pushUp at e
  obtain ⟨_, -, e⟩ := bind_ok e
  split at e
  · cases e
    exact ⟨rfl, h⟩
  · cases sp with
    | nil =>
      obtain ⟨_, h1, e⟩ := bind_ok e
      cases e
      exact ⟨rfl, inner_pushChild h1⟩
    | cons p rest =>
      obtain ⟨_, h1, e⟩ := bind_ok e
      cases e
      exact ⟨rfl, h⟩

/-- To raise a vector whose root is not a leaf clones no item. -/
theorem raiseSelf_inner : ∀ (fuel t : Nat) (v : RVec α), Inner v.root →
    Tracks cp Q (raiseSelfC cp fuel t v) (raiseSelf fuel t v)
  | 0, t, v, _ => by
    unfold raiseSelfC raiseSelf
    split
    · exact .steady
    · exact .pure
  | fuel + 1, t, v, h => by
    unfold raiseSelfC raiseSelf
    split
    · exact .bind .steady fun _ e => .bind (h.share h.newEmpty) fun _ _ =>
        raiseSelf_inner fuel t _ (inner_emptyInternal e)
    · exact .pure

theorem raiseOther_inner {w : RVec α} : ∀ (fuel t : Nat) (v : RVec α), Inner v.root →
    Tracks cp Q (raiseOtherC cp w fuel t v) (raiseOther fuel t v)
  | 0, t, v, _ => by
    unfold raiseOtherC raiseOther
    split
    · exact .steady
    · exact .pure
  | fuel + 1, t, v, h => by
    unfold raiseOtherC raiseOther
    split
    · exact .bind .steady fun _ e => .bind (h.share h.newEmpty) fun _ _ =>
        raiseOther_inner fuel t _ (inner_emptyInternal e)
    · exact .pure

theorem raiseSelf_even : ∀ (fuel t : Nat) {v r : RVec α}, raiseSelf fuel t v = .ok r →
    (v.left.length = v.right.length → r.left.length = r.right.length) ∧ (Inner v.root → Inner r.root) ∧
    (t ≤ v.right.length → r = v)
  | 0, t, v, r, e => by
    unfold raiseSelf at e
    split at e
    · cases e
    · cases e; exact ⟨id, id, fun _ => rfl⟩
  | fuel + 1, t, v, r, e => by
    unfold raiseSelf at e
    split at e
    · rename_i hlt
      obtain ⟨nr, h1, e⟩ := bind_ok e
      obtain ⟨q, -, e⟩ := bind_ok e
      obtain ⟨a, b, -⟩ := raiseSelf_even fuel t e
      exact ⟨fun h => a (by simpa using h), fun _ => b (inner_emptyInternal h1), fun h => absurd h (by omega)⟩
    · cases e; exact ⟨id, id, fun _ => rfl⟩

theorem raiseSelf_length : ∀ (fuel t : Nat) {v r : RVec α}, raiseSelf fuel t v = .ok r →
    r.right.length = max v.right.length t
  | 0, t, v, r, e => by
    unfold raiseSelf at e
    split at e
    · cases e
    · cases e; omega
  | fuel + 1, t, v, r, e => by
    unfold raiseSelf at e
    split at e
    · obtain ⟨nr, h1, e⟩ := bind_ok e
      obtain ⟨q, -, e⟩ := bind_ok e
      have := raiseSelf_length fuel t e
      simp at this
      omega
    · cases e; omega

theorem raiseOther_root : ∀ (fuel t : Nat) {v r : RVec α}, raiseOther fuel t v = .ok r →
    (Inner v.root ∨ v.left.length < t → Inner r.root)
  | 0, t, v, r, e => by
    unfold raiseOther at e
    split at e
    · cases e
    · cases e
      rintro (h | h)
      · exact h
      · contradiction
  | fuel + 1, t, v, r, e => by
    unfold raiseOther at e
    split at e
    · obtain ⟨nr, h1, e⟩ := bind_ok e
      obtain ⟨q, -, e⟩ := bind_ok e
      exact fun _ => raiseOther_root fuel t e (.inl (inner_emptyInternal h1))
    · cases e
      rintro (h | h)
      · exact h
      · contradiction

/-- While the nodes of a level are joined, the right spine is shorter than it was. -/
theorem appendLoop_short {put : List (Node α) → Node α → RVec α} {L : Nat} (hw : ∀ sp t, sp.length < L → Q (put sp t)) :
    ∀ (n : Nat) (ls ol : List (Node α)) (root oroot : Node α), ls.length ≤ L → Inner root → Inner oroot →
    Tracks cp Q (appendLoopC cp put n ls ol root oroot) (appendLoop n ls ol root oroot) ∧
      ∀ r, appendLoop n ls ol root oroot = .ok r → Inner r.1 ∧ Inner r.2
  | 0, [], ol, root, oroot, _, h1, h2 => ⟨.bind .steady fun _ _ => .pure, fun r e => by
      obtain ⟨_, -, e⟩ := bind_ok e
      cases e
      exact ⟨h1, h2⟩⟩
  | _ + 1, [], ol, root, oroot, _, h1, h2 => ⟨.bind .steady fun _ _ => .pure, fun r e => by
      obtain ⟨_, -, e⟩ := bind_ok e
      cases e
      exact ⟨h1, h2⟩⟩
  | 0, _ :: _, _, _, _, _, _, _ => ⟨.steady, fun r e => by cases e⟩
  | n + 1, l :: ls, ol, root, oroot, hl, h1, h2 => by
    simp only [List.length_cons] at hl
    constructor
    · refine .bind .steady fun _ _ => .bind (joinLevel_tracks (hw _ _ (by rw [List.length_reverse]; omega)) _ _) fun _ _ => .bind .steady fun r hr =>
        .bind .steady fun s hs => ?_
      obtain ⟨a1, a2⟩ := pushUp_inner h1 hr
      obtain ⟨-, b2⟩ := pushUp_inner h2 hs
      exact (appendLoop_short hw n _ _ _ _ (by omega) a2 b2).1
    · intro r e
      obtain ⟨_, -, e⟩ := bind_ok e
      obtain ⟨_, -, e⟩ := bind_ok e
      obtain ⟨r, hr, e⟩ := bind_ok e
      obtain ⟨s, hs, e⟩ := bind_ok e
      obtain ⟨a1, a2⟩ := pushUp_inner h1 hr
      obtain ⟨-, b2⟩ := pushUp_inner h2 hs
      exact (appendLoop_short hw n _ _ _ _ (by omega) a2 b2).2 _ e

/-- `append` to a vector that is more than a leaf: what is left is the vector, if the other one was a leaf, or one whose right
spine is shorter than the left one. -/
theorem append_tall_left {v other : RVec α} {h1 h2 : Nat} (i : InvH v (h1 + 1)) (j : InvH other h2) (hn : other.len ≠ 1) :
    Tracks cp (fun w => (w = v ∧ h2 = 0) ∨ (2 ≤ max (h1 + 1) h2 ∧ w.right.length < w.left.length)) (v.appendC cp other)
      (v.append other) := by
  have inner : ∀ {nd : Node α} {n : Nat}, nd.Wf (n + 1) → Inner nd := by
    intro nd n w
    cases nd with
    | leaf b => exact absurd w.level (by simp [Node.level])
    | internal s t c => exact ⟨_, _, _, rfl⟩
  have lv := i.length .front
  have rv := i.length .back
  have lo := j.length .front
  simp only [spine_front, spine_back] at lv rv lo
  unfold appendC append
  split
  · exact .pure
  split
  · exact .pure
  have e1 : (v.len == 1) = false := by
    have := InvH.two_le i (by omega)
    rw [← i.len] at this
    simp; omega
  have e2 : (other.len == 1) = false := by simpa using hn
  simp only [e1, e2, Bool.false_eq_true, if_false]
  unfold appendMainC appendMain
  refine .bind .steady fun _ _ => .bind (raiseSelf_inner _ _ _ (inner i.root)) fun v1 hv1 => ?_
  obtain ⟨a1, a2, a3⟩ := raiseSelf_even _ _ hv1
  have a1 := a1 (by omega)
  have a2 := a2 (inner i.root)
  have hL := raiseSelf_length _ _ hv1
  refine .bind ?_ fun o1 ho1 => ?_
  · cases h2 with
    | zero => exact raiseOther_tracks (.inl ⟨a3 (by omega), rfl⟩) _ _ _
    | succ k => exact raiseOther_inner _ _ _ (inner j.root)
  have b2 : Inner o1.root := by
    refine raiseOther_root _ _ ho1 ?_
    cases h2 with
    | zero => exact .inr (by omega)
    | succ k => exact .inl (inner j.root)
  refine .bind .steady fun _ _ => .bind .steady fun _ _ => .bind .steady fun r hr => .bind .steady fun s hs => ?_
  have c1 : r.1.length = v1.right.length - 1 ∧ Inner r.2 := by
    cases hx : v1.right with
    | nil => rw [hx] at hr; cases hr; exact ⟨rfl, a2⟩
    | cons x xs => rw [hx] at hr; exact pushUp_inner a2 hr
  have c2 : Inner s.2 := by
    cases hx : o1.left with
    | nil => rw [hx] at hs; cases hs; exact b2
    | cons x xs => rw [hx] at hs; exact (pushUp_inner b2 hs).2
  by_cases h0 : r.1 = []
  · rw [h0]
    refine .bind (.bind .steady fun _ _ => .pure) fun q hq => ?_
    obtain ⟨_, -, hq⟩ := bind_ok hq
    cases hq
    exact .bind (c2.share c1.2) fun _ _ =>
      .bind .steady fun _ _ => .bind .steady fun _ _ => .bind .steady fun _ _ => .bind .steady fun _ _ => .steady
  have h3 := List.length_pos_of_ne_nil h0
  obtain ⟨d1, d2⟩ := appendLoop_short (cp := cp) (L := v1.right.length - 1)
    (Q := fun w => (w = v ∧ h2 = 0) ∨ (2 ≤ max (h1 + 1) h2 ∧ w.right.length < w.left.length))
    (put := fun right root => { v1 with right := right, root := root })
    (fun sp t hsp => .inr ⟨by omega, by simp only; omega⟩) r.1.length r.1 s.1 r.2 s.2 (by omega) c1.2 c2
  refine .bind d1 fun q hq => ?_
  obtain ⟨f1, f2⟩ := d2 q hq
  exact .bind (f2.share f1) fun _ _ =>
    .bind .steady fun _ _ => .bind .steady fun _ _ => .bind .steady fun _ _ => .bind .steady fun _ _ => .steady

end RVec

/-- What is seen of a call whose part unwinds. -/
theorem CM.bind_unwound {m : CM γ α τ} {f : τ → CM γ α υ} {g g' : γ} {w : RVec α}
    (h : m g = (.error (.unwound w), g')) : (m >>= f) g = (.error (.unwound w), g') := by
  rw [CM.bind_apply, h]

theorem leaving_unwound {m : CM γ α τ} {g g' : γ} {u w : RVec α} (h : m g = (.error (.unwound u), g')) :
    leaving w m g = (.error (.unwound w), g') := by
  unfold leaving
  rw [h]

namespace RVec

/-! ### Borrowing items -/

theorem set_tracks {v : RVec α} {h : Nat} (i : InvH v h) (k : Nat) (x : α) :
    Tracks cp (fun w => w = v) (v.setC cp k x) (v.set k x) := by
  unfold setC set
  refine .bind .steady fun p _ => ?_
  rcases p with _ | ⟨pos, sub⟩
  · exact .pure
  refine .bind .steady fun nd hnd => ?_
  have wf : ∃ n, nd.Wf n := by
    have sL := spine_wf (i.spine .front)
    have sR := spine_wf (i.spine .back)
    rcases pos with _ | ⟨(_ | _), p⟩
    · cases hnd
      exact ⟨h, i.root⟩
    · simp only [nodeAt] at hnd
      cases e : v.left[p]? with
      | none => rw [e] at hnd; cases hnd
      | some y => rw [e] at hnd; cases hnd; exact sL _ (List.mem_of_getElem? e)
    · simp only [nodeAt] at hnd
      cases e : v.right[p]? with
      | none => rw [e] at hnd; cases hnd
      | some y => rw [e] at hnd; cases hnd; exact sR _ (List.mem_of_getElem? e)
  obtain ⟨n, wf⟩ := wf
  exact Node.touchAux_tracks (Q := fun w => w = v) rfl _ _ _
    (.bind (.more (Node.setAux_more _ _ _ _ _)) fun _ _ => .bind .steady fun _ _ => .pure) ⟨_, Node.get_ok wf sub⟩

theorem setFrontBack_tracks (v : RVec α) (s : Side) (x : α) :
    Tracks cp (fun w => w = v) (v.setFrontBackC cp s x) (v.setFrontBack s x) := .touch (.inl rfl) .steady

end RVec
end
end Librrb
