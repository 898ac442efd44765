import Verif.Model.CloneUnwind
import Verif.Proof.PushPop
import Verif.Proof.Lookup
import Verif.Proof.Built

/-! # What pushing and popping leave behind when cloning an item panics -/
namespace Librrb

/-- The copier lets a clone panic at some time. -/
def Copier.Faulty (cp : Copier γ α) : Prop := ∃ g l, (cp g l).1 = true

/-- `r'` is `r` with more steps. -/
def Leq (r r' : M τ) : Prop := r = .error .diverge ∨ r' = r

theorem Leq.refl (r : M τ) : Leq r r := .inr rfl

theorem Leq.diverge {r : M τ} : Leq (.error .diverge) r := .inl rfl

theorem Leq.bind {m m' : M τ} {f f' : τ → M υ} (h : Leq m m') (hf : ∀ a, m = .ok a → Leq (f a) (f' a)) :
    Leq (m >>= f) (m' >>= f') := by
  rcases h with rfl | rfl
  · exact .inl rfl
  · rcases m' with e | a
    · exact .inr rfl
    · exact hf a rfl

theorem Leq.foldIter {σ : Type} {f f' : σ → τ → M σ} (hf : ∀ s x, Leq (f s x) (f' s x)) (b : CB τ) (s : σ) :
    Leq (b.foldIter f s) (b.foldIter f' s) := by
  unfold CB.foldIter
  generalize b.len + 1 = n
  generalize b.iter = it
  induction n generalizing it s with
  | zero => exact .diverge
  | succ n ih =>
    unfold CB.foldIterLoop
    refine .bind (.refl _) fun r _ => ?_
    split
    · exact .refl _
    · exact .bind (hf _ _) fun _ _ => ih _ _

/-- The call `m` does what `r` does if `r` does not run out of steps, unless cloning an item panics, and then `Q` holds for
what is left. -/
def Tracks (cp : Copier γ α) (Q : RVec α → Prop) (m : CM γ α τ) (r : M τ) : Prop := r ≠ .error .diverge → ∀ g : γ,
  match (m g).1 with
  | .ok a => r = .ok a
  | .error (.fault e) => r = .error e
  | .error (.unwound w) => Q w ∧ cp.Faulty

section
variable {cp : Copier γ α} {Q : RVec α → Prop}

theorem CM.bind_apply (m : CM γ α τ) (f : τ → CM γ α υ) (g : γ) : (m >>= f) g =
    match m g with
    | (.ok a, g) => f a g
    | (.error e, g) => (.error e, g) := by
  show (ExceptT.bind m f) g = _
  unfold ExceptT.bind ExceptT.mk
  show (ExceptT.bindCont f (m g).1) (m g).2 = _
  rcases m g with ⟨(e | a), g⟩ <;> rfl

theorem Tracks.pure {a : τ} : Tracks cp Q (pure a) (.ok a) := fun _ _ => rfl

theorem Tracks.diverge {m : CM γ α τ} : Tracks cp Q m (.error .diverge) := fun h => absurd rfl h

theorem Tracks.steady {r : M τ} : Tracks cp Q (steady r) r := by
  intro _ g
  rcases r with e | a <;> rfl

theorem Tracks.more {r r' : M τ} (h : Leq r r') : Tracks cp Q (Librrb.steady r') r := by
  rcases h with rfl | rfl
  · exact .diverge
  · exact .steady

theorem Tracks.bind {m : CM γ α τ} {r : M τ} {f : τ → CM γ α υ} {f' : τ → M υ} (h : Tracks cp Q m r)
    (hf : ∀ a, r = .ok a → Tracks cp Q (f a) (f' a)) : Tracks cp Q (m >>= f) (r >>= f') := by
  intro hd g
  have k := h (by rintro rfl; exact hd rfl) g
  rw [CM.bind_apply]
  generalize m g = x at k ⊢
  obtain ⟨((e | w) | a), g'⟩ := x
  · simp only at k; subst k; rfl
  · exact k
  · simp only at k; subst k; exact hf a rfl hd g'

theorem Tracks.mono {Q' : RVec α → Prop} {m : CM γ α τ} {r : M τ} (h : Tracks cp Q m r) (hq : ∀ w, Q w → Q' w) :
    Tracks cp Q' m r := by
  intro hd g
  have k := h hd g
  generalize m g = x at k ⊢
  obtain ⟨((e | w) | a), g'⟩ := x
  · exact k
  · exact ⟨hq w k.1, k.2⟩
  · exact k

/-- A `load_mut` on the way: either it does nothing, or `Q` holds. -/
theorem Tracks.touch {nd : Node α} {left : RVec α} {f : CM γ α τ} {r : M τ}
    (h : Q left ∨ nd.slots = 0 ∨ nd.isLeaf = false) (hf : Tracks cp Q f r) :
    Tracks cp Q (cp.touch left nd >>= fun _ => f) r := by
  intro hd g
  rw [CM.bind_apply]
  cases nd with
  | internal s t c => exact hf hd g
  | leaf b =>
    simp only [Copier.touch]
    by_cases hb : b.len = 0
    · rw [show (b.len == 0) = true by simpa using hb]; exact hf hd g
    · rw [show (b.len == 0) = false by simpa using hb]
      simp only [Bool.false_eq_true, if_false]
      rcases hx : cp g (Node.leaf b).toList with ⟨(_ | _), g'⟩
      · exact hf hd g'
      · rcases h with h | h | h
        · exact ⟨h, g, _, by rw [hx]⟩
        · exact absurd h hb
        · exact absurd h (by simp [Node.isLeaf, Node.level])

theorem Tracks.share {left : RVec α} {src dst : Node α} {side : Side} {n : Nat}
    (h1 : Q left ∨ dst.slots = 0 ∨ dst.isLeaf = false) (h2 : Q left ∨ src.slots = 0 ∨ src.isLeaf = false) :
    Tracks cp Q (cp.share left src dst side n) (src.shareChildrenWith dst side n) :=
  .touch h1 (.touch h2 .steady)

namespace RVec

/-- One round of `fixup_spine_tops`. -/
theorem fixupStep_tracks (v : RVec α)
    (h1 : ∀ a b, v.left.getLast? = some a → v.right.getLast? = some b →
      a.slots + b.slots < (if v.root.level == 1 then RRB_WIDTH else RRB_WIDTH - 2) →
      Q { v with left := v.left.dropLast, right := v.right.dropLast } ∨ (a.isLeaf = false ∧ b.isLeaf = false))
    (h2 : ∀ a b, v.left.getLast? = some a → v.right.getLast? = some b → Q v ∨ (a.isLeaf = false ∧ b.isLeaf = false)) :
    Tracks cp Q (v.fixupStepC cp) v.fixupStep := by
  unfold fixupStepC fixupStep
  refine .bind .steady fun a ha => .bind .steady fun b hb => ?_
  have ha' : v.left.getLast? = some a := by
    rcases h : v.left.getLast? with _ | x <;> rw [h] at ha <;> simp [unwrap] at ha
    rw [ha]
  have hb' : v.right.getLast? = some b := by
    rcases h : v.right.getLast? with _ | x <;> rw [h] at hb <;> simp [unwrap] at hb
    rw [hb]
  have k1 := h1 a b ha' hb'
  have k2 := h2 a b ha' hb'
  dsimp only
  generalize (if v.root.level == 1 then RRB_WIDTH else RRB_WIDTH - 2) = least at k1 ⊢
  generalize (if a.slots > b.slots then a.slots - b.slots else b.slots - a.slots) = diff
  split
  · rename_i hlt
    have k1 := k1 hlt
    exact .bind (.share (k1.imp_right fun h => .inr h.2) (k1.imp_right fun h => .inr h.1)) fun r _ => .pure
  · split
    · split
      · exact .bind (.share (k2.imp_right fun h => .inr h.2) (k2.imp_right fun h => .inr h.1)) fun r _ => .pure
      · exact .bind (.share (k2.imp_right fun h => .inr h.1) (k2.imp_right fun h => .inr h.2)) fun r _ => .pure
    · exact .pure

/-- The loop of `fixup_spine_tops`, with an invariant `I`. -/
theorem fixupLoop_tracks (I : RVec α → Prop)
    (hs : ∀ v, I v → v.root.slots = 0 → v.root.isLeaf = false → Tracks cp Q (v.fixupStepC cp) v.fixupStep)
    (hi : ∀ v v', I v → v.root.slots = 0 → v.root.isLeaf = false → v.fixupStep = .ok (v', true) → I v') :
    ∀ (fuel : Nat) (v : RVec α), I v → Tracks cp Q (fixupLoopC cp fuel v) (fixupLoop fuel v) := by
  intro fuel
  induction fuel with
  | zero =>
    intro v _
    unfold fixupLoopC fixupLoop
    split
    · exact .steady
    · exact .pure
  | succ fuel ih =>
    intro v iv
    unfold fixupLoopC fixupLoop
    split
    · rename_i hc
      simp only [Bool.and_eq_true, beq_iff_eq, Bool.not_eq_true'] at hc
      refine .bind (hs v iv hc.1 hc.2) fun r hr => ?_
      split
      · rename_i h
        refine ih _ (hi v r.1 iv hc.1 hc.2 ?_)
        rw [hr]
        rcases r with ⟨w, b⟩
        simp only at h
        rw [h]
      · exact .pure
    · exact .pure

/-- Whatever is left. -/
theorem fixup_any (v : RVec α) : Tracks cp (fun _ => True) (v.fixupSpineTopsC cp) v.fixupSpineTops :=
  fixupLoop_tracks (fun _ => True) (fun v _ _ _ => fixupStep_tracks v (fun _ _ _ _ _ => .inl trivial)
    (fun _ _ _ _ => .inl trivial)) (fun _ _ _ _ _ _ => trivial) _ v trivial

theorem completeLeaf_any (v : RVec α) (s : Side) : Tracks cp (fun _ => True) (v.completeLeafC cp s) (v.completeLeaf s) := by
  unfold completeLeafC completeLeaf
  refine .bind .steady fun _ _ => .bind .steady fun _ _ => .bind .steady fun _ _ => .bind .steady fun r _ => ?_
  dsimp only
  split
  · exact .bind .steady fun _ _ => .bind (.share (.inl trivial) (.inl trivial)) fun _ _ => .pure
  · split
    · exact fixup_any _
    · exact .pure

/-- `push_side` does what it does, unless cloning an item panics. -/
theorem pushSide_any (v : RVec α) (s : Side) (x : α) :
    Tracks cp (fun _ => True) (v.pushSideC cp s x) (v.pushSide s x) := by
  unfold pushSideC pushSide
  refine .bind .steady fun free _ => .bind ?_ fun v _ => .touch (.inl trivial) (.bind .steady fun nd _ =>
    .bind .steady fun len _ => ?_)
  · split
    · exact completeLeaf_any v s
    · exact .pure
  · dsimp only
    split
    · exact fixup_any _
    · exact .pure

theorem emptyLeaf_any (v : RVec α) (s : Side) : Tracks cp (fun _ => True) (v.emptyLeafC cp s) (v.emptyLeaf s) := by
  unfold emptyLeafC emptyLeaf
  exact .bind .steady fun _ _ => .bind .steady fun _ _ => .bind .steady fun _ _ => .bind .steady fun _ _ =>
    .bind .steady fun _ _ => .bind .steady fun _ _ => .bind .steady fun _ _ => fixup_any _

/-- `pop_side` does what it does, unless cloning an item panics. -/
theorem popSide_any (v : RVec α) (s : Side) : Tracks cp (fun _ => True) (v.popSideC cp s) (v.popSide s) := by
  unfold popSideC popSide
  refine .bind .steady fun _ _ => ?_
  split
  · refine .bind .steady fun e _ => ?_
    split
    · exact .bind .steady fun _ _ => .touch (.inl trivial) (.bind .steady fun _ _ => .pure)
    · exact .pure
  · refine .touch (.inl trivial) (.bind .steady fun r _ => .bind .steady fun e _ => .bind ?_ fun v _ =>
      .bind .steady fun _ _ => .pure)
    split
    · exact emptyLeaf_any _ s
    · split
      · exact fixup_any _
      · exact .pure

/-- One round that merges the tops keeps the items. -/
theorem fixupStep_merge {v v' : RVec α} {h : Nat} (c : Core v (h + 1)) (hr : v.root.slots = 0)
    (e : v.fixupStep = .ok (v', true)) : Core v' h ∧ v'.toList = v.toList := by
  obtain ⟨L, l, eL, hL, sL, wl, rl⟩ := c.tops .front
  obtain ⟨R, r, eR, hR, sR, wr, rr⟩ := c.tops .back
  simp only [spine_front, spine_back] at eL eR
  have hlv := c.root.level
  have hl64 := wl.slots_le
  have hr64 := wr.slots_le
  have hmt : (if (v.root.level == 1) = true then 64 else 64 - 2) = minTop (h + 1) := by
    rw [hlv]; simp [minTop]
  have hm64 : minTop (h + 1) ≤ 64 := by unfold minTop; split <;> omega
  unfold fixupStep at e
  simp only [eL, eR, List.getLast?_concat, unwrap_some, ok_bind] at e
  rw [hmt] at e
  by_cases hlt : l.slots + r.slots < minTop (h + 1)
  · rw [if_pos hlt] at e
    obtain ⟨k, l', r', e', wl', wr', hk, sl', sr', mv, q1, q2⟩ := Node.share_ok wl wr .back 64
    rw [e'] at e
    simp only [ok_bind, List.dropLast_concat] at e
    have e := (Prod.mk.inj (Except.ok.inj e)).1
    subst e
    have hl' : l'.toList = [] := wl'.slots_eq_zero.1 (by omega)
    have hre : v.root.toList = [] := c.root.slots_eq_zero.1 hr
    refine ⟨⟨?_, ?_, wr', ?_⟩, ?_⟩
    · rw [Side.forall .front]; simp [hL, hR]
    · rw [Side.forall .front]; exact ⟨sL, sR⟩
    · intro h0
      unfold minTop at hlt
      rw [if_neg (by omega)] at hlt
      show r'.slots ≤ 62
      omega
    · simp [toList, eL, eR, q1, q2, Side.add, hre, hl']
  · rw [if_neg hlt] at e
    exfalso
    obtain ⟨k, l', r', e1, _⟩ := Node.share_ok wl wr .back ((l.slots - r.slots) / 2)
    obtain ⟨k, l', r', e2, _⟩ := Node.share_ok wr wl .front ((r.slots - l.slots) / 2)
    by_cases hgt : l.slots > r.slots
    · simp only [if_pos hgt, e1, ok_bind] at e
      split at e <;> simp at e
    · simp only [if_neg hgt, e2, ok_bind] at e
      split at e <;> simp at e

/-- Below an empty root of level 1 there are at most 128 items. -/
theorem Core.few {v : RVec α} (c : Core v 1) (hr : v.root.slots = 0) : v.toList.length ≤ 128 := by
  obtain ⟨L, l, eL, hL, sL, wl, rl⟩ := c.tops .front
  obtain ⟨R, r, eR, hR, sR, wr, rr⟩ := c.tops .back
  simp only [spine_front, spine_back] at eL eR
  have hl64 := wl.slots_le
  have hr64 := wr.slots_le
  have : L = [] := List.eq_nil_of_length_eq_zero hL
  subst this
  have : R = [] := List.eq_nil_of_length_eq_zero hR
  subst this
  have hre : v.root.toList = [] := c.root.slots_eq_zero.1 hr
  obtain ⟨x, hx⟩ := Node.wf_zero.1 wl
  obtain ⟨y, hy⟩ := Node.wf_zero.1 wr
  have h1 := hx.slots
  have h2 := hy.slots
  rw [← hx.toList] at h1
  rw [← hy.toList] at h2
  simp [toList, eL, eR, hre]
  omega

/-- With more than 128 items no leaf is borrowed to repair the tops of the spines. -/
theorem fixup_silent {v : RVec α} {h : Nat} (c : Core v h) (hn : 128 < v.toList.length) :
    Tracks cp Q (v.fixupSpineTopsC cp) v.fixupSpineTops := by
  refine fixupLoop_tracks (fun v => ∃ h, Core v h ∧ 128 < v.toList.length) ?_ ?_ _ v ⟨h, c, hn⟩
  · rintro v ⟨h, c, hn⟩ hr hf
    obtain ⟨h, rfl⟩ : ∃ k, h = k + 1 := ⟨h - 1, by
      have := c.root.isLeaf
      rw [hf] at this
      simp at this
      omega⟩
    obtain ⟨L, l, eL, hL, sL, wl, rl⟩ := c.tops .front
    obtain ⟨R, r, eR, hR, sR, wr, rr⟩ := c.tops .back
    simp only [spine_front, spine_back] at eL eR
    have h0 : h ≠ 0 := by
      rintro rfl
      have := c.few hr
      omega
    have key : ∀ a b, v.left.getLast? = some a → v.right.getLast? = some b → a.isLeaf = false ∧ b.isLeaf = false := by
      intro a b ha hb
      simp [eL, eR] at ha hb
      subst ha hb
      rw [wl.isLeaf, wr.isLeaf]
      simp [h0]
    exact fixupStep_tracks v (fun a b ha hb _ => .inr (key a b ha hb)) (fun a b ha hb => .inr (key a b ha hb))
  · rintro v v' ⟨h, c, hn⟩ hr hf e
    obtain ⟨h, rfl⟩ : ∃ k, h = k + 1 := ⟨h - 1, by
      have := c.root.isLeaf
      rw [hf] at this
      simp at this
      omega⟩
    obtain ⟨c', t⟩ := fixupStep_merge c hr e
    exact ⟨h, c', by rw [t]; exact hn⟩

/-- Where the tops need not be merged, the vector stays as it is until the tops are balanced; above leaves nothing can
happen at all. -/
theorem fixup_balanced {v : RVec α} {h : Nat} (c : Core v (h + 1))
    (hmin : v.root.slots = 0 → ∀ a b, v.left.getLast? = some a → v.right.getLast? = some b →
      minTop (h + 1) ≤ a.slots + b.slots) (hq : h ≠ 0 ∨ Q v) :
    Tracks cp Q (v.fixupSpineTopsC cp) v.fixupSpineTops := by
  obtain ⟨L, l, eL, hL, sL, wl, rl⟩ := c.tops .front
  obtain ⟨R, r, eR, hR, sR, wr, rr⟩ := c.tops .back
  simp only [spine_front, spine_back] at eL eR
  have hmt : (if (v.root.level == 1) = true then 64 else 64 - 2) = minTop (h + 1) := by
    rw [c.root.level]; simp [minTop]
  refine fixupLoop_tracks (fun w => w = v) ?_ ?_ _ v rfl
  · rintro w rfl hr hf
    refine fixupStep_tracks w ?_ ?_
    · intro a b ha hb hlt
      have := hmin hr a b ha hb
      rw [hmt] at hlt
      omega
    · intro a b ha hb
      rcases hq with h0 | h0
      · right
        simp [eL, eR] at ha hb
        subst ha hb
        rw [wl.isLeaf, wr.isLeaf]
        simp [h0]
      · exact .inl h0
  · rintro w v' rfl hr hf e
    exfalso
    have hlt : l.slots + r.slots < minTop (h + 1) := by
      by_contra hlt
      unfold fixupStep at e
      simp only [eL, eR, List.getLast?_concat, unwrap_some, ok_bind] at e
      rw [hmt, if_neg hlt] at e
      obtain ⟨k, l', r', e1, _⟩ := Node.share_ok wl wr .back ((l.slots - r.slots) / 2)
      obtain ⟨k, l', r', e2, _⟩ := Node.share_ok wr wl .front ((r.slots - l.slots) / 2)
      by_cases hgt : l.slots > r.slots
      · simp only [if_pos hgt, e1, ok_bind] at e
        split at e <;> simp at e
      · simp only [if_neg hgt, e2, ok_bind] at e
        split at e <;> simp at e
    have := hmin hr l r (by simp [eL]) (by simp [eR])
    omega

/-- Reading does not need the tops to be balanced. -/
theorem Core.get_ok {v : RVec α} {h : Nat} (c : Core v h) (hl : v.len = v.toList.length) (idx : Nat) :
    v.get idx = .ok v.toList[idx]? := by
  unfold get findNodeInfoForIndex
  by_cases hix : idx < v.toList.length
  · rw [if_neg (by omega)]
    have h1 := c.length .front
    have h2 := c.length .back
    obtain ⟨pos, sub, e, hf⟩ := findLoop_ok hix v.left v.right [] [] 0 rfl rfl rfl
      (by simp at h1 h2; omega) (c.spine .front) (c.spine .back) (by simp) (by simpa using hix)
    simp at e
    rw [hl, e]
    simp only [ok_bind]
    obtain ⟨nd, n, pre, post, e2, hw, ht, rfl, hs⟩ : ∃ nd n pre post, v.nodeAt pos = .ok nd ∧ nd.Wf n ∧
        v.toList = pre ++ nd.toList ++ post ∧ idx = pre.length + sub ∧ sub < nd.toList.length := by
      cases hf with
      | front A B nd sub e' hi hs =>
        have hw := c.spine .front
        simp only [spine_front] at hw
        rw [e', spine_append] at hw
        refine ⟨nd, A.length, spineList .front A, spineList .front B ++ v.root.toList ++ spineList .back v.right, ?_,
          by simpa using hw.2.1, ?_, hi, hs⟩
        · simp [nodeAt, e']
        · rw [toList_eq v .front, spine_front, e', spineList_append]; simp [Side.add]
      | root sub hi hs =>
        refine ⟨v.root, h, spineList .front v.left, spineList .back v.right, rfl, c.root, ?_, hi, hs⟩
        rw [toList_eq v .front]; simp [Side.add]
      | back A B nd sub e' hi hs =>
        have hw := c.spine .back
        simp only [spine_back] at hw
        rw [e', spine_append] at hw
        refine ⟨nd, A.length, spineList .front v.left ++ v.root.toList ++ spineList .back B, spineList .back A, ?_,
          by simpa using hw.2.1, ?_, by simp; omega, hs⟩
        · simp [nodeAt, e']
        · rw [toList_eq v .back, spine_back, e', spineList_append]; simp [Side.add]
    simp only [e2, ok_bind, Node.get_ok hw]
    rw [ht, getElem?_mid _ _ _ hs, List.getElem?_eq_getElem hs]
    rfl
  · rw [if_pos (by omega), List.getElem?_eq_none (by omega)]
    rfl

theorem Core.shows {v : RVec α} {h : Nat} (c : Core v h) (hl : v.len = v.toList.length) : Shows v v.toList :=
  ⟨hl, fun i => c.get_ok hl i⟩

/-- Completing a leaf of a spine does not borrow a leaf; and when the height stays 1, the root is not empty. -/
theorem completeLeaf_silent {v : RVec α} {h : Nat} (i : InvH v h) (s : Side) (hfull : (v.leafNode s).slots = 64)
    (hn : v.toList.length ≠ 64) : Tracks cp Q (v.completeLeafC cp s) (v.completeLeaf s) ∧
      ∀ v', v.completeLeaf s = .ok v' → (v'.spine s).length = 1 → v'.root.slots ≠ 0 := by
  have hll := i.length .front
  have hlr := i.length .back
  simp only [spine_front, spine_back] at hll hlr
  have hlen := i.length s
  have hlen' := i.length s.negate
  cases h with
  | zero =>
    exfalso
    have e0 : v.spine s = [] := List.eq_nil_of_length_eq_zero hlen
    have e1 : v.spine s.negate = [] := List.eq_nil_of_length_eq_zero hlen'
    obtain ⟨x, hx⟩ := Node.wf_zero.1 i.root
    apply hn
    rw [toList_eq v s, e0, e1]
    simp [leafNode, e0] at hfull
    rw [hx.slots, ← hx.toList] at hfull
    simpa using hfull
  | succ h =>
    obtain ⟨x, rest, hsp⟩ : ∃ x rest, v.spine s = x :: rest :=
      List.exists_cons_of_ne_nil (fun e => by rw [e] at hlen; simp at hlen)
    have hxs : x.slots = 64 := by
      have := hfull
      simp [leafNode, hsp] at this
      exact this
    have hspine := i.spine s
    rw [hsp] at hspine hlen
    have hrl : rest.length = h := by simpa using hlen
    obtain ⟨x', rest', root', e, q1, q2, q3, q4, q5, q6, q7, q8, q9⟩ :=
      completeLoop_ok s rest x 0 (root := v.root) hspine.1 hspine.2.2
        (by have := i.root; rw [show 0 + 1 + rest.length = h + 1 by omega]; exact this)
        (i.room (by omega))
    rw [show 0 + 1 + rest.length = h + 1 by omega] at q5
    have hS : Spine 0 (x' :: rest') := ⟨q2, fun h => absurd rfl h, q4⟩
    have key : ∀ r, completeLoop s (v.spine s).length (v.spine s) v.root = .ok r → r = (x' :: rest', root') := by
      intro r hr
      rw [hsp, List.length_cons, e] at hr
      exact (Except.ok.inj hr).symm
    have hrf : root'.isLeaf = false := by rw [q5.isLeaf]; simp
    obtain ⟨n1, n2, n3⟩ := q5.newEmpty
    constructor
    · unfold completeLeafC completeLeaf
      refine .bind .steady fun _ _ => .bind .steady fun _ _ => .bind .steady fun _ _ => .bind .steady fun r hr => ?_
      have := key r hr
      subst this
      dsimp only
      split
      · exact .bind .steady fun _ _ => .bind (.share (.inr (.inl n3)) (.inr (.inr hrf))) fun _ _ => .pure
      · split
        · rename_i h63 h0
          have h0 : root'.slots = 0 := by simpa using h0
          obtain ⟨rfl, g2⟩ := q9 h0
          have hh : h ≠ 0 := by
            rintro rfl
            exact q8 hxs (List.eq_nil_of_length_eq_zero hrl) h0
          have hcore : Core (({ v with root := v.root }).withSpine s (x' :: rest')) (h + 1) := by
            refine ⟨?_, ?_, ?_, ?_⟩
            · rw [Side.forall s]; simp [q1, hrl, hlen']
            · rw [Side.forall s]
              simp only [withSpine_same, withSpine_other, setRoot_spine]
              exact ⟨hS, i.spine _⟩
            · simpa using q5
            · intro _; simp; omega
          refine fixup_balanced hcore (fun _ => ?_) (.inl hh)
          have key : ∀ t a b, ((({ v with root := v.root }).withSpine s (x' :: rest')).spine t).getLast?
              = some a → ((({ v with root := v.root }).withSpine s (x' :: rest')).spine t.negate).getLast?
              = some b → minTop (h + 1) ≤ a.slots + b.slots := by
            rw [Side.forall s]
            have base : ∀ a b, (x' :: rest').getLast? = some a →
                (v.spine s.negate).getLast? = some b → minTop (h + 1) ≤ a.slots + b.slots := by
              intro a b ha hb
              obtain ⟨z, hz⟩ : ∃ z, (x :: rest).getLast? = some z := ⟨_, List.getLast?_eq_some_getLast (by simp)⟩
              have h1 := g2 z a hz ha
              have h2 := (i.top (by omega) h0 s z b (by rw [hsp]; exact hz) hb).2
              omega
            simp only [withSpine_same, withSpine_other, setRoot_spine, Side.negate_negate]
            exact ⟨base, fun a b ha hb => by have := base b a hb ha; omega⟩
          exact key .front
        · exact .pure
    · intro v' ev hv'
      unfold completeLeaf at ev
      rw [massert_ok (by simp [hll, hlr]), leafFreeSpace_ok (i.leafNode s), hfull] at ev
      simp only [Nat.sub_self, ok_bind, beq_self_eq_true, massert_true] at ev
      rw [hsp, List.length_cons, e] at ev
      simp only [ok_bind] at ev
      by_cases h63 : root'.slots ≥ 64 - 1
      · exfalso
        rw [if_pos h63, q5.level] at ev
        obtain ⟨nr, e1, w1, t1, s1⟩ := emptyInternal_wf (α := α) (h + 1)
        obtain ⟨k, a', b', e2, -⟩ := Node.share_ok q5 n1 s.negate (64 / 2)
        rw [e1] at ev
        simp only [ok_bind] at ev
        rw [e2] at ev
        have ev := Except.ok.inj ev
        subst ev
        simp at hv'
      · rw [if_neg h63] at ev
        by_cases h0 : root'.slots = 0
        · exfalso
          obtain ⟨rfl, g2⟩ := q9 h0
          have hh : h ≠ 0 := by
            rintro rfl
            exact q8 hxs (List.eq_nil_of_length_eq_zero hrl) h0
          obtain ⟨v'', h'', e', c', -, -, -, -, hle, -⟩ := completeLeaf_ok i s hfull
          unfold completeLeaf at e'
          rw [massert_ok (by simp [hll, hlr]), leafFreeSpace_ok (i.leafNode s), hfull] at e'
          simp only [Nat.sub_self, ok_bind, beq_self_eq_true, massert_true] at e'
          rw [hsp, List.length_cons, e] at e'
          simp only [ok_bind] at e'
          rw [if_neg h63, ev] at e'
          have e' := Except.ok.inj e'
          subst e'
          have := c'.length s
          omega
        · rw [if_neg (by simpa using h0)] at ev
          have ev := Except.ok.inj ev
          subst ev
          simpa using h0

/-- What `push_side` leaves behind: the vector as it was, or the item is in and the vector has at most 128 items. -/
theorem pushSide_left {v : RVec α} {h : Nat} (i : InvH v h) (s : Side) (x : α)
    (hlt : v.toList.length + 1 < USIZE_LIMIT) (hn : v.toList.length ≠ 64)
    (q1 : ∀ w, Shows w v.toList → Q w) (q2 : v.toList.length < 128 → ∀ w, Shows w (s.cons x v.toList) → Q w) :
    Tracks cp Q (v.pushSideC cp s x) (v.pushSide s x) := by
  have hle := (i.leafNode s).slots_le
  have hlen := i.len
  -- first step
  obtain ⟨v1, h1, e1, c1, t1, tl1, l1, hd1, lf1⟩ : ∃ v1 h1,
      (if (64 - (v.leafNode s).slots == 0) = true then v.completeLeaf s else .ok v) = .ok v1 ∧
      Core v1 h1 ∧ (h1 = 1 → v1.root.slots = 0 → InvH v 1 ∧ v1 = v) ∧ v1.toList = v.toList ∧ v1.len = v.len ∧
      HeadOk (v1.spine s.negate) ∧ (v1.leafNode s).slots ≤ 63 := by
    by_cases hf : (v.leafNode s).slots = 64
    · rw [if_pos (by simp [hf])]
      obtain ⟨v', h', e, r1, r2, r3, r4, r5, r6, r6', y, rest, r7, r8⟩ := completeLeaf_ok i s hf
      refine ⟨v', h', e, r1, ?_, r3, r4, r5, by simpa [leafNode, r7] using r8⟩
      intro g1 g2
      exact absurd g2 ((completeLeaf_silent (cp := ⟨fun (_ : Unit) _ => (false, ()), 0⟩) (Q := Q) i s hf hn).2 v' e
        (by rw [r1.length s, g1]))
    · rw [if_neg (by simp; omega)]
      exact ⟨v, h, rfl, i.toCore, fun e _ => ⟨e ▸ i, rfl⟩, rfl, rfl, i.head _, by omega⟩
  unfold pushSideC pushSide
  refine .bind .steady fun free hfree => .bind (r := if free == 0 then v.completeLeaf s else .ok v) ?_ fun w hw => ?_
  · rw [leafFreeSpace_ok (i.leafNode s)] at hfree
    have hfree := Except.ok.inj hfree
    subst hfree
    split
    · rename_i hf
      exact (completeLeaf_silent i s (by simp at hf; omega) hn).1
    · exact .pure
  · rw [leafFreeSpace_ok (i.leafNode s)] at hfree
    have hfree := Except.ok.inj hfree
    subst hfree
    rw [e1] at hw
    have hw := Except.ok.inj hw
    subst hw
    have hs1 : Shows v1 v.toList := by
      have := c1.shows (by rw [l1, tl1, hlen])
      rwa [tl1] at this
    refine .touch (.inl (q1 _ hs1)) (.bind .steady fun nd hnd => .bind .steady fun len hl => ?_)
    dsimp only
    split
    · rename_i hone
      have w1 := c1.leafNode s
      obtain ⟨nd', e2, w2, s2, t2⟩ := Node.leafPush_ok w1 s x (by omega)
      rw [e2] at hnd
      have hnd := Except.ok.inj hnd
      subst hnd
      rw [l1, uadd_ok (by rw [hlen]; exact hlt)] at hl
      have hl := Except.ok.inj hl
      subst hl
      have hls := c1.length s
      cases hsp : v1.spine s with
      | nil =>
        exfalso
        rw [setLen_spine] at hone
        simp only [withLeafNode, hsp, setRoot_spine] at hone
        simp at hone
      | cons y rest =>
        have hln : v1.leafNode s = y := by simp [leafNode, hsp]
        have hv : v1.withLeafNode s nd' = v1.withSpine s (nd' :: rest) := by simp [withLeafNode, hsp]
        rw [hv] at hone ⊢
        rw [hln] at s2 t2 lf1
        have hsp1 : ({ v1.withSpine s (nd' :: rest) with len := v.len + 1 }).spine s = nd' :: rest := by
          rw [setLen_spine]; simp
        have hsp2 : ({ v1.withSpine s (nd' :: rest) with len := v.len + 1 }).spine s.negate
            = v1.spine s.negate := by
          rw [setLen_spine]; simp
        have hspine := c1.spine s
        rw [hsp] at hspine hls
        rw [hsp1] at hone
        have hrest : rest = [] := by simpa using hone
        subst hrest
        have hh1 : h1 = 1 := by simpa using hls.symm
        subst hh1
        have c2 : Core { v1.withSpine s [nd'] with len := v.len + 1 } 1 := by
          refine ⟨?_, ?_, ?_, ?_⟩
          · rw [Side.forall s, hsp1, hsp2]; exact ⟨by simp, c1.length _⟩
          · rw [Side.forall s, hsp1, hsp2]; exact ⟨⟨w2, fun h => absurd rfl h, hspine.2.2⟩, c1.spine _⟩
          · simpa using c1.root
          · simpa using c1.room
        have htl : ({ v1.withSpine s [nd'] with len := v.len + 1 }).toList = s.cons x v.toList := by
          rw [toList_eq _ s, ← tl1, toList_eq v1 s, hsp1, hsp2, hsp]
          simp [t2, Side.cons_add]
        have hl2 : ({ v1.withSpine s [nd'] with len := v.len + 1 }).len
            = ({ v1.withSpine s [nd'] with len := v.len + 1 }).toList.length := by
          rw [htl]; simp [hlen]
        by_cases hbig : 128 ≤ v.toList.length
        · exact fixup_silent c2 (by rw [htl]; simp; omega)
        · refine fixup_balanced c2 ?_ (.inr (q2 (by omega) _ ?_))
          · intro g0
            have g0' : v1.root.slots = 0 := by simpa using g0
            obtain ⟨iv, rfl⟩ := t1 rfl g0'
            have key : ∀ t a b, (({ v1.withSpine s [nd'] with len := v1.len + 1 }).spine t).getLast? = some a →
                (({ v1.withSpine s [nd'] with len := v1.len + 1 }).spine t.negate).getLast? = some b →
                minTop 1 ≤ a.slots + b.slots := by
              have base : ∀ b, (v1.spine s.negate).getLast? = some b → minTop 1 ≤ nd'.slots + b.slots := by
                intro b hb
                have h2 := (iv.top (by omega) g0' s y b (by simp [hsp]) hb).2
                omega
              rw [Side.forall s, Side.negate_negate, hsp1, hsp2]
              refine ⟨?_, ?_⟩
              · intro a b ha hb
                simp at ha
                subst ha
                exact base b hb
              · intro a b ha hb
                simp at hb
                subst hb
                have := base a ha
                omega
            exact key .front
          · have := c2.shows hl2
            rwa [htl] at this
    · exact .pure

/-- Between refilling the leaf and repairing the tops nothing is lost. -/
theorem emptyLeaf_refilled {v : RVec α} {h : Nat} (c : Core v h) (s : Side) {x : Node α}
    {rest : List (Node α)} (hsp : v.spine s = x :: rest) (hx : x.slots = 0) {z : Node α}
    (hz : (x :: rest).getLast? = some z) (hchk : (v.root.slots != 0 || z.slots != 0) = true)
    {q : List (Node α) × Node α}
    (eq : emptyLeafLoop s (lastEmpty rest 1 (rest.length) + 1) (x :: rest) v.root = .ok q) :
    Core (({ v with root := q.2 }).withSpine s q.1) h ∧ (({ v with root := q.2 }).withSpine s q.1).toList = v.toList := by
  have hlen := c.length s
  have hspine := c.spine s
  rw [hsp] at hlen hspine
  obtain ⟨E, r, e, hE, hr, hcnt⟩ := lastEmpty_ok rest 1 (Nat.le_refl _)
  have hEe : ∀ y ∈ x :: E, y.slots = 0 := by
    intro y hy; simp at hy; rcases hy with rfl | hy; exact hx; exact hE y hy
  have hwE : Spine 0 (x :: E) ∧ Spine (E.length + 1) r := by
    have : Spine 0 ((x :: E) ++ r) := by simpa [e] using hspine
    rw [spine_append] at this
    simpa using this
  have hEt : ∀ y ∈ x :: E, y.toList = [] := by
    intro y hy
    obtain ⟨j, hj, rfl⟩ := List.getElem_of_mem hy
    exact (hwE.1.getElem hj).1.slots_eq_zero.1 (hEe _ hy)
  have hEl : spineList s (x :: E) = [] := (spineList_eq_nil s).2 hEt
  -- the refilled spine and root
  obtain ⟨sp', root', e', hl', hS', hH', hw', hs', ht'⟩ : ∃ sp' root',
      emptyLeafLoop s (1 + E.length) (x :: rest) v.root = .ok (sp', root') ∧ sp'.length = h ∧
      Spine 0 sp' ∧ HeadOk sp' ∧ root'.Wf h ∧ root'.slots ≤ v.root.slots ∧
      s.add (spineList s sp') root'.toList = s.add (spineList s (x :: rest)) v.root.toList := by
    rcases hr with rfl | ⟨p, r, rfl, hp⟩
    · simp at e
      subst e
      have hlast : z.slots = 0 := hEe z (List.mem_of_getLast? hz)
      have hroot : v.root.slots ≠ 0 := by simpa [hlast] using hchk
      have hh : h = rest.length + 1 := by simpa using hlen.symm
      subst hh
      obtain ⟨D, root', q1, q2, q3, q4, q5, q6, q7⟩ := emptyLeafLoop_root s rest.length (x :: rest)
        v.root (by simp) c.root hroot
      exact ⟨D, root', by rw [Nat.add_comm]; exact q1, q2, q3, q4, q5, by omega,
        by rw [hEl, q7]; simp⟩
    · have hp' : p.Wf (E.length + 1) := hwE.2.1
      have hp63 := hwE.2.2.1 (by omega)
      obtain ⟨D, p', q1, q2, q3, q4, q5, -, q7, q8⟩ := emptyLeafLoop_spine s (E.length + 1) (x :: E) p r
        v.root (by simp) hp' hp
      have hlen2 : E.length + 1 + (r.length + 1) = h := by rw [← hlen, e]; simp; omega
      refine ⟨D ++ p' :: r, v.root, ?_, ?_, ?_, q4, c.root, Nat.le_refl _, ?_⟩
      · rw [Nat.add_comm, e]; exact q1
      · simp [q2]; omega
      · rw [spine_append, q2, Nat.zero_add]
        exact ⟨q3, q5, fun _ => by have := q7 (by omega); omega, hwE.2.2.2⟩
      · have : x :: rest = (x :: E) ++ p :: r := by simp [e]
        rw [this, spineList_append, spineList_append, hEl]
        simp [q8, Side.add_assoc]
  rw [show rest.length = 1 + rest.length - 1 by omega, hcnt, e'] at eq
  have eq := Except.ok.inj eq
  subst eq
  have c' : Core (({ v with root := root' }).withSpine s sp') h := by
    refine ⟨?_, ?_, ?_, ?_⟩
    · rw [Side.forall s]; simp [hl', c.length]
    · rw [Side.forall s]
      simp only [withSpine_same, withSpine_other, setRoot_spine]
      exact ⟨hS', c.spine _⟩
    · simpa using hw'
    · intro h0; have := c.room h0; simp; omega
  refine ⟨c', ?_⟩
  rw [toList_eq _ s, toList_eq v s]
  simp only [withSpine_same, withSpine_other, setRoot_spine, withSpine_root]
  rw [← Side.add_assoc, ht', hsp, Side.add_assoc]

/-- With more than 129 items `pop_side` leaves the vector as it was. -/
theorem popSide_left {v : RVec α} {h : Nat} (i : InvH v h) (s : Side) (hn : 129 < v.toList.length) (q : Q v) :
    Tracks cp Q (v.popSideC cp s) (v.popSide s) := by
  have hl := i.length s
  obtain ⟨x, l, he⟩ : ∃ x l, v.toList = s.cons x l := by
    cases s with
    | front =>
      cases hv : v.toList with
      | nil => rw [hv] at hn; simp at hn
      | cons x l => exact ⟨x, l, rfl⟩
    | back =>
      rcases List.eq_nil_or_concat v.toList with hv | ⟨l, x, hv⟩
      · rw [hv] at hn; simp at hn
      · exact ⟨x, l, by rw [hv, List.concat_eq_append]; rfl⟩
  have hln : 128 < l.length := by rw [he] at hn; simp at hn; omega
  unfold popSideC popSide
  refine .bind .steady fun _ _ => ?_
  cases hsp : v.spine s with
  | nil =>
    exfalso
    have h0 : h = 0 := by rw [hsp] at hl; simpa using hl.symm
    subst h0
    have hop : v.spine s.negate = [] := List.eq_nil_of_length_eq_zero (i.length _)
    have : v.toList = v.root.toList := by rw [toList_eq v s, hsp, hop]; simp
    obtain ⟨y, hy⟩ := Node.wf_zero.1 i.root
    have h1 := hy.slots
    have h2 := i.root.slots_le
    rw [← hy.toList, ← this] at h1
    omega
  | cons y rest =>
    simp only [List.isEmpty_cons, Bool.false_eq_true, if_false]
    have hln : v.leafNode s = y := by simp [leafNode, hsp]
    have hspine := i.spine s
    have hhead := i.head s
    rw [hsp] at hspine hhead hl
    simp at hhead
    obtain ⟨z, nd, e1, w1, s1, t1⟩ := Node.leafPop_ok hspine.1 s hhead
    have hv : v.withLeafNode s nd = v.withSpine s (nd :: rest) := by simp [withLeafNode, hsp]
    rw [hln]
    refine .touch (.inl q) (.bind .steady fun r hr => .bind .steady fun e hem => .bind ?_ fun _ _ =>
      .bind .steady fun _ _ => .pure)
    rw [e1] at hr
    have hr := Except.ok.inj hr
    subst hr
    simp only [hv]
    have htl : 128 < (v.withSpine s (nd :: rest)).toList.length := by
      have h1 : v.toList = s.cons z (v.withSpine s (nd :: rest)).toList := by
        rw [toList_eq v s, toList_eq _ s, hsp]
        simp [t1, Side.cons_add]
      rw [h1] at hn
      simp at hn
      omega
    have c2 : Core (v.withSpine s (nd :: rest)) h := by
      refine ⟨?_, ?_, ?_, ?_⟩
      · rw [Side.forall s]; simp only [withSpine_same, withSpine_other]; exact ⟨by simpa using hl, i.length _⟩
      · rw [Side.forall s]; simp only [withSpine_same, withSpine_other]
        exact ⟨⟨w1, fun h => absurd rfl h, hspine.2.2⟩, i.spine _⟩
      · simpa using i.root
      · simpa using i.room
    split
    · unfold emptyLeafC emptyLeaf
      simp only [withSpine_same, List.head?_cons, List.tail_cons]
      refine .bind .steady fun _ _ => .bind .steady fun f hf => .bind .steady fun _ hm => .bind .steady fun z hz =>
        .bind .steady fun _ hk => .bind .steady fun d hd => .bind .steady fun q hq => ?_
      have hf : nd = f := Except.ok.inj hf
      subst hf
      have hz : (nd :: rest).getLast? = some z := by
        rcases h : (nd :: rest).getLast? with _ | x <;> rw [h] at hz <;> simp [unwrap] at hz
        rw [hz]
      rw [usub_ok (by simp)] at hd
      have hd := Except.ok.inj hd
      simp at hd
      subst hd
      obtain ⟨c3, t3⟩ := emptyLeaf_refilled (v := v.withSpine s (nd :: rest)) c2 s (by simp) (by
        by_contra h
        rw [(by simpa using h : (nd.slots == 0) = false)] at hm
        simp at hm) hz (by
        by_contra h
        rw [Bool.not_eq_true] at h
        rw [h] at hk
        simp at hk) hq
      exact fixup_silent c3 (by rw [t3]; exact htl)
    · split
      · exact fixup_silent c2 htl
      · exact .pure

end RVec
end
end Librrb
