import Verif.Proof.Sound
import Verif.Proof.CloneUnwind

/-!
# Calls on vectors whose rings are in order
-/
namespace Librrb

/-- All nodes of the list are in order. -/
abbrev Sounds (l : List (Node α)) : Prop := ∀ x ∈ l, x.Sound

theorem Sounds.append {a b : List (Node α)} (ha : Sounds a) (hb : Sounds b) : Sounds (a ++ b) := fun x hx =>
  (List.mem_append.1 hx).elim (ha x) (hb x)

theorem Sounds.cons {x : Node α} {b : List (Node α)} (ha : x.Sound) (hb : Sounds b) : Sounds (x :: b) := fun y hy => by
  rcases List.mem_cons.1 hy with rfl | hy
  · exact ha
  · exact hb y hy

theorem Sounds.one {x : Node α} (h : x.Sound) : Sounds [x] := .cons h nofun

theorem Sounds.take {a : List (Node α)} (h : Sounds a) (n : Nat) : Sounds (a.take n) := fun x hx => h x (List.mem_of_mem_take hx)

theorem Sounds.drop {a : List (Node α)} (h : Sounds a) (n : Nat) : Sounds (a.drop n) := fun x hx => h x (List.mem_of_mem_drop hx)

theorem Sounds.dropLast {a : List (Node α)} (h : Sounds a) : Sounds a.dropLast := fun x hx => h x ((List.dropLast_sublist a).mem hx)

theorem Sounds.tail {a : List (Node α)} (h : Sounds a) : Sounds a.tail := fun x hx => h x (List.mem_of_mem_tail hx)

theorem Sounds.reverse {a : List (Node α)} (h : Sounds a) : Sounds a.reverse := fun x hx => h x (List.mem_reverse.1 hx)

theorem Sounds.set {a : List (Node α)} (h : Sounds a) (i : Nat) {x : Node α} (hx : x.Sound) : Sounds (a.set i x) := fun y hy => by
  rcases List.mem_or_eq_of_mem_set hy with hy | rfl
  · exact h y hy
  · exact hx

theorem Sounds.last {a : List (Node α)} (h : Sounds a) : Tidy Node.Sound (unwrap a.getLast?) :=
  .unwrap fun _ e => h _ (List.mem_of_getLast? e)

theorem Sounds.head {a : List (Node α)} (h : Sounds a) : Tidy Node.Sound (unwrap a.head?) :=
  .unwrap fun _ e => h _ (List.mem_of_head? e)

theorem Sounds.get {a : List (Node α)} (h : Sounds a) (i : Nat) : Tidy Node.Sound (unwrap a[i]?) :=
  .unwrap fun _ e => h _ (List.mem_of_getElem? e)

theorem Sounds.headD {a : List (Node α)} (h : Sounds a) {d : Node α} (hd : d.Sound) : (a.head?.getD d).Sound := by
  cases a with
  | nil => exact hd
  | cons x a => exact h x (by simp)

namespace RVec

/-- All rings of the vector are in order, whatever else is wrong with it. -/
structure Sound (v : RVec α) : Prop where
  left : Sounds v.left
  right : Sounds v.right
  root : v.root.Sound

theorem Sound.of {l r : List (Node α)} {t : Node α} {n : Nat} (hl : Sounds l) (hr : Sounds r) (ht : t.Sound) :
    (⟨l, r, t, n⟩ : RVec α).Sound := ⟨hl, hr, ht⟩

theorem Sounds.nil : Sounds ([] : List (Node α)) := nofun

theorem Sound.new : (RVec.new : RVec α).Sound := ⟨nofun, nofun, .emptyLeaf⟩

variable {v : RVec α}

theorem Sound.spine (h : v.Sound) (s : Side) : Sounds (v.spine s) := by
  cases s
  · exact h.left
  · exact h.right

theorem Sound.withSpine (h : v.Sound) (s : Side) {sp : List (Node α)} (hs : Sounds sp) : (v.withSpine s sp).Sound := by
  cases s
  · exact ⟨hs, h.right, h.root⟩
  · exact ⟨h.left, hs, h.root⟩

theorem Sound.leafNode (h : v.Sound) (s : Side) : (v.leafNode s).Sound := (h.spine s).headD h.root

theorem Sound.withLeafNode (h : v.Sound) (s : Side) {nd : Node α} (hn : nd.Sound) : (v.withLeafNode s nd).Sound := by
  unfold RVec.withLeafNode
  have := h.spine s
  split
  · exact ⟨h.left, h.right, hn⟩
  · rename_i e
    rw [e] at this
    exact h.withSpine s (.cons hn this.tail)

theorem Sound.leafFreeSpace {nd : Node α} (h : nd.Sound) : Tidy (fun _ => True) (leafFreeSpace nd) := by
  cases nd with
  | leaf b => exact (Node.sound_leaf.1 h).freeSpace fun _ => trivial
  | internal s t c => exact Tidy.panic

theorem completeLoop_tidy (side : Side) : ∀ (n : Nat) (sp : List (Node α)) (root : Node α), Sounds sp → root.Sound →
    Tidy (fun r => Sounds r.1 ∧ r.2.Sound) (completeLoop side n sp root) := by
  intro n
  induction n with
  | zero => intro sp root h h'; exact .ok ⟨h, h'⟩
  | succ n ih =>
    intro sp root h h'
    cases sp with
    | nil => exact .ok ⟨h, h'⟩
    | cons node rest =>
      have hn := h node (by simp)
      refine .bind (Node.freeSlots_tidy (P := fun _ => True) fun _ => trivial) fun free _ => ?_
      split
      · exact .ok ⟨h, h'⟩
      · cases rest with
        | nil => exact .bind (h'.pushChild side hn) fun root hr => .ok ⟨.one hn.newEmpty, hr⟩
        | cons p rest =>
          have hp := h p (by simp)
          exact .bind (hp.pushChild side hn) fun p hp => .bind (ih _ _ (.cons hp h.tail.tail) h') fun r hr =>
            .ok ⟨.cons hn.newEmpty hr.1, hr.2⟩

theorem emptyLeafLoop_tidy (side : Side) : ∀ (n : Nat) (sp : List (Node α)) (root : Node α), Sounds sp → root.Sound →
    Tidy (fun r => Sounds r.1 ∧ r.2.Sound) (emptyLeafLoop side n sp root) := by
  intro n
  induction n with
  | zero => intro sp root h h'; exact .ok ⟨h, h'⟩
  | succ n ih =>
    intro sp root h h'
    refine .bind (P := fun _ => True) (.massert trivial) fun _ _ => ?_
    cases e : sp[n + 1]? with
    | none => exact .bind (h'.popChild side) fun r hr => ih _ _ (h.set _ hr.1) hr.2
    | some p =>
      have hp := h p (List.mem_of_getElem? e)
      exact .bind (hp.popChild side) fun r hr => ih _ _ ((h.set _ hr.2).set _ hr.1) h'

theorem findLoop_tidy (index : Nat) : ∀ (L R : List (Node α)) (i fe bs : Nat), Sounds L → Sounds R →
    Tidy (fun _ => True) (findLoop index L R i fe bs) := by
  intro L
  induction L with
  | nil =>
    intro R i fe bs _ _
    exact .bind (P := fun _ => True) (.massert trivial) fun _ _ => .bind (P := fun _ => True) (.usub fun _ => trivial) fun _ _ => .ok trivial
  | cons l ls ih =>
    intro R i fe bs hl hr
    cases R with
    | nil =>
      exact .bind (P := fun _ => True) (.massert trivial) fun _ _ => .bind (P := fun _ => True) (.usub fun _ => trivial) fun _ _ => .ok trivial
    | cons r rs =>
      refine .bind ((hl l (by simp)).len (P := fun _ => True) fun _ => trivial) fun n _ => ?_
      split
      · exact .bind (P := fun _ => True) (.usub fun _ => trivial) fun _ _ => .ok trivial
      · refine .bind ((hr r (by simp)).len (P := fun _ => True) fun _ => trivial) fun n' _ =>
          .bind (P := fun _ => True) (.usub fun _ => trivial) fun _ _ => ?_
        split
        · exact .bind (P := fun _ => True) (.usub fun _ => trivial) fun _ _ => .ok trivial
        · exact ih _ _ _ _ hl.tail hr.tail

theorem Sound.find (h : v.Sound) (i : Nat) : Tidy (fun _ => True) (v.findNodeInfoForIndex i) := by
  unfold findNodeInfoForIndex
  split
  · exact .ok trivial
  · exact .bind (findLoop_tidy i _ _ _ _ _ h.left h.right) fun _ _ => .ok trivial

theorem Sound.nodeAt (h : v.Sound) (pos : Option (Side × Nat)) : Tidy Node.Sound (v.nodeAt pos) := by
  rcases pos with _ | ⟨_ | _, i⟩
  · exact .ok h.root
  · exact h.left.get i
  · exact h.right.get i

theorem Sound.withNodeAt (h : v.Sound) (pos : Option (Side × Nat)) {nd : Node α} (hn : nd.Sound) : (v.withNodeAt pos nd).Sound := by
  rcases pos with _ | ⟨_ | _, i⟩
  · exact ⟨h.left, h.right, hn⟩
  · exact ⟨h.left.set i hn, h.right, h.root⟩
  · exact ⟨h.left, h.right.set i hn, h.root⟩

theorem Sound.frontBack (h : v.Sound) (s : Side) : Tidy (fun _ => True) (v.frontBack s) := by
  unfold RVec.frontBack
  have := h.leafNode s
  generalize v.leafNode s = nd at this
  cases nd with
  | leaf b => cases s <;> exact ((Node.sound_leaf.1 this).get _).mono fun _ _ => trivial
  | internal _ _ _ => exact Tidy.panic

theorem Sound.setFrontBack (h : v.Sound) (s : Side) (x : α) : Tidy (fun o => ∀ a, o = some a → a.Sound) (v.setFrontBack s x) := by
  unfold RVec.setFrontBack
  have := h.leafNode s
  generalize v.leafNode s = nd at this
  refine .bind (P := fun o => ∀ a, o = some a → a.Sound) ?_ fun r hr => ?_
  · cases nd with
    | leaf b =>
      cases s <;>
      · refine .bind ((Node.sound_leaf.1 this).set _ (x := x) trivial) fun o ho => .ok fun a ha => ?_
        cases o with
        | none => cases ha
        | some b' => cases ha; exact Node.sound_leaf.2 (ho _ rfl)
    | internal _ _ _ => exact Tidy.panic
  · cases r with
    | none => exact .ok nofun
    | some nd => exact .ok fun a ha => by cases ha; exact h.withLeafNode s (hr _ rfl)

theorem pushUp_tidy (side : Side) {child : Node α} {sp : List (Node α)} {root : Node α} (hc : child.Sound) (hs : Sounds sp)
    (hr : root.Sound) : Tidy (fun r => Sounds r.1 ∧ r.2.Sound) (pushUp side child sp root) := by
  refine .bind (hc.isEmpty (P := fun _ => True) fun _ => trivial) fun e _ => ?_
  split
  · exact .ok ⟨hs, hr⟩
  · cases sp with
    | nil => exact .bind (hr.pushChild side hc) fun r h => .ok ⟨nofun, h⟩
    | cons p rest => exact .bind ((hs p (by simp)).pushChild side hc) fun p h => .ok ⟨.cons h hs.tail, hr⟩

theorem firstUp_tidy (side : Side) {sp : List (Node α)} {root : Node α} (hs : Sounds sp) (hr : root.Sound) :
    Tidy (fun r => Sounds r.1 ∧ r.2.Sound) (firstUp side sp root) := by
  cases sp with
  | nil => exact .ok ⟨hs, hr⟩
  | cons c rest => exact pushUp_tidy side (hs c (by simp)) hs.tail hr

theorem dropEmpty_tidy : ∀ (sp : List (Node α)), Sounds sp → Tidy Sounds (dropEmpty sp)
  | [], h => .ok h
  | x :: xs, h => by
    refine .bind ((h x (by simp)).isEmpty (P := fun _ => True) fun _ => trivial) fun e _ => ?_
    split
    · exact dropEmpty_tidy xs h.tail
    · exact .ok h

theorem popTops_tidy : ∀ (n : Nat) {v : RVec α}, v.Sound → Tidy Sound (popTops n v) := by
  intro n
  induction n with
  | zero =>
    intro v h
    refine .bind (h.root.isEmpty (P := fun _ => True) fun _ => trivial) fun e _ => ?_
    split
    · exact Tidy.diverge
    · exact .ok h
  | succ n ih =>
    intro v h
    refine .bind (h.root.isEmpty (P := fun _ => True) fun _ => trivial) fun e _ => ?_
    split
    · split
      · exact .bind h.right.last fun nd hn => ih ⟨h.left, h.right.dropLast, hn⟩
      · exact .bind h.left.last fun nd hn => ih ⟨h.left.dropLast, h.right, hn⟩
    · exact .ok h

theorem fillLoop_tidy (side : Side) : ∀ (n : Nat) (sp : List (Node α)) (root : Node α), Sounds sp → root.Sound →
    Tidy (fun r => Sounds r.2.1 ∧ r.2.2.Sound) (fillLoop side n sp root) := by
  intro n
  induction n with
  | zero => intro sp root h h'; exact Tidy.diverge
  | succ n ih =>
    intro sp root h h'
    unfold fillLoop
    have hd := h.headD h'
    split
    · exact .ok ⟨h, h'⟩
    · rename_i e
      rw [e] at hd
      refine .bind (hd.popChild side) fun r hr => ?_
      cases sp with
      | nil => exact ih _ _ (.one hr.1) hr.2
      | cons _ rest => exact ih _ _ (.cons hr.1 (.cons hr.2 h.tail)) h'

theorem Sound.fillSpineMore (h : v.Sound) (k : Nat) (s : Side) : Tidy (fun r => r.2.Sound) (v.fillSpineMore k s) :=
  .bind (fillLoop_tidy s _ _ _ (h.spine s) h.root) fun r hr =>
    .ok (Sound.withSpine (v := { v with root := r.2.2 }) ⟨h.left, h.right, hr.2⟩ s hr.1)

end RVec

/-- The call touches only live slots, `P` holds for what it returns, and the rings of what it leaves behind are in order. -/
def CTidy (P : τ → Prop) (m : CM γ α τ) : Prop := ∀ g,
  match (m g).1 with
  | .ok a => P a
  | .error (.fault e) => e ≠ .ub ∧ e ≠ .leak
  | .error (.unwound w) => w.Sound

namespace CTidy

variable {cp : Copier γ α}

theorem pure {P : τ → Prop} {a : τ} (h : P a) : CTidy P (Pure.pure a : CM γ α τ) := fun _ => h

theorem steady {P : τ → Prop} {m : M τ} (h : Tidy P m) : CTidy P (steady m : CM γ α τ) := fun g => by
  unfold Librrb.steady
  cases m with
  | ok a => exact h
  | error e => exact h

theorem bind {P : τ → Prop} {Q : υ → Prop} {m : CM γ α τ} {f : τ → CM γ α υ} (h : CTidy P m) (hf : ∀ a, P a → CTidy Q (f a)) :
    CTidy Q (m >>= f) := fun g => by
  have := h g
  rw [CM.bind_apply]
  cases e : m g with
  | mk r g' =>
    rw [e] at this
    cases r with
    | ok a => exact hf a this g'
    | error s => cases s <;> exact this

theorem mono {P Q : τ → Prop} {m : CM γ α τ} (h : CTidy P m) (hq : ∀ a, P a → Q a) : CTidy Q m := fun g => by
  have := h g
  revert this
  cases (m g).1 with
  | ok a => exact hq a
  | error s => cases s <;> exact id

theorem leaving {P : τ → Prop} {m : CM γ α τ} {w : RVec α} (h : CTidy P m) (hw : w.Sound) : CTidy P (Librrb.leaving w m) := fun g => by
  have := h g
  unfold Librrb.leaving
  cases e : m g with
  | mk r g' =>
    rw [e] at this
    cases r with
    | ok a => exact this
    | error s =>
      cases s with
      | fault e => exact this
      | unwound w' => exact hw

theorem massert {c : Bool} : CTidy (fun _ => True) (Librrb.steady (massert c) : CM γ α Unit) := .steady (.massert trivial)

theorem touch {left : RVec α} (h : left.Sound) (nd : Node α) : CTidy (fun _ => True) (cp.touch left nd) := by
  cases nd with
  | leaf b =>
    intro g
    have key : cp.touch left (.leaf b) g = (.ok (), g) ∨ cp.touch left (.leaf b) g = (.ok (), (cp g (Node.leaf b).toList).2) ∨
        cp.touch left (.leaf b) g = (.error (.unwound left), (cp g (Node.leaf b).toList).2) := by
      simp only [Copier.touch]
      split
      · exact .inl rfl
      · cases cp g (Node.leaf b).toList with
        | mk r g' => cases r <;> simp
    rcases key with e | e | e <;> rw [e]
    · trivial
    · trivial
    · exact h
  | internal _ _ _ => exact .pure trivial

theorem share {left : RVec α} (h : left.Sound) {src dst : Node α} (hs : src.Sound) (hd : dst.Sound) (side : Side) (n : Nat) :
    CTidy (fun r => r.2.1.Sound ∧ r.2.2.Sound) (cp.share left src dst side n) :=
  .bind (touch h dst) fun _ _ => .bind (touch h src) fun _ _ => .steady (hs.shareChildrenWith hd side n)

end CTidy

namespace Node

variable {cp : Copier γ α}

theorem splitAtPositionAuxC_tidy : ∀ (fuel : Nat) (left : Node α → RVec α) (nd : Node α) (pos : Nat),
    (∀ x : Node α, x.Sound → (left x).Sound) → nd.Sound →
    CTidy (fun r => r.1.Sound ∧ r.2.Sound) (splitAtPositionAuxC cp fuel left nd pos) := by
  intro fuel
  induction fuel with
  | zero => intro left nd pos _ _; exact .steady Tidy.diverge
  | succ fuel ih =>
    intro left nd pos hl h
    cases nd with
    | leaf b => exact .bind (.touch (hl _ h) _) fun _ _ => .steady (h.splitAtChild pos)
    | internal s t c =>
      have hs := (sound_internal.1 h).1
      refine .bind (.steady (h.len (P := fun _ => True) fun _ => trivial)) fun n _ => .bind .massert fun _ _ =>
        .bind (.steady (hs.positionInfoFor (P := fun _ => True) (fun _ => trivial) pos)) fun info _ =>
        .bind (P := fun _ => True) (.steady (.unwrap fun _ _ => trivial)) fun p _ =>
        .bind (.steady (h.splitAtChild p.1)) fun r hr => .bind (.steady (hr.2.popChild .front)) fun q hq =>
        .bind (.steady (hq.1.len (P := fun _ => True) fun _ => trivial)) fun nl _ =>
        .bind (P := fun f : Node α × Node α => f.1.Sound ∧ f.2.Sound) ?_ fun fin hf =>
        .bind (.steady (debugCheckAux_tidy _ hf.1 _ _)) fun _ _ => .bind (P := fun _ => True) (.steady (.usub fun _ => trivial)) fun d _ =>
        .bind (.steady (debugCheckAux_tidy _ hf.2 _ _)) fun _ _ => .pure hf
      split
      · exact .bind (.steady (hq.2.pushChild .front hq.1)) fun _ h' => .pure ⟨hr.1, h'⟩
      · split
        · exact .bind (.steady (hr.1.pushChild .back hq.1)) fun _ h' => .pure ⟨h', hq.2⟩
        · exact .bind (ih _ _ _ (fun _ _ => hl _ hr.1) hq.1) fun sub hsub => .bind (.steady (hr.1.pushChild .back hsub.1)) fun _ h1 =>
            .bind (.steady (hq.2.pushChild .front hsub.2)) fun _ h2 => .pure ⟨h1, h2⟩

theorem Sound.splitAtPositionC {nd : Node α} (h : nd.Sound) {left : Node α → RVec α} (hl : ∀ x : Node α, x.Sound → (left x).Sound)
    (pos : Nat) : CTidy (fun r => r.1.Sound ∧ r.2.Sound) (nd.splitAtPositionC cp left pos) :=
  splitAtPositionAuxC_tidy _ _ _ _ hl h

theorem packLoopC_tidy {left : RVec α} (hl : left.Sound) : ∀ (fuel i j : Nat) (c : CB (Node α)), c.All Sound →
    CTidy (CB.All Sound) (packLoopC cp left fuel i j c) := by
  intro fuel
  induction fuel with
  | zero =>
    intro i j c h
    unfold packLoopC
    split
    · exact .steady Tidy.diverge
    · exact .pure h
  | succ fuel ih =>
    intro i j c h
    unfold packLoopC
    split
    · split
      · exact ih _ _ _ h
      · refine .bind (.steady (CB.All.pairMut i j)) fun p hp => ?_
        obtain ⟨rfl, hi, hj⟩ := hp
        refine .bind (.steady (h.slot hi).1) fun write hw => .bind (.steady (h.slot hj).1) fun read hr =>
          .bind (.touch hl _) fun _ _ => .bind (.touch hl _) fun _ _ => .bind (.steady (hr.shareChildrenWith hw .front _)) fun r hr =>
          .bind (.steady ((h.slot hi).2 hr.2)) fun d hd => .bind (.steady ((hd.slot (i := j) hj).2 hr.1)) fun d' hd' =>
          .bind (P := fun _ => True) (.steady (isFull_tidy fun _ => trivial)) fun _ _ =>
          .bind (P := fun _ => True) (.steady (hr.1.isEmpty fun _ => trivial)) fun _ _ => ih _ _ _ hd'
    · exact .pure h

theorem Sound.packChildrenC {left : RVec α} (hl : left.Sound) {nd : Node α} (h : nd.Sound) :
    CTidy Sound (nd.packChildrenC cp left) := by
  cases nd with
  | leaf b => exact .steady Tidy.panic
  | internal s t c =>
    have hc := (sound_internal.1 h).2
    refine .bind (P := fun _ => True) (.steady (h.isEmpty fun _ => trivial)) fun e _ => ?_
    split
    · exact .pure h
    · refine .bind .massert fun _ _ => .bind .massert fun _ _ => .bind (packLoopC_tidy hl _ _ _ _ hc) fun c hc =>
        .bind (.steady (packTrim_tidy _ hc)) fun c hc =>
        .bind (P := SizeTable.Sound) (.steady (hc.foldIter (fun s x hs hx => ?_) (.new _))) fun s hs =>
        .bind .massert fun _ _ => .bind .massert fun _ _ => .pure (sound_internal.2 ⟨hs, hc⟩)
      exact .bind (hx.len (P := fun _ => True) fun _ => trivial) fun n _ => hs.pushChild .back n

theorem touchAux_tidy {left : RVec α} (hl : left.Sound) : ∀ (fuel : Nat) (nd : Node α) (i : Nat), nd.Sound →
    CTidy (fun _ => True) (touchAux cp left fuel nd i) := by
  intro fuel
  induction fuel with
  | zero => intro nd i h; exact .steady Tidy.diverge
  | succ fuel ih =>
    intro nd i h
    cases nd with
    | leaf b => exact .touch hl _
    | internal s t c =>
      obtain ⟨hs, hc⟩ := sound_internal.1 h
      refine .bind (.steady (hs.positionInfoFor (P := fun _ => True) (fun _ => trivial) i)) fun p _ => ?_
      rcases p with _ | ⟨a, b⟩
      · exact .pure trivial
      · exact .bind (.steady (hc.get a)) fun o ho => .bind (.steady (.unwrap ho)) fun child hch => ih _ _ hch

end Node

namespace RVec

variable {cp : Copier γ α} {v : RVec α}

theorem Sound.fixupStepC (h : v.Sound) : CTidy (fun r => r.1.Sound) (v.fixupStepC cp) := by
  refine .bind (.steady h.left.last) fun lt hlt => .bind (.steady h.right.last) fun rt hrt => ?_
  extract_lets lc rc total difference mc
  split
  · exact .bind (.share (.of h.left.dropLast h.right.dropLast h.root) hlt hrt _ _) fun r hr =>
      .pure ⟨h.left.dropLast, h.right.dropLast, hr.2⟩
  · split
    · split
      · exact .bind (.share h hlt hrt _ _) fun r hr =>
          .pure ⟨h.left.dropLast.append (.one hr.1), h.right.dropLast.append (.one hr.2), h.root⟩
      · exact .bind (.share h hrt hlt _ _) fun r hr =>
          .pure ⟨h.left.dropLast.append (.one hr.2), h.right.dropLast.append (.one hr.1), h.root⟩
    · exact .pure h

theorem fixupLoopC_tidy : ∀ (fuel : Nat) {v : RVec α}, v.Sound → CTidy Sound (fixupLoopC cp fuel v) := by
  intro fuel
  induction fuel with
  | zero =>
    intro v h
    unfold fixupLoopC
    split
    · exact .steady Tidy.diverge
    · exact .pure h
  | succ fuel ih =>
    intro v h
    unfold fixupLoopC
    split
    · refine .bind h.fixupStepC fun r hr => ?_
      split
      · exact ih hr
      · exact .pure hr
    · exact .pure h

theorem Sound.fixupC (h : v.Sound) : CTidy Sound (v.fixupSpineTopsC cp) := fixupLoopC_tidy _ h

theorem Sound.completeLeafC (h : v.Sound) (s : Side) : CTidy Sound (v.completeLeafC cp s) := by
  refine .bind .massert fun _ _ => .bind (.steady (Sound.leafFreeSpace (h.leafNode s))) fun _ _ => .bind .massert fun _ _ =>
    .bind (.steady (completeLoop_tidy s _ _ _ (h.spine s) h.root)) fun r hr => ?_
  simp only
  split
  · refine .bind (.steady (Node.emptyInternal_tidy _)) fun nr hn => ?_
    have h' : ({ v with root := nr } : RVec α).Sound := ⟨h.left, h.right, hn⟩
    exact .bind (.share (h'.withSpine s hr.1) hr.2 hr.2.newEmpty _ _) fun q hq =>
      .pure ((h'.withSpine s (hr.1.append (.one hq.1))).withSpine _ ((h.spine _).append (.one hq.2)))
  · have h' : ({ v with root := r.2 } : RVec α).Sound := ⟨h.left, h.right, hr.2⟩
    split
    · exact (h'.withSpine s hr.1).fixupC
    · exact .pure (h'.withSpine s hr.1)

theorem Sound.pushSideC (h : v.Sound) (s : Side) (x : α) : CTidy Sound (v.pushSideC cp s x) := by
  refine .bind (.steady (Sound.leafFreeSpace (h.leafNode s))) fun free _ => .bind (P := Sound) ?_ fun v h =>
    .bind (.touch h _) fun _ _ => .bind (.steady ((h.leafNode s).leafPush s x)) fun nd hn =>
    .bind (P := fun _ => True) (.steady (.uadd fun _ => trivial)) fun len _ => ?_
  · split
    · exact h.completeLeafC s
    · exact .pure h
  · have h' : ({ v.withLeafNode s nd with len := len } : RVec α).Sound :=
      ⟨(h.withLeafNode s hn).left, (h.withLeafNode s hn).right, (h.withLeafNode s hn).root⟩
    simp only
    split
    · exact h'.fixupC
    · exact .pure h'

theorem Sound.emptyLeafC (h : v.Sound) (s : Side) : CTidy Sound (v.emptyLeafC cp s) := by
  refine .bind .massert fun _ _ => .bind (.steady (h.spine s).head) fun _ _ => .bind .massert fun _ _ =>
    .bind (.steady (h.spine s).last) fun _ _ => .bind .massert fun _ _ =>
    .bind (P := fun _ => True) (.steady (.usub fun _ => trivial)) fun _ _ =>
    .bind (.steady (emptyLeafLoop_tidy s _ _ _ (h.spine s) h.root)) fun r hr => ?_
  exact (Sound.withSpine (v := { v with root := r.2 }) ⟨h.left, h.right, hr.2⟩ s hr.1).fixupC

theorem Sound.popSideC (h : v.Sound) (s : Side) : CTidy (fun r => r.2.Sound) (v.popSideC cp s) := by
  refine .bind .massert fun _ _ => ?_
  split
  · refine .bind (P := fun _ => True) (.steady (h.root.isEmpty fun _ => trivial)) fun e _ => ?_
    split
    · exact .bind (P := fun _ => True) (.steady (.usub fun _ => trivial)) fun len _ =>
        .bind (.touch (.of h.left h.right h.root) _) fun _ _ => .bind (.steady (h.root.leafPop s)) fun r hr =>
        .pure ⟨h.left, h.right, hr⟩
    · exact .pure h
  · refine .bind (.touch h _) fun _ _ => .bind (.steady ((h.leafNode s).leafPop s)) fun r hr => ?_
    have h' := h.withLeafNode s hr
    refine .bind (P := fun _ => True) (.steady (hr.isEmpty fun _ => trivial)) fun e _ => .bind (P := Sound) ?_ fun v h =>
      .bind (P := fun _ => True) (.steady (.usub fun _ => trivial)) fun len _ => .pure ⟨h.left, h.right, h.root⟩
    split
    · exact h'.emptyLeafC s
    · split
      · exact h'.fixupC
      · exact .pure h'

theorem Sound.setC (h : v.Sound) (i : Nat) (x : α) : CTidy (fun o => ∀ a, o = some a → a.Sound) (v.setC cp i x) := by
  refine .bind (.steady (h.find i)) fun p _ => ?_
  rcases p with _ | ⟨pos, sub⟩
  · exact .pure nofun
  · exact .bind (.steady (h.nodeAt pos)) fun nd hn => .bind (Node.touchAux_tidy h _ _ _ hn) fun _ _ =>
      .bind (.steady (Node.setAux_tidy _ hn sub x)) fun r hr => .bind (.steady (.unwrap hr)) fun nd hn =>
      .pure fun a ha => by cases ha; exact h.withNodeAt pos hn

theorem Sound.setFrontBackC (h : v.Sound) (s : Side) (x : α) :
    CTidy (fun o => ∀ a, o = some a → a.Sound) (v.setFrontBackC cp s x) :=
  .bind (.touch h _) fun _ _ => .steady (h.setFrontBack s x)

theorem Sound.repairC (h : v.Sound) (s : Side) : CTidy Sound (v.repairC cp s) := by
  refine .bind (.steady (dropEmpty_tidy _ (h.spine s))) fun sp hs => .bind (.steady (popTops_tidy _ (h.withSpine s hs))) fun v h =>
    .bind (.steady (h.fillSpineMore _ s)) fun r hr => .bind (P := Sound) ?_ fun v h => h.fixupC
  split
  · exact .bind hr.fixupC fun v h => h.emptyLeafC s
  · exact .pure hr

theorem Sound.cutC (h : v.Sound) (pos : Option (Side × Nat)) (sub k : Nat) :
    CTidy (fun r => r.1.Sound ∧ r.2.Sound) (v.cutC cp pos sub k) := by
  refine .bind (P := fun _ => True) (.steady (.usub fun _ => trivial)) fun rest _ => ?_
  rcases pos with _ | ⟨_ | _, p⟩
  · exact .bind (h.root.splitAtPositionC (left := fun t => ⟨_, _, t, _⟩) (fun x hx => .of h.left Sounds.nil hx) sub) fun r hr =>
      .pure ⟨⟨h.left, nofun, hr.1⟩, ⟨nofun, h.right, hr.2⟩⟩
  · exact .bind (.steady (h.left.get p)) fun nd hn =>
      .bind (hn.splitAtPositionC (left := fun _ => ⟨_, _, _, _⟩) (fun x _ => .of (h.left.take p) h.right h.root) sub) fun r hr =>
      .pure ⟨⟨h.left.take p, nofun, hr.1⟩, ⟨.cons hr.2 (h.left.drop _), h.right, h.root⟩⟩
  · exact .bind (.steady (h.right.get p)) fun nd hn =>
      .bind (hn.splitAtPositionC (left := fun _ => ⟨_, _, _, _⟩) (fun x _ => .of h.left (h.right.drop _) h.root) sub) fun r hr =>
      .pure ⟨⟨h.left, .cons hr.1 (h.right.drop _), h.root⟩, ⟨nofun, (h.right.take p).append (.one hr.2), .emptyLeaf⟩⟩

theorem Sound.splitOffC (h : v.Sound) (k : Nat) : CTidy (fun r => r.1.Sound ∧ r.2.Sound) (v.splitOffC cp k) := by
  unfold RVec.splitOffC
  split
  · exact .pure ⟨.new, h⟩
  · split
    · exact .pure ⟨h, .new⟩
    · exact .bind (.steady (h.find k)) fun info _ => .bind (P := fun _ => True) (.steady (.unwrap fun _ _ => trivial)) fun p _ =>
        .bind (h.cutC _ _ _) fun c hc => .bind (hc.1.repairC .back) fun a ha => .bind ((hc.2.repairC .front).leaving ha) fun b hb =>
        .pure ⟨ha, hb⟩

theorem raiseSelfC_tidy : ∀ (fuel t : Nat) {v : RVec α}, v.Sound → CTidy Sound (raiseSelfC cp fuel t v) := by
  intro fuel
  induction fuel with
  | zero =>
    intro t v h
    unfold raiseSelfC
    split
    · exact .steady Tidy.diverge
    · exact .pure h
  | succ fuel ih =>
    intro t v h
    unfold raiseSelfC
    split
    · exact .bind (.steady (Node.emptyInternal_tidy _)) fun nr hn =>
        .bind (.share (.of h.left h.right hn) h.root h.root.newEmpty _ _) fun r hr =>
        ih _ ⟨h.left.append (.one hr.1), h.right.append (.one hr.2), hn⟩
    · exact .pure h

theorem raiseOtherC_tidy {w : RVec α} (hw : w.Sound) : ∀ (fuel t : Nat) {v : RVec α}, v.Sound →
    CTidy Sound (raiseOtherC cp w fuel t v) := by
  intro fuel
  induction fuel with
  | zero =>
    intro t v h
    unfold raiseOtherC
    split
    · exact .steady Tidy.diverge
    · exact .pure h
  | succ fuel ih =>
    intro t v h
    unfold raiseOtherC
    split
    · exact .bind (.steady (Node.emptyInternal_tidy _)) fun nr hn =>
        .bind (.share hw h.root h.root.newEmpty _ _) fun r hr =>
        ih _ ⟨h.left.append (.one hr.2), h.right.append (.one hr.1), hn⟩
    · exact .pure h

theorem stealLoopC_tidy {w : RVec α} (hw : w.Sound) : ∀ (fuel : Nat) {a b : Node α}, a.Sound → b.Sound →
    CTidy (fun r => r.1.Sound ∧ r.2.Sound) (stealLoopC cp w fuel a b) := by
  intro fuel
  induction fuel with
  | zero =>
    intro a b ha hb
    refine .bind (P := fun _ => True) (.steady (Node.isFull_tidy fun _ => trivial)) fun _ _ =>
      .bind (P := fun _ => True) (.steady (hb.isEmpty fun _ => trivial)) fun _ _ => ?_
    split
    · exact .steady Tidy.diverge
    · exact .pure ⟨ha, hb⟩
  | succ fuel ih =>
    intro a b ha hb
    refine .bind (P := fun _ => True) (.steady (Node.isFull_tidy fun _ => trivial)) fun _ _ =>
      .bind (P := fun _ => True) (.steady (hb.isEmpty fun _ => trivial)) fun _ _ => ?_
    split
    · refine .bind (.steady (hb.popChild .front)) fun p hp => .bind (.share hw hp.1 ha _ _) fun r hr =>
        .bind (P := fun _ => True) (.steady (hr.1.isEmpty fun _ => trivial)) fun e _ => .bind (P := Node.Sound) ?_ fun b hb =>
        ih hr.2 hb
      split
      · exact .steady (hp.2.pushChild .front hr.1)
      · exact .pure hp.2
    · exact .pure ⟨ha, hb⟩

theorem joinLevelC_tidy {w : RVec α} (hw : w.Sound) {a b : Node α} (ha : a.Sound) (hb : b.Sound) :
    CTidy (fun r => r.1.Sound ∧ r.2.Sound) (joinLevelC cp w a b) :=
  .bind (Node.Sound.packChildrenC hw ha) fun a ha => .bind (.steady (ha.popChild .back)) fun p hp =>
    .bind (stealLoopC_tidy hw _ hp.1 hb) fun r hr => .bind (.steady (hp.2.pushChild .back hr.1)) fun l hl =>
    .bind (Node.Sound.packChildrenC hw hr.2) fun b hb => .bind (.steady (hb.shareChildrenWith hl .front _)) fun q hq =>
    .pure ⟨hq.2, hq.1⟩

theorem appendLoopC_tidy {put : List (Node α) → Node α → RVec α} (hp : ∀ sp t, Sounds sp → t.Sound → (put sp t).Sound) :
    ∀ (n : Nat) (ls ol : List (Node α)) (root oroot : Node α), Sounds ls → Sounds ol → root.Sound → oroot.Sound →
    CTidy (fun r => r.1.Sound ∧ r.2.Sound) (appendLoopC cp put n ls ol root oroot) := by
  intro n
  induction n with
  | zero =>
    intro ls ol root oroot h1 h2 h3 h4
    cases ls with
    | nil => exact .bind .massert fun _ _ => .pure ⟨h3, h4⟩
    | cons l ls => exact .steady Tidy.diverge
  | succ n ih =>
    intro ls ol root oroot h1 h2 h3 h4
    cases ls with
    | nil => exact .bind .massert fun _ _ => .pure ⟨h3, h4⟩
    | cons l ls =>
      exact .bind (.steady h2.head) fun q hq =>
        .bind (joinLevelC_tidy (hp _ _ (Sounds.reverse h1.tail) h3) (h1 l (by simp)) hq) fun j hj =>
        .bind (.steady (pushUp_tidy .back hj.1 h1.tail h3)) fun r hr => .bind (.steady (pushUp_tidy .front hj.2 h2.tail h4)) fun s hs =>
        ih _ _ _ _ hr.1 hs.1 hr.2 hs.2

end RVec

end Librrb
