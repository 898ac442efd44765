import Verif.Proof.CircularIter
import Verif.Proof.Safe
import Verif.Model.CloneUnwindCut

/-!
# Vectors whose rings are in order, whatever else may be wrong with them
-/
namespace Librrb

/-- The call touches only live slots, and `P` holds for what it returns. -/
def Tidy (P : τ → Prop) (m : M τ) : Prop :=
  match m with
  | .ok a => P a
  | .error e => e ≠ .ub ∧ e ≠ .leak

namespace Tidy

theorem ok {P : τ → Prop} {a : τ} (h : P a) : Tidy P (.ok a : M τ) := h

theorem of_eq {P : τ → Prop} {m : M τ} {a : τ} (e : m = .ok a) (h : P a) : Tidy P m := by subst e; exact h

theorem bind {P : τ → Prop} {Q : υ → Prop} {m : M τ} {f : τ → M υ} (h : Tidy P m) (hf : ∀ a, P a → Tidy Q (f a)) :
    Tidy Q (m >>= f) := by
  cases m with
  | ok a => exact hf a h
  | error e => exact h

theorem mono {P Q : τ → Prop} {m : M τ} (h : Tidy P m) (hq : ∀ a, P a → Q a) : Tidy Q m := by
  cases m with
  | ok a => exact hq a h
  | error e => exact h

theorem panic {P : τ → Prop} : Tidy P (.error .panic : M τ) := ⟨nofun, nofun⟩

theorem diverge {P : τ → Prop} : Tidy P (.error .diverge : M τ) := ⟨nofun, nofun⟩

theorem massert {P : Unit → Prop} {c : Bool} (h : P ()) : Tidy P (massert c) := by
  unfold Librrb.massert
  split
  · exact h
  · exact panic

theorem usub {P : Nat → Prop} {a b : Nat} (h : ∀ n, P n) : Tidy P (usub a b) := by
  unfold Librrb.usub
  split
  · exact h _
  · exact ⟨nofun, nofun⟩

theorem uadd {P : Nat → Prop} {a b : Nat} (h : ∀ n, P n) : Tidy P (uadd a b) := by
  unfold Librrb.uadd
  split
  · exact h _
  · exact ⟨nofun, nofun⟩

theorem unwrap {P : τ → Prop} {x : Option τ} (h : ∀ a, x = some a → P a) : Tidy P (unwrap x) := by
  cases x with
  | none => exact panic
  | some a => exact h a rfl

theorem safe {P : τ → Prop} {m : M τ} (h : Tidy P m) : Safe m := by
  cases m with
  | ok a => exact .ok a
  | error e => exact ⟨fun h' => h.1 (by cases h'; rfl), fun h' => h.2 (by cases h'; rfl)⟩

end Tidy

/-- Every item of the option has the property. -/
abbrev Option.Each (P : τ → Prop) (o : Option τ) : Prop := ∀ a, o = some a → P a

namespace CB

/-- The ring is in order and all it holds has the property. -/
def All (P : α → Prop) (b : CB α) : Prop := ∃ l, Rep b l ∧ ∀ x ∈ l, P x

variable {P : α → Prop}

theorem All.new : All P (CB.new : CB α) := ⟨[], rep_new, nofun⟩

theorem All.push {b : CB α} (h : All P b) (s : Side) {x : α} (hx : P x) : Tidy (All P) (b.push s x) := by
  obtain ⟨l, r, hl⟩ := h
  by_cases h64 : l.length < 64
  · obtain ⟨b', e, r'⟩ := push_ok r s x h64
    refine .of_eq e ⟨_, r', fun y hy => ?_⟩
    cases s <;> simp [Side.cons] at hy <;> rcases hy with hy | hy <;> first | exact hl y hy | exact hy ▸ hx
  · rw [push_full r s x (by have := r.le; omega)]
    exact Tidy.panic

theorem All.pushBack {b : CB α} (h : All P b) {x : α} (hx : P x) : Tidy (All P) (b.pushBack x) := h.push .back hx

theorem All.pushFront {b : CB α} (h : All P b) {x : α} (hx : P x) : Tidy (All P) (b.pushFront x) := h.push .front hx

theorem All.pop {b : CB α} (h : All P b) (s : Side) : Tidy (fun r => P r.1 ∧ All P r.2) (b.pop s) := by
  obtain ⟨l, r, hl⟩ := h
  by_cases h0 : l = []
  · subst h0
    rw [pop_empty r s]
    exact Tidy.panic
  · obtain ⟨x, l, rfl⟩ := s.exists_cons h0
    obtain ⟨b', e, r'⟩ := pop_ok r
    refine .of_eq e ⟨hl x ?_, _, r', fun y hy => hl y ?_⟩ <;> cases s <;> simp [Side.cons, *]

theorem All.popFront {b : CB α} (h : All P b) : Tidy (fun r => P r.1 ∧ All P r.2) b.popFront := h.pop .front

theorem All.popBack {b : CB α} (h : All P b) : Tidy (fun r => P r.1 ∧ All P r.2) b.popBack := h.pop .back

theorem All.get {b : CB α} (h : All P b) (i : Nat) : Tidy (fun o => ∀ a, o = some a → P a) (b.get i) := by
  obtain ⟨l, r, hl⟩ := h
  exact .of_eq (get_ok r i) fun a e => hl a (List.mem_of_getElem? e)

theorem All.back {b : CB α} (h : All P b) : Tidy (fun o => ∀ a, o = some a → P a) b.back := by
  obtain ⟨l, r, hl⟩ := h
  exact .of_eq (back_ok r) fun a e => hl a (List.mem_of_getLast? e)

theorem All.set {b : CB α} (h : All P b) (i : Nat) {x : α} (hx : P x) :
    Tidy (fun o => ∀ a, o = some a → All P a) (b.set i x) := by
  obtain ⟨l, r, hl⟩ := h
  by_cases hi : i < l.length
  · obtain ⟨b', e, r'⟩ := set_ok r hi x
    refine .of_eq e fun a ha => ?_
    cases ha
    refine ⟨_, r', fun y hy => ?_⟩
    rcases List.mem_or_eq_of_mem_set hy with hy | hy
    · exact hl y hy
    · exact hy ▸ hx
  · rw [set_none r (by omega) x]
    exact .ok nofun

theorem All.freeSpace {b : CB α} (h : All P b) {Q : Nat → Prop} (hq : ∀ n, Q n) : Tidy Q b.freeSpace := Tidy.usub hq

theorem All.decantInto {b d : CB α} (h : All P b) (h' : All P d) (s : Side) (n : Nat) :
    Tidy (fun r => All P r.2.1 ∧ All P r.2.2) (b.decantInto d s n) := by
  obtain ⟨l, r, hl⟩ := h
  obtain ⟨l', r', hl'⟩ := h'
  obtain ⟨moved, rest, b', d', e1, -, e, ra, rb⟩ := decantInto_ok r r' s n
  subst e1
  refine .of_eq e ⟨⟨_, ra, fun x hx => hl x ?_⟩, _, rb, fun x hx => ?_⟩
  · cases s <;> simp [Side.add, hx]
  · have : x ∈ moved ∨ x ∈ l' := by cases s <;> simp [Side.add, Side.negate] at hx <;> tauto
    rcases this with hm | hm
    · exact hl x (by cases s <;> simp [Side.add, hm])
    · exact hl' x hm

/-- A slot that a position of the ring names, and what is written there. -/
theorem All.slot {b : CB α} (h : All P b) {i : Nat} (hi : i < b.len) :
    Tidy P (readSlot b.data (b.indexFor i)) ∧
    ∀ {x : α}, P x → Tidy (fun d => All P { b with data := d }) (assignSlot b.data (b.indexFor i) x) := by
  obtain ⟨l, r, hl⟩ := h
  have hi' : i < l.length := by have := r.len_eq; omega
  refine ⟨.of_eq (r.read hi') (hl _ (List.getElem_mem _)), fun {x} hx => ?_⟩
  obtain ⟨d, e, r'⟩ := assignSlot_ok r hi' x
  refine .of_eq e ⟨_, r', fun y hy => ?_⟩
  rcases List.mem_or_eq_of_mem_set hy with hy | hy
  · exact hl y hy
  · exact hy ▸ hx

theorem All.pairMut {b : CB α} (i j : Nat) :
    Tidy (fun p => p = (b.indexFor i, b.indexFor j) ∧ i < b.len ∧ j < b.len) (b.pairMut i j) := by
  unfold CB.pairMut
  refine .bind (P := fun _ => True) (.massert trivial) fun _ _ => ?_
  refine .bind (P := fun _ => i < b.len) ?_ fun _ h1 => .bind (P := fun _ => j < b.len) ?_ fun _ h2 => ?_
  · unfold Librrb.massert; split
    · rename_i hd; exact .ok (of_decide_eq_true hd)
    · exact Tidy.panic
  · unfold Librrb.massert; split
    · rename_i hd; exact .ok (of_decide_eq_true hd)
    · exact Tidy.panic
  · simp only
    split <;> exact .bind (P := fun _ => True) (.massert trivial) fun _ _ => ⟨rfl, h1, h2⟩

theorem All.foldIter {σ : Type} {I : σ → Prop} {f : σ → α → M σ} {b : CB α} (h : All P b) (hf : ∀ s x, I s → P x → Tidy I (f s x))
    {s : σ} (hs : I s) : Tidy I (b.foldIter f s) := by
  obtain ⟨l, r, hl⟩ := h
  rw [foldIter_ok f r]
  clear r
  induction l generalizing s with
  | nil => exact hs
  | cons x l ih =>
    rw [List.foldlM_cons]
    exact .bind (hf s x hs (hl x (by simp))) fun s' hs' => ih hs' fun y hy => hl y (by simp [hy])

theorem forEachMut_tidy (f : α → M α) (hf : ∀ x, P x → Tidy P (f x)) : ∀ (post pre : List α) (b : CB α), Rep b (pre ++ post) →
    (∀ x ∈ pre ++ post, P x) →
    Tidy (All P) (forEachMut f post.length { front := (b.front + pre.length) % 64, len := post.length } b) := by
  intro post
  induction post with
  | nil =>
    intro pre b h hp
    simp only [List.length_nil, forEachMut, IterMut.next]
    exact .ok ⟨_, h, hp⟩
  | cons x post ih =>
    intro pre b h hp
    have hr := h.read (i := pre.length) (by simp)
    simp at hr
    simp only [List.length_cons, forEachMut, IterMut.next, Nat.add_eq_zero_iff, Nat.succ_ne_zero, and_false, beq_iff_eq, if_false,
      usub_ok (show 1 ≤ post.length + 1 by omega), ok_bind, hr]
    refine .bind (hf x (hp x (by simp))) fun y hy => ?_
    obtain ⟨d, e, h'⟩ := assignSlot_ok h (i := pre.length) (by simp) y
    rw [show (pre ++ x :: post).set pre.length y = (pre ++ [y]) ++ post by simp] at h'
    unfold indexFor at e
    rw [e]
    simp only [ok_bind]
    have key := ih (pre ++ [y]) { b with data := d } h' (fun z hz => by
      simp at hz
      rcases hz with hz | hz | hz
      · exact hp z (by simp [hz])
      · exact hz ▸ hy
      · exact hp z (by simp [hz]))
    simp only [List.length_append, List.length_singleton] at key
    rw [show ((b.front + pre.length) % 64 + 1) % 64 = (b.front + (pre.length + 1)) % 64 by omega]
    exact key

theorem All.mapMut {f : α → M α} {b : CB α} (h : All P b) (hf : ∀ x, P x → Tidy P (f x)) : Tidy (All P) (b.mapMut f) := by
  obtain ⟨l, r, hl⟩ := h
  have key := forEachMut_tidy f hf l [] b (by simpa using r) (by simpa using hl)
  have := r.front_lt
  rw [CB.mapMut, iterMut, r.len_eq]
  simp only [List.length_nil, Nat.add_zero, Nat.mod_eq_of_lt this] at key
  exact key

end CB

namespace SizeTable

/-- The ring of the table is in order. What it says is not looked at. -/
def Sound (t : SizeTable) : Prop := t.buffer.All fun _ => True

theorem Sound.new (level : Nat) : (SizeTable.new level).Sound := CB.All.new

theorem Sound.cumulativeSize {t : SizeTable} (h : t.Sound) {P : Nat → Prop} (hp : ∀ n, P n) : Tidy P t.cumulativeSize :=
  .bind (CB.All.back h) fun _ _ => .ok (hp _)

theorem Sound.getChildSize {t : SizeTable} (h : t.Sound) {P : Option Nat → Prop} (hp : ∀ n, P n) (i : Nat) :
    Tidy P (t.getChildSize i) := by
  unfold SizeTable.getChildSize
  split
  · exact (CB.All.get h 0).mono fun a _ => hp a
  · split
    · refine .bind (CB.All.get h i) fun a _ => .bind (P := fun _ => True) (.unwrap fun _ _ => trivial) fun a _ => ?_
      refine .bind (CB.All.get h (i - 1)) fun b _ => .bind (P := fun _ => True) (.unwrap fun _ _ => trivial) fun b _ => ?_
      exact .bind (P := fun _ => True) (.usub fun _ => trivial) fun _ _ => .ok (hp _)
    · exact .ok (hp _)

theorem Sound.getChildRange {t : SizeTable} (h : t.Sound) {P : Option (Nat × Nat) → Prop} (hp : ∀ n, P n) (i : Nat) :
    Tidy P (t.getChildRange i) := by
  unfold SizeTable.getChildRange
  split
  · split
    · exact .bind (CB.All.get h 0) fun a _ => .bind (P := fun _ => True) (.unwrap fun _ _ => trivial) fun a _ => .ok (hp _)
    · refine .bind (CB.All.get h (i - 1)) fun a _ => .bind (P := fun _ => True) (.unwrap fun _ _ => trivial) fun a _ => ?_
      exact .bind (CB.All.get h i) fun a _ => .bind (P := fun _ => True) (.unwrap fun _ _ => trivial) fun a _ => .ok (hp _)
  · exact .ok (hp _)

theorem positionLoop_tidy {t : SizeTable} {l : List Nat} (r : t.buffer.Rep l) {P : Option (Nat × Nat) → Prop} (hp : ∀ n, P n)
    (idx : Nat) : ∀ (fuel i last k bk : Nat), k ≤ l.length →
    Tidy P (t.positionLoop idx fuel i last { consumed := k, front := (t.buffer.front + k) % 64, back := bk }) := by
  intro fuel
  induction fuel with
  | zero => intro _ _ _ _ _; exact Tidy.diverge
  | succ fuel ih =>
    intro i last k bk hk
    have hlen := r.len_eq
    unfold SizeTable.positionLoop CB.Iter.next
    simp only
    by_cases hkl : k = l.length
    · rw [if_pos (by simp [hkl, hlen])]
      exact .ok (hp _)
    · rw [if_neg (by simp [hlen, hkl]), r.read (i := k) (by omega)]
      simp only [ok_bind]
      split
      · exact .bind (P := fun _ => True) (.usub fun _ => trivial) fun _ _ => .ok (hp _)
      · have key := ih (i + 1) l[k] (k + 1) bk (by omega)
        rw [show (t.buffer.front + (k + 1)) % 64 = ((t.buffer.front + k) % 64 + 1) % 64 by omega] at key
        exact key

theorem Sound.positionInfoFor {t : SizeTable} (h : t.Sound) {P : Option (Nat × Nat) → Prop} (hp : ∀ n, P n) (idx : Nat) :
    Tidy P (t.positionInfoFor idx) := by
  obtain ⟨l, r, -⟩ := h
  have key := positionLoop_tidy r hp idx (t.buffer.len + 1) 0 0 0 ((t.buffer.front + t.buffer.len) % 64) (Nat.zero_le _)
  simp only [Nat.add_zero, Nat.mod_eq_of_lt r.front_lt] at key
  exact key

theorem Sound.pushChild {t : SizeTable} (h : t.Sound) (side : Side) (size : Nat) : Tidy Sound (t.pushChild side size) := by
  cases side with
  | back =>
    refine .bind (CB.All.back h) fun last _ => ?_
    cases last with
    | some n => exact .bind (CB.All.push h .back trivial) fun b hb => .ok hb
    | none => exact .bind (CB.All.push h .back trivial) fun b hb => .ok hb
  | front =>
    refine .bind (CB.All.mapMut h fun _ _ => .ok trivial) fun b hb => ?_
    exact .bind (hb.pushFront trivial) fun b hb => .ok hb

theorem Sound.popChild {t : SizeTable} (h : t.Sound) (side : Side) : Tidy (fun r => r.2.Sound) (t.popChild side) := by
  cases side with
  | back =>
    refine .bind (CB.All.pop h .back) fun r hr => .bind hr.2.back fun last _ => ?_
    cases last with
    | some n => exact .bind (P := fun _ => True) (.usub fun _ => trivial) fun _ _ => .ok hr.2
    | none => exact .ok hr.2
  | front =>
    refine .bind (CB.All.popFront h) fun r hr => ?_
    exact .bind (hr.2.mapMut fun _ _ => .usub fun _ => trivial) fun b hb => .ok hb

end SizeTable

namespace Node

/-- All rings of the node and of the nodes below are in order. -/
inductive Sound : Node α → Prop
  | leaf {b : CB α} (h : b.All fun _ => True) : Sound (.leaf b)
  | internal {s : SizeTable} {t : Tag} {c : CB (Node α)} {ks : List (Node α)} (hs : s.Sound) (hc : c.Rep ks)
      (hk : ∀ k ∈ ks, Sound k) : Sound (.internal s t c)

theorem sound_leaf {b : CB α} : (Node.leaf b).Sound ↔ b.All fun _ => True :=
  ⟨fun h => by cases h; assumption, .leaf⟩

theorem sound_internal {s : SizeTable} {t : Tag} {c : CB (Node α)} : (Node.internal s t c).Sound ↔ s.Sound ∧ c.All Sound :=
  ⟨fun h => by cases h with | internal hs hc hk => exact ⟨hs, _, hc, hk⟩, fun ⟨hs, _, hc, hk⟩ => .internal hs hc hk⟩

variable {nd : Node α}

theorem Sound.emptyLeaf : (Node.emptyLeaf : Node α).Sound := .leaf CB.All.new

theorem emptyInternal_tidy (n : Nat) : Tidy Sound (Node.emptyInternal n : M (Node α)) := by
  refine .bind (P := fun _ => True) (.massert trivial) fun _ _ => ?_
  split <;> exact .ok (sound_internal.2 ⟨.new _, CB.All.new⟩)

theorem Sound.newEmpty (h : nd.Sound) : nd.newEmpty.Sound := by
  cases nd with
  | leaf b => exact .emptyLeaf
  | internal s t c => exact sound_internal.2 ⟨.new _, CB.All.new⟩

theorem Sound.len (h : nd.Sound) {P : Nat → Prop} (hp : ∀ n, P n) : Tidy P nd.len := by
  cases nd with
  | leaf b => exact .ok (hp _)
  | internal s t c => exact (sound_internal.1 h).1.cumulativeSize hp

theorem Sound.isEmpty (h : nd.Sound) {P : Bool → Prop} (hp : ∀ n, P n) : Tidy P nd.isEmpty :=
  .bind (h.len (P := fun _ => True) fun _ => trivial) fun _ _ => .ok (hp _)

theorem freeSlots_tidy {P : Nat → Prop} (hp : ∀ n, P n) : Tidy P nd.freeSlots := by
  cases nd with
  | leaf b => exact Tidy.usub hp
  | internal s t c => exact Tidy.usub hp

theorem isFull_tidy {P : Bool → Prop} (hp : ∀ n, P n) : Tidy P nd.isFull :=
  .bind (freeSlots_tidy (P := fun _ => True) fun _ => trivial) fun _ _ => .ok (hp _)

theorem shareSizes_tidy (side : Side) : ∀ (n : Nat) {s d : SizeTable}, s.Sound → d.Sound →
    Tidy (fun r => r.1.Sound ∧ r.2.Sound) (shareSizes side n s d) := by
  intro n
  induction n with
  | zero => intro s d hs hd; exact .ok ⟨hs, hd⟩
  | succ n ih => intro s d hs hd; exact .bind (hs.popChild side) fun r hr => .bind (hd.pushChild _ _) fun d hd => ih hr hd

theorem Sound.shareChildrenWith {dst : Node α} (h : nd.Sound) (h' : dst.Sound) (side : Side) (n : Nat) :
    Tidy (fun r => r.2.1.Sound ∧ r.2.2.Sound) (nd.shareChildrenWith dst side n) := by
  cases nd with
  | leaf b =>
    cases dst with
    | leaf d =>
      refine .bind ((sound_leaf.1 h).decantInto (sound_leaf.1 h') side n) fun r hr => ?_
      exact .ok ⟨sound_leaf.2 hr.1, sound_leaf.2 hr.2⟩
    | internal s t c => exact Tidy.panic
  | internal s t c =>
    cases dst with
    | leaf d => exact Tidy.panic
    | internal s' t' c' =>
      obtain ⟨h1, h2⟩ := sound_internal.1 h
      obtain ⟨h1', h2'⟩ := sound_internal.1 h'
      refine .bind (P := fun _ => True) (.massert trivial) fun _ _ => .bind (P := fun _ => True) (.massert trivial) fun _ _ =>
        .bind (P := fun _ => True) (.massert trivial) fun _ _ => .bind (h2.decantInto h2' side n) fun r hr => ?_
      refine .bind (P := fun q => q.1.Sound ∧ q.2.Sound) ?_ fun q hq =>
        .ok ⟨sound_internal.2 ⟨hq.1, hr.1⟩, sound_internal.2 ⟨hq.2, hr.2⟩⟩
      split
      · exact shareSizes_tidy side _ h1 h1'
      · exact .ok ⟨h1, h1'⟩

theorem packTrim_tidy : ∀ (n : Nat) {c : CB (Node α)}, c.All Sound → Tidy (CB.All Sound) (packTrim n c) := by
  intro n
  induction n with
  | zero => intro c h; exact Tidy.diverge
  | succ n ih =>
    intro c h
    refine .bind h.back fun o ho => .bind (.unwrap ho) fun last hl => .bind (hl.isEmpty (P := fun _ => True) fun _ => trivial)
      fun e _ => ?_
    split
    · exact .bind h.popBack fun r hr => ih hr.2
    · exact .ok h

theorem Sound.popChild (h : nd.Sound) (side : Side) : Tidy (fun r => r.1.Sound ∧ r.2.Sound) (nd.popChild side) := by
  cases nd with
  | leaf b => exact Tidy.panic
  | internal s t c =>
    obtain ⟨h1, h2⟩ := sound_internal.1 h
    exact .bind (h1.popChild side) fun r hr => .bind (h2.pop side) fun q hq => .ok ⟨hq.1, sound_internal.2 ⟨hr, hq.2⟩⟩

theorem checkTag_tidy {P : Unit → Prop} (h : P ()) (t : Tag) : Tidy P (checkTag t nd) := by
  cases nd <;> exact .massert h

theorem Sound.pushChild {child : Node α} (h : nd.Sound) (side : Side) (hc : child.Sound) : Tidy Sound (nd.pushChild side child) := by
  cases nd with
  | leaf b => exact Tidy.panic
  | internal s t c =>
    obtain ⟨h1, h2⟩ := sound_internal.1 h
    refine .bind (hc.len (P := fun _ => True) fun _ => trivial) fun n _ => .bind (h1.pushChild side n) fun s hs =>
      .bind (P := fun _ => True) (checkTag_tidy trivial t) fun _ _ => .bind (h2.push side hc) fun c hc => ?_
    exact .ok (sound_internal.2 ⟨hs, hc⟩)

theorem Sound.leafPush (h : nd.Sound) (side : Side) (x : α) : Tidy Sound (nd.leafPush side x) := by
  cases nd with
  | leaf b => exact .bind ((sound_leaf.1 h).push side trivial) fun b hb => .ok (sound_leaf.2 hb)
  | internal s t c => exact Tidy.panic

theorem Sound.leafPop (h : nd.Sound) (side : Side) : Tidy (fun r => r.2.Sound) (nd.leafPop side) := by
  cases nd with
  | leaf b => exact .bind ((sound_leaf.1 h).pop side) fun r hr => .ok (sound_leaf.2 hr.2)
  | internal s t c => exact Tidy.panic

theorem getAux_tidy : ∀ (n : Nat) {nd : Node α}, nd.Sound → ∀ i, Tidy (fun _ => True) (getAux n nd i) := by
  intro n
  induction n with
  | zero => intro nd h i; exact Tidy.diverge
  | succ n ih =>
    intro nd h i
    cases nd with
    | leaf b => exact ((sound_leaf.1 h).get i).mono fun _ _ => trivial
    | internal s t c =>
      obtain ⟨h1, h2⟩ := sound_internal.1 h
      refine .bind (h1.positionInfoFor (P := fun _ => True) (fun _ => trivial) i) fun p _ => ?_
      cases p with
      | none => exact .ok trivial
      | some p => exact .bind (h2.get p.1) fun o ho => .bind (.unwrap ho) fun child hc => ih hc _

theorem setAux_tidy : ∀ (n : Nat) {nd : Node α}, nd.Sound → ∀ i x, Tidy (fun o => ∀ a, o = some a → a.Sound) (setAux n nd i x) := by
  intro n
  induction n with
  | zero => intro nd h i x; exact Tidy.diverge
  | succ n ih =>
    intro nd h i x
    cases nd with
    | leaf b =>
      refine .bind ((sound_leaf.1 h).set i (x := x) trivial) fun o ho => .ok fun a ha => ?_
      cases o with
      | none => cases ha
      | some b' => cases ha; exact sound_leaf.2 (ho _ rfl)
    | internal s t c =>
      obtain ⟨h1, h2⟩ := sound_internal.1 h
      refine .bind (h1.positionInfoFor (P := fun _ => True) (fun _ => trivial) i) fun p _ => ?_
      cases p with
      | none => exact .ok nofun
      | some p =>
        refine .bind (h2.get p.1) fun o ho => .bind (.unwrap ho) fun child hc => .bind (ih hc p.2 x) fun r hr => ?_
        cases r with
        | none => exact .ok nofun
        | some child' =>
          refine .bind (h2.set p.1 (hr _ rfl)) fun o ho => .bind (.unwrap ho) fun c hc => .ok fun a ha => ?_
          cases ha
          exact sound_internal.2 ⟨h1, hc⟩

theorem debugCheckAux_tidy : ∀ (n : Nat) {nd : Node α}, nd.Sound → ∀ a b, Tidy (fun _ => True) (debugCheckAux n nd a b) := by
  intro n
  induction n with
  | zero => intro nd h a b; exact Tidy.diverge
  | succ n ih =>
    intro nd h a b
    cases nd with
    | leaf c => exact .bind (P := fun _ => True) (.massert trivial) fun _ _ => .massert trivial
    | internal s t c =>
      obtain ⟨h1, h2⟩ := sound_internal.1 h
      refine .bind (P := fun _ => True) (.massert trivial) fun _ _ => .bind (P := fun _ => True) (.massert trivial) fun _ _ =>
        .bind (P := fun _ => True) (h2.foldIter (fun st child _ hc => ?_) trivial) fun _ _ => .massert trivial
      refine .bind (h1.getChildSize (P := fun _ => True) (fun _ => trivial) _) fun o _ =>
        .bind (P := fun _ => True) (.unwrap fun _ _ => trivial) fun n' _ => .bind (P := fun _ => True) (.usub fun _ => trivial) fun _ _ => ?_
      exact .bind (ih hc _ _) fun _ _ => .ok trivial

theorem Sound.debugCheck (h : nd.Sound) (a b : Nat) : Tidy (fun _ => True) (nd.debugCheck a b) := debugCheckAux_tidy _ h a b

theorem splitLoop_tidy : ∀ (n : Nat) {b o : CB α}, b.All (fun _ => True) → o.All (fun _ => True) →
    Tidy (fun r => r.1.All (fun _ => True) ∧ r.2.All fun _ => True) (splitLoop n b o) := by
  intro n
  induction n with
  | zero => intro b o hb ho; exact .ok ⟨hb, ho⟩
  | succ n ih =>
    intro b o hb ho
    exact .bind (hb.pop .front) fun r hr => .bind (ho.push .back trivial) fun o ho => ih hr.2 ho

theorem Sound.splitAtChild (h : nd.Sound) (i : Nat) : Tidy (fun r => r.1.Sound ∧ r.2.Sound) (nd.splitAtChild i) := by
  cases nd with
  | leaf b =>
    simp only [Node.splitAtChild]
    split
    · exact .bind (splitLoop_tidy i (sound_leaf.1 h) CB.All.new) fun r hr => .ok ⟨sound_leaf.2 hr.2, sound_leaf.2 hr.1⟩
    · exact Tidy.panic
  | internal s t c =>
    simp only [Node.splitAtChild]
    split
    · exact .bind (h.shareChildrenWith h.newEmpty .front i) fun r hr => .ok ⟨hr.2, hr.1⟩
    · exact Tidy.panic

end Node

end Librrb
