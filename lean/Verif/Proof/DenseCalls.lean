import Verif.Props.Height
import Verif.HeapSpec

/-!
# Calls that do not concatenate leave no room in the tree
-/
namespace Librrb

/-- If the call returns, then with this. -/
def Gives (P : τ → Prop) (m : M τ) : Prop := ∀ x, m = .ok x → P x

namespace Gives

theorem ok {P : τ → Prop} {x : τ} (h : P x) : Gives P (.ok x) := fun y e => by cases e; exact h

theorem error {P : τ → Prop} {f : Fault} : Gives P (.error f) := fun y e => by cases e

theorem bind {P : τ → Prop} {Q : υ → Prop} {m : M τ} {f : τ → M υ} (h : Gives P m) (hf : ∀ x, P x → Gives Q (f x)) :
    Gives Q (m >>= f) := fun y e => by
  obtain ⟨x, e1, e2⟩ := RVec.bind_ok e
  exact hf x (h x e1) y e2

theorem any {m : M τ} : Gives (fun _ => True) m := fun _ _ => trivial

theorem mono {P Q : τ → Prop} {m : M τ} (h : Gives P m) (hf : ∀ x, P x → Q x) : Gives Q m := fun x e => hf x (h x e)

end Gives

theorem Node.writeAt_slots {x : α} : ∀ {p : List Nat} {nd : Node α}, Gives (fun nd' => nd'.slots = nd.slots) (nd.writeAt x p)
  | [_], .leaf b => Gives.any.bind fun _ _ => .ok rfl
  | _ :: _ :: _, .internal _ _ _ => Gives.any.bind fun _ _ => Gives.any.bind fun _ _ => Gives.any.bind fun _ _ => .ok rfl
  | [], .leaf _ | [], .internal _ _ _ | [_], .internal _ _ _ | _ :: _ :: _, .leaf _ => .error

/-- How many items there are and could be. -/
def RVec.Sized (c n : Nat) (v : RVec α) : Prop := v.cap = c ∧ v.len = n

theorem spineCap_set : ∀ {sp : List (Node α)} {n k : Nat} {x y : Node α}, sp[k]? = some x → y.slots = x.slots →
    spineCap n (sp.set k y) = spineCap n sp
  | z :: sp, n, 0, x, y, h, e => by
    cases h
    simp only [List.set_cons_zero, spineCap, e]
  | z :: sp, n, k + 1, x, y, h, e => by
    simp only [List.set_cons_succ, spineCap, spineCap_set (sp := sp) (n := n + 1) (k := k) h e]

theorem RVec.writeCell_sized {v : RVec α} {x : α} {c : Cell} {k n : Nat} (h : v.Sized k n) : Gives (Sized k n) (v.writeCell x c) := by
  intro w e
  unfold writeCell at e
  obtain ⟨nd, e1, e⟩ := bind_ok e
  obtain ⟨nd', e2, e⟩ := bind_ok e
  cases e
  have hs := Node.writeAt_slots nd' e2
  obtain ⟨rfl, rfl⟩ := h
  obtain ⟨p, path⟩ := c
  match p, e1 with
  | none, e1 =>
    cases e1
    exact ⟨by simp only [withNodeAt, cap, hs], rfl⟩
  | some (.front, i), e1 =>
    have e1 := unwrap_eq e1
    refine ⟨?_, rfl⟩
    simp only [withNodeAt, withSpine, cap, spine]
    rw [spineCap_set e1 hs, List.length_set]
  | some (.back, i), e1 =>
    have e1 := unwrap_eq e1
    refine ⟨?_, rfl⟩
    simp only [withNodeAt, withSpine, cap, spine]
    rw [spineCap_set e1 hs]

theorem RVec.swapCells_sized {v : RVec α} {c d : Cell} {k n : Nat} (h : v.Sized k n) : Gives (Sized k n) (v.swapCells c d) :=
  Gives.any.bind fun _ _ => Gives.any.bind fun _ _ => (writeCell_sized h).bind fun _ h => writeCell_sized h

namespace SortFocus
variable {o : SortFocus σ φ} {Q : σ → Prop}

theorem minLoop_gives (hs : ∀ s a i b j, Q s → Gives (fun r => Q r.1) (o.swap s a i b j)) {k : Nat} :
    ∀ (n i : Nat) (s : σ) (f r : φ), Q s → Gives (fun r => Q r.1) (minLoop o k n i s f r) := by
  intro n
  induction n with
  | zero => intro i s f r h; exact .ok h
  | succ n ih =>
    intro i s f r h
    rw [minLoop]
    split
    · exact ih _ _ _ _ h
    · refine Gives.any.bind fun x _ => ?_
      split
      · exact (hs _ _ _ _ _ h).bind fun y hy => ih _ _ _ _ hy
      · exact ih _ _ _ _ h

theorem partLoop_gives (hs : ∀ s a i b j, Q s → Gives (fun r => Q r.1) (o.swap s a i b j)) :
    ∀ (n : Nat) (s : σ) (p : Parts φ), Q s → Gives (fun r => Q r.1) (partLoop o n s p) := by
  intro n
  induction n with
  | zero => intro s p h; exact .error
  | succ n ih =>
    intro s p h
    rw [partLoop]
    split
    · refine Gives.bind (P := fun r => Q r.1) ?_ fun r hr => ih _ _ hr
      unfold partStep
      refine Gives.any.bind fun a _ => Gives.any.bind fun b _ => ?_
      dsimp only
      split
      · exact Gives.any.bind fun _ _ => (hs _ _ _ _ _ h).bind fun y hy => .ok hy
      split
      · exact Gives.any.bind fun _ _ => (hs _ _ _ _ _ h).bind fun y hy => .ok hy
      split
      · exact Gives.any.bind fun _ _ => Gives.any.bind fun _ _ => Gives.any.bind fun _ _ => Gives.any.bind fun _ _ =>
          (hs _ _ _ _ _ h).bind fun y hy => .ok hy
      · exact .ok h
    · exact .ok h

theorem sort_gives (hs : ∀ s a i b j, Q s → Gives (fun r => Q r.1) (o.swap s a i b j)) (next : ρ → Nat × ρ) :
    ∀ (n : Nat) (s : σ) (rng : ρ) (f : φ), Q s → Gives (fun r => Q r.1) (o.sort next n s rng f) := by
  intro n
  induction n with
  | zero => intro s rng f h; exact .error
  | succ n ih =>
    intro s rng f h
    rw [sort]
    split
    · exact .ok h
    refine Gives.any.bind fun p _ => Gives.any.bind fun _ _ => Gives.any.bind fun _ _ => ?_
    refine Gives.bind (P := fun r => Q r.1) ?_ fun q hq => ?_
    · split
      · exact hs _ _ _ _ _ h
      · exact .ok h
    refine Gives.any.bind fun c _ => ?_
    split
    · exact ih _ _ _ hq
    refine Gives.any.bind fun lc _ => (hs _ _ _ _ _ hq).bind fun w hw => (minLoop_gives hs _ _ _ _ _ hw).bind fun m hm =>
      Gives.any.bind fun g _ => Gives.any.bind fun _ _ => Gives.any.bind fun e _ => Gives.any.bind fun _ _ => Gives.any.bind fun _ _ =>
      (partLoop_gives hs _ _ _ hm).bind fun r hr => (ih _ _ _ hr).bind fun x hx => ?_
    split
    · exact ih _ _ _ hx
    · exact .ok hx

end SortFocus

namespace RVec

theorem sortRangeBy_sized {v : RVec α} {k n : Nat} (h : v.Sized k n) (cmp : α → α → Ordering) (sb eb : Bound) (next : ρ → Nat × ρ)
    (rng : ρ) : Gives (Sized k n) (v.sortRangeBy cmp sb eb next rng) := by
  refine Gives.any.bind fun _ _ => Gives.any.bind fun _ _ => Gives.any.bind fun _ _ =>
    (SortFocus.sort_gives (Q := Sized k n) ?_ next _ _ _ _ h).bind fun r hr => .ok hr
  exact fun s a i b j hs => Gives.any.bind fun _ _ => Gives.any.bind fun _ _ => (swapCells_sized hs).bind fun w hw => .ok hw

theorem dualSortRangeBy_sized {v : RVec α} {w : RVec β} {k n k' n' : Nat} (h : v.Sized k n) (h' : w.Sized k' n')
    (cmp : α → α → Ordering) (sb eb : Bound) (next : ρ → Nat × ρ) (rng : ρ) :
    Gives (fun r => r.1.Sized k n ∧ r.2.Sized k' n') (v.dualSortRangeBy w cmp sb eb next rng) := by
  refine Gives.any.bind fun _ _ => Gives.any.bind fun _ _ => Gives.any.bind fun _ _ => Gives.any.bind fun _ _ =>
    (SortFocus.sort_gives (Q := fun r => r.1.Sized k n ∧ r.2.Sized k' n') ?_ next _ _ _ _ ⟨h, h'⟩).bind fun r hr => .ok hr
  exact fun s a i b j hs => Gives.any.bind fun _ _ => Gives.any.bind fun _ _ => (swapCells_sized hs.1).bind fun w hw =>
    Gives.any.bind fun _ _ => Gives.any.bind fun _ _ => (swapCells_sized hs.2).bind fun w' hw' => .ok ⟨hw, hw'⟩

theorem reverseRange_sized {v : RVec α} {k n : Nat} (h : v.Sized k n) (sb eb : Bound) : Gives (Sized k n) (v.reverseRange sb eb) := by
  refine Gives.any.bind fun _ _ => Gives.any.bind fun _ _ => Gives.any.bind fun f _ => Gives.any.bind fun p _ => ?_
  have loop : ∀ (m i : Nat) (v : RVec α) (l r : FMut Cell), v.Sized k n → Gives (Sized k n) (reverseLoop p.2.len m i v l r) := by
    intro m
    induction m with
    | zero => intro i v l r h; exact .ok h
    | succ m ih =>
      intro i v l r h
      exact Gives.any.bind fun _ _ => Gives.any.bind fun _ _ => Gives.any.bind fun _ _ => Gives.any.bind fun _ _ =>
        (swapCells_sized h).bind fun w hw => ih _ _ _ _ hw
  exact loop _ _ _ _ _ h

end RVec

theorem runAll_gives {f : ο → σ → M (β × σ)} {Q : σ → Prop} (hf : ∀ o s, Q s → Gives (fun r => Q r.2) (f o s)) :
    ∀ (os : List ο) (s : σ), Q s → Gives (fun r => Q r.2) (runAll f os s)
  | [], s, h => .ok h
  | o :: os, s, h => (hf o s h).bind fun r hr => (runAll_gives hf os r.2 hr).bind fun q hq => .ok hq

theorem runScript_gives {f : Side → σ → M (Option β × σ)} {Q : σ → Prop} (hf : ∀ o s, Q s → Gives (fun r => Q r.2) (f o s)) :
    ∀ (os : List Side) (s : σ), Q s → Gives (fun r => Q r.2) (runScript f os s)
  | [], s, h => .ok h
  | o :: os, s, h => (hf o s h).bind fun r hr => (runScript_gives hf os r.2 hr).bind fun q hq => .ok hq

theorem FOp.run_sized {k n : Nat} (o : FOp α) (s : RVec α × FMut Cell) (h : s.1.Sized k n) :
    Gives (fun r => r.2.1.Sized k n) (o.run s) := by
  refine Gives.any.bind fun r _ => Gives.bind (P := fun a => RVec.Sized k n a.2) ?_ fun a ha => .ok ha
  obtain ⟨c, g⟩ := r
  cases c with
  | none => exact .ok h
  | some c =>
    refine Gives.any.bind fun old _ => ?_
    cases o with
    | read i => exact .ok h
    | write i x => exact (RVec.writeCell_sized h).bind fun w hw => .ok hw

theorem TOp.run_sized {k n : Nat} (o : TOp α) (s : RVec α × List (FMut Cell)) (h : s.1.Sized k n) :
    Gives (fun r => r.2.1.Sized k n) (o.run s) := by
  cases o with
  | use i o =>
    simp only [TOp.run]
    split
    · exact .ok h
    · exact (FOp.run_sized o _ h).bind fun r hr => .ok hr
  | split i j =>
    simp only [TOp.run]
    split
    · exact .ok h
    · exact Gives.any.bind fun r _ => .ok h

theorem mapStep_sized {k n : Nat} (g : α → α) (sd : Side) (s : RVec α × VIterMut Cell) (h : s.1.Sized k n) :
    Gives (fun r => r.2.1.Sized k n) (mapStep g sd s) := by
  refine Gives.any.bind fun r _ => ?_
  split
  · exact .ok h
  · exact Gives.any.bind fun _ _ => (RVec.writeCell_sized h).bind fun w hw => .ok hw

/-- There is no room left in the tree but at its edges. -/
def RVec.Snug (v : RVec α) : Prop := v.cap ≤ v.len

open RVec

theorem Built.len_eq {v : RVec α} (b : Built v) : v.len = v.toList.length := by
  obtain ⟨h, i⟩ := b.inv
  exact i.len

theorem RVec.Sized.snug {v w : RVec α} (h : w.Sized v.cap v.len) (s : v.Snug) : w.Snug := by
  unfold RVec.Snug
  rw [h.1, h.2]
  exact s

theorem Unjoined.snug {v : RVec α} (u : Unjoined v) : v.Snug := by
  unfold RVec.Snug
  rw [u.built.len_eq]
  exact u.dense

theorem withNodeAt_len (v : RVec α) (p : Option (Side × Nat)) (nd : Node α) : (v.withNodeAt p nd).len = v.len := by
  unfold withNodeAt
  split <;> rfl

theorem withLeafNode_len (v : RVec α) (sd : Side) (nd : Node α) : (v.withLeafNode sd nd).len = v.len := by
  unfold withLeafNode withSpine
  split
  · rfl
  · cases sd <;> rfl

theorem set_len {v w : RVec α} {k : Nat} {x : α} (e : v.set k x = .ok (some w)) : w.len = v.len := by
  obtain ⟨p, -, e⟩ := bind_ok e
  cases p with
  | none => cases e
  | some p =>
    obtain ⟨nd, -, e⟩ := bind_ok e
    obtain ⟨q, -, e⟩ := bind_ok e
    obtain ⟨nd', -, e⟩ := bind_ok e
    cases e
    exact withNodeAt_len ..

theorem setFrontBack_len {v w : RVec α} {sd : Side} {x : α} (e : v.setFrontBack sd x = .ok (some w)) : w.len = v.len := by
  obtain ⟨p, -, e⟩ := bind_ok e
  cases p with
  | none => cases e
  | some p =>
    cases e
    exact withLeafNode_len ..

theorem Act.run_snug {v : RVec α} (b : Built v) (s : v.Snug) {a : Act α} (hj : a.Joinless) :
    Gives (fun r => r.2.1.Snug ∧ ∀ w ∈ r.2.2, w.Snug) (a.run v) := by
  obtain ⟨h, i⟩ := b.inv
  have hc : v.cap ≤ v.toList.length := by rw [← i.len]; exact s
  have here : v.Snug ∧ ∀ w ∈ ([] : List (RVec α)), w.Snug := ⟨s, by simp⟩
  have one : ∀ {w : RVec α}, w.Snug → w.Snug ∧ ∀ x ∈ ([] : List (RVec α)), x.Snug := fun h => ⟨h, by simp⟩
  have of : ∀ {w : RVec α}, Built w → w.cap ≤ w.toList.length → w.Snug := fun b h => by
    unfold RVec.Snug
    rw [b.len_eq]
    exact h
  have push : ∀ (sd : Side) (x : α), Gives RVec.Snug (v.pushSide sd x) := fun sd x w e => by
    refine of ?_ (push_dense i hc e)
    cases sd
    · exact b.pushFront e
    · exact b.pushBack e
  have pop : ∀ (sd : Side), Gives (fun r => r.2.Snug) (v.popSide sd) := fun sd r e => by
    refine of ?_ (pop_dense (r := r.1) (v' := r.2) i hc e)
    cases sd
    · exact b.popFront (r := r.1) (v' := r.2) e
    · exact b.popBack (r := r.1) (v' := r.2) e
  have cut : ∀ (k : Nat), Gives (fun r => r.1.Snug ∧ r.2.Snug) (v.splitOff k) := fun k r e => by
    have := splitOff_cap (a := r.1) (b := r.2) i hc e
    exact ⟨of (b.splitOffLeft (a := r.1) (b := r.2) e) this.1, of (b.splitOffRight (a := r.1) (b := r.2) e) this.2⟩
  cases a with
  | len => exact .ok here
  | isEmpty => exact .ok here
  | get k => exact Gives.any.bind fun _ _ => .ok here
  | front => exact Gives.any.bind fun _ _ => .ok here
  | back => exact Gives.any.bind fun _ _ => .ok here
  | iterate script => exact Gives.any.bind fun _ _ => Gives.any.bind fun _ _ => .ok here
  | set k x =>
    intro r e
    obtain ⟨w, e1, e⟩ := bind_ok e
    cases e
    cases w with
    | none => exact here
    | some w =>
      refine one (RVec.Sized.snug (v := v) ⟨set_cap i e1, set_len e1⟩ s)
  | setEnd sd x =>
    intro r e
    obtain ⟨w, e1, e⟩ := bind_ok e
    cases e
    cases w with
    | none => exact here
    | some w =>
      refine one (RVec.Sized.snug (v := v) ⟨setFrontBack_cap i e1, setFrontBack_len e1⟩ s)
  | pushBack x => exact (push .back x).bind fun _ h => .ok (one h)
  | pushFront x => exact (push .front x).bind fun _ h => .ok (one h)
  | popBack => exact (pop .back).bind fun _ h => .ok (one h)
  | popFront => exact (pop .front).bind fun _ h => .ok (one h)
  | splitOff k => exact (cut k).bind fun r h => .ok ⟨h.1, by simpa using h.2⟩
  | sliceFromStart k => exact Gives.bind (P := RVec.Snug) ((cut k).bind fun r h => .ok h.1) fun _ h => .ok (one h)
  | sliceToEnd k => exact Gives.bind (P := RVec.Snug) ((cut k).bind fun r h => .ok h.2) fun _ h => .ok (one h)
  | extractSlice sb eb => exact hj.elim
  | insert k x => exact hj.elim
  | remove k => exact hj.elim
  | reverseRange sb eb => exact (reverseRange_sized ⟨rfl, rfl⟩ sb eb).bind fun w h => .ok (one (h.snug s))
  | sortRange cmp _ draws sb eb => exact (sortRangeBy_sized ⟨rfl, rfl⟩ cmp sb eb _ _).bind fun w h => .ok (one (h.snug s))
  | focusRead is => exact Gives.any.bind fun _ _ => Gives.any.bind fun _ _ => .ok here
  | mapEnds g script =>
    exact Gives.any.bind fun it _ => (runScript_gives (Q := fun st => st.1.Sized v.cap v.len) (fun sd st h => mapStep_sized g sd st h)
      script (v, it) ⟨rfl, rfl⟩).bind fun r h => .ok (one (h.snug s))
  | editFocus ops =>
    exact Gives.any.bind fun f _ => (runAll_gives (Q := fun st => st.1.Sized v.cap v.len) (fun o st h => FOp.run_sized o st h)
      ops (v, f) ⟨rfl, rfl⟩).bind fun r h => .ok (one (h.snug s))
  | shareFocus ops =>
    exact Gives.any.bind fun f _ => (runAll_gives (Q := fun st => st.1.Sized v.cap v.len) (fun o st h => TOp.run_sized o st h)
      ops (v, [f]) ⟨rfl, rfl⟩).bind fun r h => .ok (one (h.snug s))

theorem Call.run_snug {vs : List (RVec α)} (hb : ∀ v ∈ vs, Built v) (hs : ∀ v ∈ vs, v.Snug) {c : Call α} (hj : c.Joinless) :
    Gives (fun r => ∀ w ∈ r.2, w.Snug) (c.run vs) := by
  have more : ∀ {w : RVec α}, w.Snug → ∀ x ∈ vs ++ [w], x.Snug := fun h x hx => by
    rcases List.mem_append.1 hx with hx | hx
    · exact hs x hx
    · rw [List.mem_singleton.1 hx]
      exact h
  cases c with
  | new => exact .ok (more Unjoined.new.snug)
  | singleton x =>
    intro r e
    obtain ⟨v, e1, e⟩ := bind_ok e
    cases e
    exact more (Unjoined.singleton e1).snug
  | collect l =>
    intro r e
    obtain ⟨v, e1, e⟩ := bind_ok e
    cases e
    exact more (Unjoined.collect e1).snug
  | clone i =>
    refine .ok fun x hx => ?_
    rcases List.mem_append.1 hx with hx | hx
    · exact hs x hx
    · exact hs x (List.mem_of_getElem? (Option.mem_toList.1 hx))
  | act i a =>
    simp only [Call.run]
    split
    · exact .ok hs
    · rename_i v hv
      have hm := List.mem_of_getElem? hv
      refine (Act.run_snug (hb v hm) (hs v hm) hj).bind fun r hr => .ok fun x hx => ?_
      rcases List.mem_append.1 hx with hx | hx
      · rcases List.mem_or_eq_of_mem_set hx with hx | rfl
        · exact hs x hx
        · exact hr.1
      · exact hr.2 x hx
  | append i j => exact hj.elim
  | prepend i j => exact hj.elim
  | constant x n => exact hj.elim
  | compare cmp i j =>
    simp only [Call.run]
    split
    · exact Gives.any.bind fun _ _ => .ok hs
    · exact .ok hs
  | drop i => exact .ok fun x hx => hs x (List.mem_of_mem_eraseIdx hx)
  | intoIter i script =>
    simp only [Call.run]
    split
    · exact .ok hs
    · exact Gives.any.bind fun _ _ => .ok fun x hx => hs x (List.mem_of_mem_eraseIdx hx)
  | dualSort cmp _ draws sb eb i j =>
    simp only [Call.run]
    split
    · exact .ok hs
    split
    · rename_i v w hv hw
      refine (dualSortRangeBy_sized (v := v) (w := w) ⟨rfl, rfl⟩ ⟨rfl, rfl⟩ cmp sb eb _ _).bind fun r hr => .ok fun x hx => ?_
      rcases List.mem_or_eq_of_mem_set hx with hx | rfl
      · rcases List.mem_or_eq_of_mem_set hx with hx | rfl
        · exact hs x hx
        · exact hr.1.snug (hs v (List.mem_of_getElem? hv))
      · exact hr.2.snug (hs w (List.mem_of_getElem? hw))
    · exact .ok hs

end Librrb
