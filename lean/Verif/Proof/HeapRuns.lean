import Verif.Proof.HeapKeep

/-!
# A thread among others

`Runs Q x L h`: a thread that does `x` and owns `L` comes to an end, and `Q` holds then, whatever the other threads do
between its steps as long as they keep what is owned (`Kept`). It does no more than what is allowed (`HM.Allowed`), so
that it keeps what the others own.
-/
namespace Librrb

/-- What a thread that owns `L` may do next: read what it can reach, and write where it gets through nodes that have one
owner each. -/
def HM.Allowed (L : Ctx α) (h : Heap α) : HM α γ → Prop
  | .ret _ => True
  | .fail _ => True
  | .alloc _ _ => True
  | .load a _ => L.reach h a
  | .isOne a _ => L.reach h a
  | .incr a _ => L.reach h a
  | .drop [] _ => True
  | .drop (a :: _) _ => L.starts a
  | .poke a _ _ => ∃ e π, L.starts e ∧ UPath h e π a

theorem HM.Allowed.mono {L M : Ctx α} {h : Heap α} {x : HM α γ} (ha : x.Allowed L h) (hLM : ∀ a, L.starts a → M.starts a) :
    x.Allowed M h := by
  cases x with
  | ret | fail | alloc => trivial
  | load | isOne | incr => exact Ctx.reach_mono hLM ha
  | drop as k =>
    cases as with
    | nil => trivial
    | cons a as => exact hLM _ ha
  | poke =>
    obtain ⟨e, π, hs, u⟩ := ha
    exact ⟨e, π, hLM _ hs, u⟩

theorem World.cell_of_reach {h : Heap α} {L F : Ctx α} (w : World h (L + F)) {a : Addr} (r : L.reach h a) :
    ∃ c, h.cell a = some c := by
  refine Heap.exists_cell_count ?_
  have := w.counts a
  rw [refs_add] at this
  rcases Ctx.reach_inv r with r | ⟨x, n, -, e, hk⟩
  · have : 1 ≤ L.refs a := r
    omega
  · have := World.used_of_kid e hk
    omega

theorem Heap.fresh (h : Heap α) : h.cell h.cells.length = none := by unfold Heap.cell; simp

theorem Heap.cell_append (h : Heap α) (c : RcBox α) (b : Addr) :
    ({ cells := h.cells ++ [some c] } : Heap α).cell b = if b = h.cells.length then some c else h.cell b := by
  unfold Heap.cell
  by_cases hb : b < h.cells.length
  · rw [List.getElem?_append_left hb, if_neg (by omega)]
  · by_cases hb' : b = h.cells.length
    · subst hb'; simp
    · rw [if_neg hb', List.getElem?_eq_none (by simp; omega), List.getElem?_eq_none (by omega)]

theorem Kept.append (L : Ctx α) (h : Heap α) (c : RcBox α) : Kept L h { cells := h.cells ++ [some c] } := by
  have hc : ∀ b d, h.cell b = some d → ({ cells := h.cells ++ [some c] } : Heap α).cell b = some d := by
    intro b d e
    rw [Heap.cell_append, if_neg, e]
    rintro rfl
    rw [Heap.fresh] at e
    cases e
  have hn : ∀ b n, h.node b = some n → ({ cells := h.cells ++ [some c] } : Heap α).node b = some n := by
    intro b n e
    obtain ⟨d, ed, rfl⟩ := Heap.exists_cell e
    exact Heap.node_of_cell (hc b d ed)
  have h1 : ∀ b, h.count b = 1 → ({ cells := h.cells ++ [some c] } : Heap α).count b = 1 := by
    intro b e
    obtain ⟨d, ed⟩ := Heap.exists_cell_count (h := h) (a := b) (by omega)
    rw [Heap.count_of_cell (hc b d ed), ← Heap.count_of_cell ed, e]
  refine ⟨fun b n _ e => hn b n e, fun e _ ρ b u => ?_⟩
  exact u.keep (I := fun _ => True) (fun x _ hx => h1 x hx)
    (fun x s t c i k _ _ e ek _ => ⟨trivial, c, hn x _ e, ek⟩) trivial

/-- An allowed step can be taken, and keeps what the others own. -/
theorem HM.Allowed.step {L F : Ctx α} {h : Heap α} {x : HM α γ} (ha : x.Allowed L h) (w : World h (L + F)) :
    ∃ r, x.step h = .ok r ∧ Kept F h r.2 := by
  cases x with
  | ret => exact ⟨_, rfl, .refl _ _⟩
  | fail => exact ⟨_, rfl, .refl _ _⟩
  | load a k =>
    obtain ⟨c, ec⟩ := w.cell_of_reach ha
    exact ⟨(k c.node, h), by simp only [HM.step, ec], .refl _ _⟩
  | isOne a k =>
    obtain ⟨c, ec⟩ := w.cell_of_reach ha
    exact ⟨(k (c.count == 1), h), by simp only [HM.step, ec], .refl _ _⟩
  | incr a k =>
    obtain ⟨c, ec⟩ := w.cell_of_reach ha
    refine ⟨(k, h.put a (some { c with count := c.count + 1 })), by simp only [HM.step, ec], ?_⟩
    refine .of_step w (fun b n e => .inl ?_) fun b hb => ?_
    · rw [World.node_put_count ec]; exact e
    · rw [Heap.count_put ec]
      by_cases hab : a = b
      · subst hab; exact .inr ha
      · rw [if_neg hab]; exact .inl hb
  | alloc n k => exact ⟨_, rfl, .append _ _ _⟩
  | drop as k =>
    cases as with
    | nil => exact ⟨_, rfl, .refl _ _⟩
    | cons a as =>
      obtain ⟨c, ec⟩ := w.cell_of_reach (Ctx.reach_start ha)
      have hp := w.pos _ _ ec
      by_cases hc : c.count ≤ 1
      · refine ⟨(.drop (c.node.kids ++ as) k, h.put a none), ?_, ?_⟩
        · simp only [HM.step, Heap.release, ec, if_pos hc]; rfl
        · have h1 : h.count a = 1 := by rw [Heap.count_of_cell ec]; omega
          have hcell : ∀ b, b ≠ a → (h.put a none).cell b = h.cell b := fun b hb => by
            rw [Heap.cell_put (Heap.cell_lt ec), if_neg (Ne.symm hb)]
          refine .of_step w (fun b n e => ?_) fun b hb => ?_
          · by_cases hab : b = a
            · subst hab; exact .inr ⟨b, [], ha, .nil h1⟩
            · left; rw [Heap.node, hcell b hab]; exact e
          · by_cases hab : b = a
            · subst hab; exact .inr (Ctx.reach_start ha)
            · left; rw [Heap.count, hcell b hab]; exact hb
      · refine ⟨(.drop as k, h.put a (some { c with count := c.count - 1 })), ?_, ?_⟩
        · simp only [HM.step, Heap.release, ec, if_neg hc]; rfl
        · refine .of_step w (fun b n e => .inl ?_) fun b hb => ?_
          · rw [World.node_put_count ec]; exact e
          · rw [Heap.count_put ec]
            by_cases hab : a = b
            · subst hab; exact .inr (Ctx.reach_start ha)
            · rw [if_neg hab]; exact .inl hb
  | poke a f k =>
    obtain ⟨s, π, hs, u⟩ := ha
    obtain ⟨c, ec⟩ := Heap.exists_cell_count (h := h) (a := a) (by rw [u.count_end])
    refine ⟨(k c.node, h.put a (some { c with node := f c.node })), by simp only [HM.step, ec], ?_⟩
    refine .of_step w (fun b n e => ?_) fun b hb => .inl ?_
    · rw [Heap.node_put ec]
      by_cases hab : a = b
      · subst hab; exact .inr ⟨s, π, hs, u⟩
      · rw [if_neg hab]; exact .inl e
    · rw [Heap.count_put ec]
      split
      next hab => subst hab; rw [← hb, Heap.count_of_cell ec]
      · exact hb

theorem HM.bind_ended {x : HM α γ} {k : γ → HM α δ} (e : x.ended = none) : (x.bind k).ended = none := by
  cases x <;> first | rfl | cases e

theorem HM.bind_step {x : HM α γ} {k : γ → HM α δ} (e : x.ended = none) {h : Heap α} {r : HM α δ × Heap α}
    (hr : (x.bind k).step h = .ok r) : ∃ q, x.step h = .ok q ∧ r = (q.1.bind k, q.2) := by
  cases x with
  | ret => cases e
  | fail => cases e
  | load a f | isOne a f | incr a f | poke a g f =>
    simp only [HM.bind, HM.step] at hr ⊢
    split at hr
    · cases hr; exact ⟨_, rfl, rfl⟩
    · cases hr
  | alloc n f => cases hr; exact ⟨_, rfl, rfl⟩
  | drop as f =>
    cases as with
    | nil => cases hr; exact ⟨_, rfl, rfl⟩
    | cons a as =>
      simp only [HM.bind, HM.step] at hr ⊢
      cases hrel : h.release a with
      | error f => rw [hrel] at hr; cases hr
      | ok q => rw [hrel] at hr; cases hr; exact ⟨_, rfl, rfl⟩

/-- See the header. -/
inductive Runs (Q : M γ → Ctx α → Heap α → Prop) : HM α γ → Ctx α → Heap α → Prop where
  | ended {x : HM α γ} {L : Ctx α} {h : Heap α} {r : M γ} (e : x.ended = some r)
      (hq : ∀ h1 F, Kept L h h1 → World h1 (L + F) → Q r L h1) : Runs Q x L h
  | step {x : HM α γ} {L : Ctx α} {h : Heap α} (L' : Heap α → Ctx α → Ctx α) (e : x.ended = none)
      (ha : ∀ h1 F, Kept L h h1 → World h1 (L + F) → x.Allowed L h1)
      (hw : ∀ h1 F r, Kept L h h1 → World h1 (L + F) → x.step h1 = .ok r → World r.2 (L' h1 F + F))
      (hr : ∀ h1 F r, Kept L h h1 → World h1 (L + F) → x.step h1 = .ok r → Runs Q r.1 (L' h1 F) r.2) : Runs Q x L h

namespace Runs

variable {Q : M γ → Ctx α → Heap α → Prop} {x : HM α γ} {L R : Ctx α} {h h1 : Heap α}

theorem next (e : x.ended = none) (hs : ∀ h1 F, Kept L h h1 → World h1 (L + F) → x.Allowed L h1 ∧
    ∀ r, x.step h1 = .ok r → ∃ L', World r.2 (L' + F) ∧ Runs Q r.1 L' r.2) : Runs Q x L h := by
  have hex : ∀ h1 F, ∃ L', Kept L h h1 → World h1 (L + F) → ∀ r, x.step h1 = .ok r → World r.2 (L' + F) ∧ Runs Q r.1 L' r.2 := by
    intro h1 F
    by_cases hk : Kept L h h1 ∧ World h1 (L + F)
    · cases hr : x.step h1 with
      | error f => exact ⟨0, fun _ _ r e => by cases e⟩
      | ok r =>
        obtain ⟨L', h'⟩ := (hs h1 F hk.1 hk.2).2 r hr
        exact ⟨L', fun _ _ r' e => by cases e; exact h'⟩
    · exact ⟨0, fun a b => absurd ⟨a, b⟩ hk⟩
  choose L' hL' using hex
  exact .step L' e (fun h1 F k w => (hs h1 F k w).1) (fun h1 F r k w hr => (hL' h1 F k w r hr).1)
    fun h1 F r k w hr => (hL' h1 F k w r hr).2

/-- What others do in between does not matter. -/
theorem later (r : Runs Q x L h) (k : Kept L h h1) : Runs Q x L h1 := by
  cases r with
  | ended e hq => exact .ended e fun h2 F k2 w => hq h2 F (k.trans k2) w
  | step L' e ha hw hr =>
    exact .step L' e (fun h2 F k2 w => ha h2 F (k.trans k2) w) (fun h2 F r k2 w => hw h2 F r (k.trans k2) w)
      fun h2 F r k2 w => hr h2 F r (k.trans k2) w

theorem mono {Q' : M γ → Ctx α → Heap α → Prop} (r : Runs Q x L h) (hq : ∀ r L h, Q r L h → Q' r L h) : Runs Q' x L h := by
  induction r with
  | ended e hq' => exact .ended e fun h2 F k2 w => hq _ _ _ (hq' h2 F k2 w)
  | step L' e ha hw _ ih => exact .step L' e ha hw ih

theorem frame {Q' : M γ → Ctx α → Heap α → Prop} (r : Runs Q x L h) (hq : ∀ r L h, Q r L h → Q' r (L + R) h) :
    Runs Q' x (L + R) h := by
  induction r with
  | ended e hq' =>
    exact .ended e fun h2 F k2 w => hq _ _ _ (hq' h2 (R + F) k2.left (by rw [← add_assoc]; exact w))
  | step L' e ha hw _ ih =>
    refine .step (fun h2 F => L' h2 (R + F) + R) e (fun h2 F k w => ?_) (fun h2 F r k w hr => ?_) fun h2 F r k w hr => ?_
    all_goals rw [add_assoc] at w
    · exact (ha h2 (R + F) k.left w).mono fun a hs => Ctx.starts_add.2 (.inl hs)
    · rw [add_assoc]
      exact hw h2 (R + F) r k.left w hr
    · exact ih h2 (R + F) r k.left w hr

/-- What else the thread owns is kept. -/
theorem frame_kept {Q' : M γ → Ctx α → Heap α → Prop} {h0 : Heap α} (r : Runs Q x L h) (k0 : Kept R h0 h)
    (hq : ∀ r L h F, Q r L h → Kept R h0 h → World h (L + R + F) → Q' r (L + R) h) : Runs Q' x (L + R) h := by
  induction r with
  | ended e hq' =>
    exact .ended e fun h2 F k2 w => hq _ _ _ F (hq' h2 (R + F) k2.left (by rw [← add_assoc]; exact w)) (k0.trans k2.right) w
  | step L' e ha hw _ ih =>
    refine .step (fun h2 F => L' h2 (R + F) + R) e (fun h2 F k w => ?_) (fun h2 F r k w hr => ?_) fun h2 F r k w hr => ?_
    all_goals rw [add_assoc] at w
    · exact (ha h2 (R + F) k.left w).mono fun a hs => Ctx.starts_add.2 (.inl hs)
    · rw [add_assoc]
      exact hw h2 (R + F) r k.left w hr
    · obtain ⟨r', hr', kF⟩ := (ha h2 (R + F) k.left w).step w
      rw [hr] at hr'
      cases hr'
      exact ih h2 (R + F) r k.left w hr ((k0.trans k.right).trans kF.left)

theorem bind {k : γ → HM α δ} {Q' : M δ → Ctx α → Heap α → Prop} (r : Runs Q x L h)
    (hk : ∀ g L h F, Q (.ok g) L h → World h (L + F) → Runs Q' (k g) L h)
    (he : ∀ e L h, Q (.error e) L h → Q' (.error e) L h) : ∀ F, World h (L + F) → Runs Q' (x.bind k) L h := by
  induction r with
  | @ended x L h r e hq =>
    intro F w
    cases x with
    | ret g =>
      cases e
      exact hk g L h F (hq h F (.refl _ _) w) w
    | fail f =>
      cases e
      exact .ended rfl fun h2 F k2 w => he _ _ _ (hq h2 F k2 w)
    | _ => cases e
  | @step x L h L' e ha hw _ ih =>
    intro F w
    have h2 : ∀ h M, x.Allowed M h → (x.bind k).Allowed M h := by
      intro h M
      cases x with
      | drop as x => cases as <;> exact fun a => a
      | ret => cases e
      | fail => cases e
      | _ => exact fun a => a
    have h3 := fun h r => HM.bind_step (h := h) (r := r) (k := k) e
    refine .step L' (HM.bind_ended e) (fun h' F k w => h2 _ _ (ha h' F k w)) (fun h' F r k w hr => ?_) fun h' F r k w hr => ?_
    · obtain ⟨q, hq, rfl⟩ := h3 _ _ hr
      exact hw h' F q k w hq
    · obtain ⟨q, hq, rfl⟩ := h3 _ _ hr
      exact ih h' F q k w hq F (hw h' F q k w hq)

/-! ### The steps -/

theorem ret {g : γ} (hq : ∀ h1 F, Kept L h h1 → World h1 (L + F) → Q (.ok g) L h1) : Runs Q (.ret g) L h := .ended rfl hq

theorem fail {f : Fault} (hq : ∀ h1 F, Kept L h h1 → World h1 (L + F) → Q (.error f) L h1) : Runs Q (.fail f) L h :=
  .ended rfl hq

theorem load {a : Addr} {k : Body α Addr → HM α γ} (hs : ∀ h1 F, Kept L h h1 → World h1 (L + F) → L.reach h1 a ∧
    ∀ n, h1.node a = some n → Runs Q (k n) L h1) : Runs Q (.load a k) L h := by
  refine .next rfl fun h1 F k1 w => ?_
  obtain ⟨r, hk⟩ := hs h1 F k1 w
  refine ⟨r, fun q hq => ?_⟩
  simp only [HM.step] at hq
  split at hq
  next c hc => cases hq; exact ⟨L, w, hk _ (Heap.node_of_cell hc)⟩
  · cases hq

theorem isOne {a : Addr} {k : Bool → HM α γ} (hs : ∀ h1 F, Kept L h h1 → World h1 (L + F) → L.reach h1 a ∧
    Runs Q (k (h1.count a == 1)) L h1) : Runs Q (.isOne a k) L h := by
  refine .next rfl fun h1 F k1 w => ?_
  obtain ⟨r, hk⟩ := hs h1 F k1 w
  refine ⟨r, fun q hq => ?_⟩
  simp only [HM.step] at hq
  split at hq
  next c hc => cases hq; rw [Heap.count_of_cell hc] at hk; exact ⟨L, w, hk⟩
  · cases hq

/-- A node that can be reached gets one owner more. -/
theorem incr {a : Addr} {nd : Node α} {k : HM α γ} (hs : ∀ h1 F, Kept L h h1 → World h1 (L + F) → L.reach h1 a ∧ Den h1 a nd ∧ (a, none) ∉ L + F ∧
    ∀ h2, (∀ b, h2.node b = h1.node b) → (∀ b, b ≠ a → h2.count b = h1.count b) → World h2 (has (a, nd) + L + F) →
      Runs Q k (has (a, nd) + L) h2) : Runs Q (.incr a k) L h := by
  refine .next rfl fun h1 F k1 w => ?_
  obtain ⟨r, d, hn, hk⟩ := hs h1 F k1 w
  refine ⟨r, fun q hq => ?_⟩
  simp only [HM.step] at hq
  split at hq
  next c hc =>
    cases hq
    have w2 := w.clone_ok hc d hn
    rw [← add_assoc] at w2
    exact ⟨has (a, nd) + L, w2, hk _ (World.node_put_count hc _)
      (fun b hb => by rw [Heap.count_put hc, if_neg (Ne.symm hb)]) w2⟩
  · cases hq

theorem alloc {P : Body α (Addr × Node α)} {k : Addr → HM α γ}
    (hs : ∀ a h1 F, Kept (own P.kids + R) h h1 → h1.count a = 1 → h1.node a = some (P.map Prod.fst) →
      World h1 (has (a, (P.map Prod.snd).node) + R + F) → Runs Q (k a) (has (a, (P.map Prod.snd).node) + R) h1) :
    Runs Q (.alloc (P.map Prod.fst) k) (own P.kids + R) h := by
  refine .next rfl fun h1 F k1 w => ⟨trivial, fun q hq => ?_⟩
  cases hq
  rw [add_assoc] at w
  have w' := w.alloc_ok
  rw [← add_assoc] at w'
  refine ⟨has (h1.cells.length, (P.map Prod.snd).node) + R, w', hs _ _ F (k1.trans (.append _ _ _)) ?_ ?_ w'⟩
  · rw [Heap.count, Heap.cell_append, if_pos rfl]; rfl
  · rw [Heap.node, Heap.cell_append, if_pos rfl]; rfl

/-- A node is taken out of the heap, to be changed. -/
theorem take {a : Addr} {nd : Node α} {k : Body α Addr → HM α γ} (h1 : h.count a = 1)
    (hs : ∀ h1 (P : Body α (Addr × Node α)), nd = (P.map Prod.snd).node →
      Runs Q (k (P.map Prod.fst)) (hole a + own P.kids + R) h1) :
    Runs Q (.poke a (fun _ => Body.emptyLeaf) k) (has (a, nd) + R) h := by
  refine .next rfl fun h2 F k2 w => ?_
  have hst : (has (a, nd) + R).starts a := Ctx.starts_of_mem (s := some nd) (by simp)
  have h1' := k2.one hst h1
  refine ⟨⟨a, [], hst, .nil h1'⟩, fun q hq => ?_⟩
  rw [add_assoc] at w
  obtain ⟨P, eP, rfl, hk⟩ := (w.mem a nd (by simp)).inv
  obtain ⟨c, ec, hcn⟩ := Heap.exists_cell eP
  simp only [HM.step, ec] at hq
  cases hq
  have ec' : h2.cell a = some { count := 1, node := P.map Prod.fst } := by
    rw [Heap.count_of_cell ec] at h1'
    rw [ec, ← hcn, ← h1']
  refine ⟨_, ?_, by rw [hcn]; exact hs _ P rfl⟩
  have := w.take_ok hk ec'
  rw [Heap.count_of_cell ec] at h1'
  rw [h1']
  rw [add_assoc (hole a + own P.kids)]
  exact this

/-- A node is put back. -/
theorem give {a : Addr} {P : Body α (Addr × Node α)} {k : Body α Addr → HM α γ}
    (hs : ∀ h1 n, Runs Q (k n) (has (a, (P.map Prod.snd).node) + R) h1) :
    Runs Q (.poke a (fun _ => P.map Prod.fst) k) (hole a + own P.kids + R) h := by
  refine .next rfl fun h2 F k2 w => ?_
  have ec := w.hole a (by simp)
  refine ⟨⟨a, [], Ctx.starts_of_mem (s := none) (by simp), .nil (Heap.count_of_cell ec)⟩, fun q hq => ?_⟩
  simp only [HM.step, ec] at hq
  cases hq
  rw [add_assoc] at w
  refine ⟨_, ?_, hs _ _⟩
  rw [add_assoc]
  exact w.give_ok

end Runs

theorem CB.mem_kids_of {c : CB κ} {k : κ} (h : k ∈ c.data.filterMap id) : some k ∈ c.data := by
  obtain ⟨o, ho, e⟩ := List.mem_filterMap.1 h
  cases o with
  | none => cases e
  | some x => cases e; exact ho

/-- The children of a node. -/
def Node.kids : Node α → List (Node α)
  | .leaf _ => []
  | .internal _ _ c => c.data.filterMap id

theorem Node.kids_node (P : Body α (Addr × Node α)) : (P.map Prod.snd).node.kids = P.kids.map Prod.snd := by
  rw [← Body.kids_map]
  cases P <;> rfl

/-- Induction over a tree. -/
theorem Node.tree {D : Node α → Prop} (hd : ∀ nd, (∀ k ∈ nd.kids, D k) → D nd) : ∀ nd, D nd
  | .leaf b => hd _ (by intro k hk; cases hk)
  | .internal s t c => hd _ fun k hk => by
    have hm := CB.mem_kids_of hk
    have : sizeOf k < sizeOf (Node.internal s t c) := by
      have h1 := List.sizeOf_lt_of_mem hm
      cases c
      simp at h1 ⊢
      omega
    exact Node.tree hd k
termination_by nd => sizeOf nd
decreasing_by exact this

namespace Runs

variable {Q : M γ → Ctx α → Heap α → Prop} {R : Ctx α}

/-- Entries are dropped. -/
theorem drops {k : HM α γ} {h0 : Heap α} (hs : ∀ h F, Kept R h0 h → World h (R + F) → Runs Q k R h) :
    ∀ (ps : List (Addr × Node α)) (h : Heap α), Kept R h0 h → Runs Q (.drop (ps.map Prod.fst) k) (own ps + R) h := by
  have key : ∀ nd : Node α, ∀ (a : Addr) (ps : List (Addr × Node α)),
      (∀ h, Kept R h0 h → Runs Q (.drop (ps.map Prod.fst) k) (own ps + R) h) →
      ∀ h, Kept R h0 h → Runs Q (.drop ((a :: ps.map Prod.fst)) k) (has (a, nd) + own ps + R) h := by
    refine Node.tree fun nd ih a ps hps h k0 => ?_
    refine .next rfl fun h1 F k1 w => ?_
    have hst : (has (a, nd) + own ps).starts a := Ctx.starts_of_mem (s := some nd) (by simp)
    refine ⟨Ctx.starts_add.2 (.inl hst), fun q hq => ?_⟩
    have w0 := w
    rw [add_assoc] at w0
    have ha : (HM.drop (a :: ps.map Prod.fst) k).Allowed (has (a, nd) + own ps) h1 := hst
    obtain ⟨q', hq', kF⟩ := ha.step w0
    rw [hq] at hq'
    cases hq'
    have k2 : Kept R h0 q.2 := (k0.trans k1.right).trans kF.left
    clear kF w0 ha
    rw [add_assoc, add_assoc] at w
    obtain ⟨P, eP, hnd, hk⟩ := (w.mem a nd (by simp)).inv
    obtain ⟨c, ec, hcn⟩ := Heap.exists_cell eP
    have hp := w.pos _ _ ec
    simp only [HM.step, Heap.release, ec] at hq
    by_cases hc : c.count ≤ 1
    · rw [if_pos hc] at hq
      cases hq
      have ec' : h1.cell a = some { count := 1, node := P.map Prod.fst } := by
        have h1c : c.count = 1 := by omega
        rw [ec, ← hcn, ← h1c]
      rw [hnd] at w
      have w2 := w.free_ok hk ec'
      refine ⟨own (P.kids ++ ps) + R, by rw [own_append, add_assoc, add_assoc]; exact w2, ?_⟩
      rw [hcn, Body.kids_map]
      show Runs Q (.drop (P.kids.map Prod.fst ++ ps.map Prod.fst) k) _ _
      rw [← List.map_append]
      have ih' : ∀ p ∈ P.kids, ∀ (a : Addr) (ps : List (Addr × Node α)),
          (∀ h, Kept R h0 h → Runs Q (.drop (ps.map Prod.fst) k) (own ps + R) h) →
          ∀ h, Kept R h0 h → Runs Q (.drop ((a :: ps.map Prod.fst)) k) (has (a, p.2) + own ps + R) h := by
        intro p hp
        refine ih p.2 ?_
        rw [hnd, Node.kids_node]
        exact List.mem_map_of_mem hp
      revert k2
      generalize h1.put a none = h2
      intro k2
      generalize P.kids = l at ih' ⊢
      clear w w2 eP ec' hk hnd hcn
      revert h2
      induction l with
      | nil => exact hps
      | cons p l ihl => exact ih' p (by simp) p.1 (l ++ ps) (ihl fun q hq => ih' q (by simp [hq]))
    · rw [if_neg hc] at hq
      cases hq
      refine ⟨own ps + R, ?_, hps _ k2⟩
      rw [add_assoc]
      exact w.decr_ok ec (by omega)
  intro ps
  induction ps with
  | nil =>
    intro h k0
    rw [own_nil, zero_add]
    refine .next rfl fun h1 F k1 w => ⟨trivial, fun q hq => ?_⟩
    cases hq
    exact ⟨R, w, hs h1 F (k0.trans k1) w⟩
  | cons p ps ih => exact key p.2 p.1 ps ih

end Runs
end Librrb
