import Verif.Proof.HeapHistory

/-!
# Threads that read what is lent to them

Several threads may read vectors that none of them owns. `RunsIn S` is `Runs`, where the thread may also read what can be
reached from `S`, and become one more owner of it; it must not write there.
-/
namespace Librrb

/-- What a thread may do next, if `S` is lent to it. -/
def HM.AllowedIn (S L : Ctx α) (h : Heap α) : HM α γ → Prop
  | .poke a f k => (HM.poke a f k).Allowed L h
  | .drop as k => (HM.drop as k).Allowed L h
  | x => x.Allowed (L + S) h

theorem HM.Allowed.lend {S L : Ctx α} {h : Heap α} {x : HM α γ} (ha : x.Allowed L h) : x.AllowedIn S L h := by
  cases x with
  | poke => exact ha
  | drop => exact ha
  | _ => exact ha.mono (M := L + S) fun _ hs => Ctx.starts_add.2 (.inl hs)

theorem HM.AllowedIn.all {S L : Ctx α} {h : Heap α} {x : HM α γ} (ha : x.AllowedIn S L h) : x.Allowed (L + S) h := by
  cases x with
  | poke | drop => exact HM.Allowed.mono ha fun _ hs => Ctx.starts_add.2 (.inl hs)
  | _ => exact ha

/-- What is lent is not changed, though others may come to share it. -/
def Unchanged (S : Ctx α) (h h' : Heap α) : Prop := ∀ b n, S.reach h b → h.node b = some n → h'.node b = some n

namespace Unchanged

variable {S : Ctx α} {h h1 h2 : Heap α}

theorem refl (S : Ctx α) (h : Heap α) : Unchanged S h h := fun _ _ _ e => e

theorem reach (u : Unchanged S h h1) {b : Addr} (r : S.reach h b) : S.reach h1 b := Ctx.reach_keep u r

theorem trans (u : Unchanged S h h1) (v : Unchanged S h1 h2) : Unchanged S h h2 :=
  fun b n r e => v b n (u.reach r) (u b n r e)

end Unchanged

theorem HM.AllowedIn.step {S L F : Ctx α} {h : Heap α} {x : HM α γ} (ha : x.AllowedIn S L h) (w : World h (L + S + F)) :
    ∃ r, x.step h = .ok r ∧ Kept F h r.2 ∧ Unchanged S h r.2 := by
  obtain ⟨r, e, k⟩ := ha.all.step w
  refine ⟨r, e, k, ?_⟩
  have own : x.Allowed L h → Unchanged S h r.2 := by
    intro ha
    rw [add_assoc] at w
    obtain ⟨r', e', k'⟩ := ha.step w
    rw [e] at e'
    cases e'
    exact k'.left.node
  cases x with
  | poke | drop => exact own ha
  | ret | fail => cases e; exact .refl _ _
  | load a k | isOne a k =>
    simp only [HM.step] at e
    split at e
    · cases e; exact .refl _ _
    · cases e
  | incr a k =>
    simp only [HM.step] at e
    split at e
    next c hc =>
      cases e
      intro b n _ en
      rw [World.node_put_count hc]
      exact en
    · cases e
  | alloc n k => exact own trivial

/-- See the header. -/
inductive RunsIn (S : Ctx α) (Q : M γ → Ctx α → Heap α → Prop) : HM α γ → Ctx α → Heap α → Prop where
  | ended {x : HM α γ} {L : Ctx α} {h : Heap α} {r : M γ} (e : x.ended = some r)
      (hq : ∀ h1 F, Kept L h h1 → Unchanged S h h1 → World h1 (L + S + F) → Q r L h1) : RunsIn S Q x L h
  | step {x : HM α γ} {L : Ctx α} {h : Heap α} (L' : Heap α → Ctx α → Ctx α) (e : x.ended = none)
      (ha : ∀ h1 F, Kept L h h1 → Unchanged S h h1 → World h1 (L + S + F) → x.AllowedIn S L h1)
      (hw : ∀ h1 F r, Kept L h h1 → Unchanged S h h1 → World h1 (L + S + F) → x.step h1 = .ok r →
        World r.2 (L' h1 F + S + F))
      (hr : ∀ h1 F r, Kept L h h1 → Unchanged S h h1 → World h1 (L + S + F) → x.step h1 = .ok r →
        RunsIn S Q r.1 (L' h1 F) r.2) : RunsIn S Q x L h

theorem Runs.lend {S L : Ctx α} {Q : M γ → Ctx α → Heap α → Prop} {x : HM α γ} {h : Heap α} (r : Runs Q x L h) :
    RunsIn S Q x L h := by
  induction r with
  | ended e hq => exact .ended e fun h1 F k _ w => hq h1 (S + F) k (by rw [← add_assoc]; exact w)
  | step L' e ha hw _ ih =>
    refine .step (fun h1 F => L' h1 (S + F)) e (fun h1 F k _ w => ?_) (fun h1 F r k _ w hr => ?_) fun h1 F r k _ w hr => ?_
    all_goals rw [add_assoc] at w
    · exact (ha h1 (S + F) k w).lend
    · rw [add_assoc]
      exact hw h1 (S + F) r k w hr
    · exact ih h1 (S + F) r k w hr

namespace RunsIn

variable {S L : Ctx α} {Q : M γ → Ctx α → Heap α → Prop} {x : HM α γ} {h h1 : Heap α}

theorem next (e : x.ended = none) (hs : ∀ h1 F, Kept L h h1 → Unchanged S h h1 → World h1 (L + S + F) →
    x.AllowedIn S L h1 ∧ ∀ r, x.step h1 = .ok r → ∃ L', World r.2 (L' + S + F) ∧ RunsIn S Q r.1 L' r.2) :
    RunsIn S Q x L h := by
  have hex : ∀ h1 F, ∃ L', Kept L h h1 → Unchanged S h h1 → World h1 (L + S + F) → ∀ r, x.step h1 = .ok r →
      World r.2 (L' + S + F) ∧ RunsIn S Q r.1 L' r.2 := by
    intro h1 F
    by_cases hk : Kept L h h1 ∧ Unchanged S h h1 ∧ World h1 (L + S + F)
    · cases hr : x.step h1 with
      | error f => exact ⟨0, fun _ _ _ r e => by cases e⟩
      | ok r =>
        obtain ⟨L', h'⟩ := (hs h1 F hk.1 hk.2.1 hk.2.2).2 r hr
        exact ⟨L', fun _ _ _ r' e => by cases e; exact h'⟩
    · exact ⟨0, fun a b c => absurd ⟨a, b, c⟩ hk⟩
  choose L' hL' using hex
  exact .step L' e (fun h1 F k u w => (hs h1 F k u w).1) (fun h1 F r k u w hr => (hL' h1 F k u w r hr).1)
    fun h1 F r k u w hr => (hL' h1 F k u w r hr).2

theorem later (r : RunsIn S Q x L h) (k : Kept L h h1) (u : Unchanged S h h1) : RunsIn S Q x L h1 := by
  cases r with
  | ended e hq => exact .ended e fun h2 F k2 u2 w => hq h2 F (k.trans k2) (u.trans u2) w
  | step L' e ha hw hr =>
    exact .step L' e (fun h2 F k2 u2 w => ha h2 F (k.trans k2) (u.trans u2) w)
      (fun h2 F r k2 u2 w => hw h2 F r (k.trans k2) (u.trans u2) w)
      fun h2 F r k2 u2 w => hr h2 F r (k.trans k2) (u.trans u2) w

theorem mono {Q' : M γ → Ctx α → Heap α → Prop} (r : RunsIn S Q x L h) (hq : ∀ r L h, Q r L h → Q' r L h) :
    RunsIn S Q' x L h := by
  induction r with
  | ended e hq' => exact .ended e fun h2 F k2 u2 w => hq _ _ _ (hq' h2 F k2 u2 w)
  | step L' e ha hw _ ih => exact .step L' e ha hw ih

theorem bind {k : γ → HM α δ} {Q' : M δ → Ctx α → Heap α → Prop} (r : RunsIn S Q x L h)
    (hk : ∀ g L h F, Q (.ok g) L h → World h (L + S + F) → RunsIn S Q' (k g) L h)
    (he : ∀ e L h, Q (.error e) L h → Q' (.error e) L h) : ∀ F, World h (L + S + F) → RunsIn S Q' (x.bind k) L h := by
  induction r with
  | @ended x L h r e hq =>
    intro F w
    cases x with
    | ret g =>
      cases e
      exact hk g L h F (hq h F (.refl _ _) (.refl _ _) w) w
    | fail f =>
      cases e
      exact .ended rfl fun h2 F k2 u2 w => he _ _ _ (hq h2 F k2 u2 w)
    | _ => cases e
  | @step x L h L' e ha hw _ ih =>
    intro F w
    have h2 : ∀ h M, x.AllowedIn S M h → (x.bind k).AllowedIn S M h := by
      intro h M
      cases x with
      | drop as x => cases as <;> exact fun a => a
      | ret => cases e
      | fail => cases e
      | _ => exact fun a => a
    have h3 := fun h r => HM.bind_step (h := h) (r := r) (k := k) e
    refine .step L' (HM.bind_ended e) (fun h' F k u w => h2 _ _ (ha h' F k u w)) (fun h' F r k u w hr => ?_)
      fun h' F r k u w hr => ?_
    · obtain ⟨q, hq, rfl⟩ := h3 _ _ hr
      exact hw h' F q k u w hq
    · obtain ⟨q, hq, rfl⟩ := h3 _ _ hr
      exact ih h' F q k u w hq F (hw h' F q k u w hq)

theorem ret {g : γ} (hq : ∀ h1 F, Kept L h h1 → Unchanged S h h1 → World h1 (L + S + F) → Q (.ok g) L h1) :
    RunsIn S Q (.ret g) L h := .ended rfl hq

theorem fail {f : Fault} (hq : ∀ h1 F, Kept L h h1 → Unchanged S h h1 → World h1 (L + S + F) → Q (.error f) L h1) :
    RunsIn S Q (.fail f) L h := .ended rfl hq

theorem seq (r : RunsIn S Q x L h) : ∀ F, World h (L + S + F) → ∃ r h' L', Q r L' h' ∧ World h' (L' + S + F) ∧
    x h = r.map fun g => (g, h') := by
  induction r with
  | @ended x L h r e hq =>
    intro F w
    refine ⟨r, h, L, hq h F (.refl _ _) (.refl _ _) w, w, ?_⟩
    cases x with
    | ret g => cases e; rfl
    | fail g => cases e; rfl
    | _ => cases e
  | @step x L h L' e ha hw _ ih =>
    intro F w
    obtain ⟨q, hq, -⟩ := (ha h F (.refl _ _) (.refl _ _) w).step w
    obtain ⟨r, h2, L2, q2, w2, e2⟩ := ih h F q (.refl _ _) (.refl _ _) w hq F (hw h F q (.refl _ _) (.refl _ _) w hq)
    exact ⟨r, h2, L2, q2, w2, (HM.step_run w.pos hq).trans e2⟩

end RunsIn

/-- Reading what is owned, or lent. -/
theorem Looks.lend {h : Heap α} {x : HM α γ} {r : M γ} {S L : Ctx α} {Q : M γ → Ctx α → Heap α → Prop}
    (l : Looks (h.part (L + S)) x r) : ∀ {h1 : Heap α}, Kept L h h1 → Unchanged S h h1 → (∀ h2, Q r L h2) →
    RunsIn S Q x L h1 := by
  induction l with
  | ret g => exact fun k u hq => .ret fun h2 F k2 u2 w2 => hq h2
  | fail g => exact fun k u hq => .fail fun h2 F k2 u2 w2 => hq h2
  | @load a f n r e _ ih =>
    intro h1 k u hq
    obtain ⟨⟨s, hs, re⟩, en⟩ := Heap.node_part.1 e
    refine .next rfl fun h2 F k2 u2 w2 => ?_
    have k3 := k.trans k2
    have u3 := u.trans u2
    have key : (L + S).reach h2 a ∧ h2.node a = some n := by
      rcases Ctx.starts_add.1 hs with hs | hs
      · exact ⟨Ctx.reach_mono (fun _ hx => Ctx.starts_add.2 (.inl hx)) (k3.reach ⟨s, hs, re⟩), k3.node _ _ ⟨s, hs, re⟩ en⟩
      · exact ⟨Ctx.reach_mono (fun _ hx => Ctx.starts_add.2 (.inr hx)) (u3.reach ⟨s, hs, re⟩), u3 _ _ ⟨s, hs, re⟩ en⟩
    refine ⟨key.1, fun q e => ?_⟩
    simp only [HM.step] at e
    split at e
    next c hc =>
      cases e
      have := key.2
      rw [Heap.node_of_cell hc] at this
      cases this
      exact ⟨L, w2, ih k3 u3 hq⟩
    · cases e

/-- A copy of what is lent. -/
theorem cloneEntries_lend {S : Ctx α} : ∀ (ps : List (Addr × Node α)) (hps : ∀ p ∈ ps, (p.1, some p.2) ∈ S) {L : Ctx α} {h : Heap α}
    {Q : M Unit → Ctx α → Heap α → Prop} (_ : ∀ h, Q (.ok ()) (own ps + L) h),
    RunsIn S Q (cloneEntries (ps.map Prod.fst)) L h
  | [], _, L, h, Q, hq => .ret fun h _ _ _ _ => by have := hq h; rwa [own_nil, zero_add] at this
  | p :: ps, hps, L, h, Q, hq => by
    show RunsIn S Q (HM.incr p.1 (cloneEntries (ps.map Prod.fst))) L h
    refine .next rfl fun h1 F k u w => ?_
    have hp := hps p (by simp)
    have hs : S.starts p.1 := Ctx.starts_of_mem hp
    refine ⟨Ctx.reach_start (Ctx.starts_add.2 (.inr hs)), fun r e => ?_⟩
    simp only [HM.step] at e
    split at e
    next c hc =>
      cases e
      have hm : (p.1, some p.2) ∈ L + S + F := Multiset.mem_add.2 (.inl (Multiset.mem_add.2 (.inr hp)))
      have hn : (p.1, none) ∉ L + S + F := not_hole_of_mem w hm
      have w2 := w.clone_ok hc (w.mem _ _ hm) hn
      refine ⟨has p + L, by rw [add_assoc, add_assoc, ← add_assoc L]; exact w2, cloneEntries_lend ps (fun p hp => hps p (by simp [hp])) fun h => ?_⟩
      have := hq h
      rw [own_cons] at this
      rw [← add_assoc, add_comm (own ps)]
      exact this
    · cases e

end Librrb
