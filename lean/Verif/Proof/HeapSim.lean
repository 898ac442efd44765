import Verif.Proof.HeapRuns
import Mathlib.Tactic.Abel

/-!
# Calls on the heap do what the calls on nodes do, and nothing else

`Sim x y L Q`: whenever the call `y` on nodes returns, the call `x` on the heap returns, in every heap where
`L` is owned and whatever else is owned; what else is owned is as before. And whenever the call on nodes fails,
the call on the heap fails in the same way. (Undefined behaviour of the call on nodes is left out here; it is
proved elsewhere not to occur.) All this holds whatever other threads do in between (`Runs`); `Spec.seq` and `Fails.seq`
are the case without other threads.
-/
namespace Librrb

theorem HM.bind_ret (x : HM α γ) : x.bind HM.ret = x := by
  induction x with
  | ret | fail => rfl
  | load _ _ ih | isOne _ _ ih | alloc _ _ ih | poke _ _ _ ih => simp only [HM.bind, ih]
  | incr _ _ ih | drop _ _ ih => simp only [HM.bind, ih]

theorem HM.bind_bind (x : HM α γ) (k : γ → HM α δ) (l : δ → HM α ζ) :
    (x.bind k).bind l = x.bind fun g => (k g).bind l := by
  induction x with
  | ret | fail => rfl
  | load _ _ ih | isOne _ _ ih | alloc _ _ ih | poke _ _ _ ih => simp only [HM.bind, ih]
  | incr _ _ ih | drop _ _ ih => simp only [HM.bind, ih]

instance : LawfulMonad (HM α) := .mk' _ (fun x => HM.bind_ret x) (fun _ _ => rfl) (fun x k l => HM.bind_bind x k l)

theorem hm_bind {x : HM α γ} {k : γ → HM α δ} {h h' : Heap α} {g : γ} (e : x h = .ok (g, h')) :
    (x >>= k) h = k g h' := by
  show (x.bind k).run h = _
  induction x generalizing h with
  | ret a => cases e; rfl
  | fail f => cases e
  | load a f ih | isOne a f ih | poke a p f ih =>
    simp only [HM.run, HM.bind] at e ⊢
    split at e
    · exact ih _ e
    · cases e
  | incr a x ih =>
    simp only [HM.run, HM.bind] at e ⊢
    split at e
    · exact ih e
    · cases e
  | alloc n f ih => exact ih _ e
  | drop as x ih =>
    simp only [HM.run, HM.bind] at e ⊢
    split at e
    · exact ih e
    · cases e

theorem hm_error {x : HM α γ} {k : γ → HM α δ} {h : Heap α} {e : Fault} (he : x h = .error e) :
    (x >>= k) h = .error e := by
  show (x.bind k).run h = _
  induction x generalizing h with
  | ret a => cases he
  | fail f => cases he; rfl
  | load a f ih | isOne a f ih | poke a p f ih =>
    simp only [HM.run, HM.bind] at he ⊢
    split at he
    · exact ih _ he
    · cases he; rfl
  | incr a x ih =>
    simp only [HM.run, HM.bind] at he ⊢
    split at he
    · exact ih he
    · cases he; rfl
  | alloc n f ih => exact ih _ he
  | drop as x ih =>
    simp only [HM.run, HM.bind] at he ⊢
    split at he
    · exact ih he
    · cases he; rfl

/-- Taking the steps of two calls one after the other. -/
theorem hm_run_bind (x : HM α γ) (k : γ → HM α δ) (h : Heap α) :
    (x >>= k) h = (x h).bind fun r => k r.1 r.2 := by
  cases e : x h with
  | error f => exact hm_error e
  | ok r => exact hm_bind e

theorem hm_bind_inv {x : HM α γ} {k : γ → HM α δ} {h : Heap α} {r : δ × Heap α} (e : (x >>= k) h = .ok r) :
    ∃ g h', x h = .ok (g, h') ∧ k g h' = .ok r := by
  rw [hm_run_bind] at e
  cases hx : x h with
  | error f => rw [hx] at e; cases e
  | ok q => rw [hx] at e; exact ⟨q.1, q.2, rfl, e⟩

theorem load_inv {a : Addr} {h h' : Heap α} {n : Body α Addr} (e : load a h = .ok (n, h')) :
    h' = h ∧ ∃ c, h.cell a = some c ∧ n = c.node := by
  change (HM.load a HM.ret).run h = _ at e
  rw [HM.run] at e
  split at e
  next c hc => cases e; exact ⟨rfl, c, hc, rfl⟩
  · cases e

theorem isOne_inv {a : Addr} {h h' : Heap α} {b : Bool} (e : isOne a h = .ok (b, h')) :
    h' = h ∧ ∃ c, h.cell a = some c ∧ b = (c.count == 1) := by
  change (HM.isOne a HM.ret).run h = _ at e
  rw [HM.run] at e
  split at e
  next c hc => cases e; exact ⟨rfl, c, hc, rfl⟩
  · cases e

theorem poke_inv {a : Addr} {f : Body α Addr → Body α Addr} {h h' : Heap α} {n : Body α Addr}
    (e : poke a f h = .ok (n, h')) :
    ∃ c, h.cell a = some c ∧ n = c.node ∧ h' = h.put a (some { c with node := f c.node }) := by
  change (HM.poke a f HM.ret).run h = _ at e
  rw [HM.run] at e
  split at e
  next c hc => cases e; exact ⟨c, hc, rfl, rfl⟩
  · cases e

theorem cloneEntry_inv {a : Addr} {h h' : Heap α} (e : cloneEntry a h = .ok ((), h')) :
    ∃ c, h.cell a = some c ∧ h' = h.put a (some { c with count := c.count + 1 }) := by
  change (HM.incr a (HM.ret ())).run h = _ at e
  rw [HM.run] at e
  split at e
  next c hc => cases e; exact ⟨c, hc, rfl⟩
  · cases e

theorem dropEntries_inv {as : List Addr} {h h' : Heap α} (e : dropEntries as h = .ok ((), h')) :
    dropLoop h.total as h = .ok h' := by
  change (HM.drop as (HM.ret ())).run h = _ at e
  rw [HM.run] at e
  split at e
  next hd => cases e; exact hd
  · cases e

theorem load_ok {h : Heap α} {a : Addr} {n : Body α Addr} (e : h.node a = some n) : load a h = .ok (n, h) := by
  obtain ⟨c, ec, rfl⟩ := Heap.exists_cell e
  show (HM.load a HM.ret).run h = _
  rw [HM.run, ec]; rfl

theorem isOne_ok {h : Heap α} {a : Addr} {c : RcBox α} (e : h.cell a = some c) : isOne a h = .ok (c.count == 1, h) := by
  show (HM.isOne a HM.ret).run h = _
  rw [HM.run, e]; rfl

theorem poke_ok {h : Heap α} {a : Addr} {c : RcBox α} (e : h.cell a = some c) (f : Body α Addr → Body α Addr) :
    poke a f h = .ok (c.node, h.put a (some { c with node := f c.node })) := by
  show (HM.poke a f HM.ret).run h = _
  rw [HM.run, e]; rfl

/-- What a call does with what it owns. -/
def Spec (x : HM α γ) (L : Ctx α) (Q : γ → Ctx α → Prop) : Prop :=
  ∀ h F, World h (L + F) → Runs (fun r L' _ => ∃ g, r = .ok g ∧ Q g L') x L h

/-- The call fails with `e` wherever `L` is owned. -/
def Fails (x : HM α γ) (L : Ctx α) (e : Fault) : Prop :=
  ∀ h F, World h (L + F) → Runs (fun r _ _ => r = .error e) x L h

/-- See the header. -/
structure Sim (x : HM α γ) (y : M δ) (L : Ctx α) (Q : γ → δ → Ctx α → Prop) : Prop where
  ok : ∀ d, y = .ok d → Spec x L fun g L' => Q g d L'
  err : ∀ e, y = .error e → e ≠ .ub → Fails x L e

/-- Either the first call fails, or the second. -/
theorem bind_error {y : M δ} {k : δ → M η} {e : Fault} (h : (y >>= k) = .error e) :
    y = .error e ∨ ∃ d, y = .ok d ∧ k d = .error e := by
  cases y with
  | error f => left; cases h; rfl
  | ok d => right; exact ⟨d, rfl, h⟩

theorem cloneEntry_run {h : Heap α} {a : Addr} {c : RcBox α} (e : h.cell a = some c) :
    cloneEntry a h = .ok ((), h.put a (some { c with count := c.count + 1 })) := by
  show (HM.incr a (HM.ret ())).run h = _
  rw [HM.run, e]; rfl

theorem cloneKids_ok : ∀ (ps : List (Addr × Node α)) {h : Heap α} {L : Ctx α}, World h L →
    (∀ p ∈ ps, Den h p.1 p.2 ∧ (p.1, none) ∉ L) →
    ∃ h', cloneEntries (ps.map Prod.fst) h = .ok ((), h') ∧ World h' (own ps + L) ∧
      (∀ b, h'.node b = h.node b) ∧ (∀ b, h'.uses b = h.uses b)
  | [], h, L, w, _ => ⟨h, rfl, by simpa using w, fun _ => rfl, fun _ => rfl⟩
  | p :: ps, h, L, w, hp => by
    obtain ⟨d, hn⟩ := hp p (by simp)
    obtain ⟨P, eP, -, -⟩ := d.inv
    obtain ⟨c, ec, -⟩ := Heap.exists_cell eP
    have w1 := w.clone_ok ec d hn
    have hnode := World.node_put_count ec (c.count + 1)
    obtain ⟨h', e', w', hn', hu'⟩ := cloneKids_ok ps w1 (by
      intro q hq
      obtain ⟨dq, hnq⟩ := hp q (by simp [hq])
      refine ⟨dq.mono fun b n e => by rw [hnode, e], fun hm => ?_⟩
      rcases Multiset.mem_add.1 hm with hm | hm
      · rw [mem_has] at hm; exact absurd hm (by simp)
      · exact hnq hm)
    refine ⟨h', ?_, ?_, fun b => by rw [hn', hnode], fun b => ?_⟩
    · show (cloneEntry p.1 >>= fun _ => cloneEntries (ps.map Prod.fst)) h = _
      rw [hm_bind (cloneEntry_run ec)]
      exact e'
    · rw [own_cons]
      have : own ps + (has (p.1, p.2) + L) = has p + own ps + L := by abel
      rw [← this]
      exact w'
    · rw [hu']
      have := Heap.uses_put ec (some { c with count := c.count + 1 }) b
      simp only [Heap.kidsOf, Option.map_some, Option.getD_some] at this
      omega

theorem not_hole_of_mem {h : Heap α} {L : Ctx α} (w : World h L) {a : Addr} {nd : Node α} (hm : (a, some nd) ∈ L) :
    (a, none) ∉ L := by
  intro hn
  have hc := Heap.count_of_cell (w.hole a hn)
  have := w.counts a
  have h2 : 2 ≤ L.refs a := by
    obtain ⟨M, rfl⟩ := Multiset.exists_cons_of_mem hm
    have hn' : (a, none) ∈ M := by
      rcases Multiset.mem_cons.1 hn with h | h
      · cases h
      · exact h
    have := refs_pos hn'
    unfold Ctx.refs at this ⊢
    rw [Multiset.map_cons, Multiset.count_cons_self]
    omega
  simp only at hc
  omega

theorem dropLoop_ok : ∀ (fuel : Nat) (ps : List (Addr × Node α)) {h : Heap α} {F : Ctx α}, h.total ≤ fuel →
    World h (own ps + F) → ∃ h', dropLoop fuel (ps.map Prod.fst) h = .ok h' ∧ World h' F
  | fuel, [], h, F, _, w => ⟨h, by cases fuel <;> rfl, by simpa using w⟩
  | fuel, p :: ps, h, F, ht, w => by
    have d := w.mem p.1 p.2 (by simp)
    obtain ⟨P, eP, hnd, hk⟩ := d.inv
    obtain ⟨c, ec, hcn⟩ := Heap.exists_cell eP
    have h1 := w.pos _ _ ec
    have ht' := Heap.count_le_total ec
    obtain ⟨fuel, rfl⟩ : ∃ n, fuel = n + 1 := ⟨fuel - 1, by omega⟩
    have w' : World h (has (p.1, p.2) + (own ps + F)) := by
      rw [← add_assoc]; exact w
    rw [List.map_cons, dropLoop, Heap.release, ec]
    by_cases hc : c.count ≤ 1
    · have hc1 : c = { count := 1, node := P.map Prod.fst } := by
        cases c; simp at hcn hc h1 ⊢; exact ⟨by omega, hcn⟩
      rw [hnd] at w'
      have w2 := w'.free_ok hk (hc1 ▸ ec)
      rw [← add_assoc, ← own_append] at w2
      have htot := Heap.total_put ec none
      obtain ⟨h', e', w3⟩ := dropLoop_ok fuel (P.kids ++ ps) (by
        simp only [Option.map_none, Option.getD_none] at htot
        omega) w2
      refine ⟨h', ?_, w3⟩
      simp only [if_pos hc, hcn, Body.kids_map]
      show dropLoop fuel (_ ++ _) _ = _
      rw [← List.map_append]
      exact e'
    · have w2 := w'.decr_ok ec (by omega)
      have htot := Heap.total_put ec (some { c with count := c.count - 1 })
      obtain ⟨h', e', w3⟩ := dropLoop_ok fuel ps (by
        simp only [Option.map_some, Option.getD_some] at htot
        omega) w2
      refine ⟨h', ?_, w3⟩
      simp only [if_neg hc]
      exact e'

theorem dropEntries_run {h h' : Heap α} {as : List Addr} (e : dropLoop h.total as h = .ok h') :
    dropEntries as h = .ok ((), h') := by
  show (HM.drop as (HM.ret ())).run h = _
  rw [HM.run, e]; rfl

theorem dropEntry_decr {h : Heap α} {a : Addr} {c : RcBox α} (ec : h.cell a = some c) (hc : 2 ≤ c.count) :
    dropEntry a h = .ok ((), h.put a (some { c with count := c.count - 1 })) := by
  have htot := Heap.count_le_total ec
  obtain ⟨n, hn⟩ : ∃ n, h.total = n + 1 := ⟨h.total - 1, by omega⟩
  refine dropEntries_run ?_
  rw [hn, dropLoop, Heap.release, ec]
  simp only [if_neg (show ¬ c.count ≤ 1 by omega)]
  show dropLoop n ([] ++ []) _ = _
  cases n <;> rfl

theorem loadMut_ok {h : Heap α} {a : Addr} {nd : Node α} {F : Ctx α} (w : World h (has (a, nd) + F)) :
    ∃ (b : Addr) (h' : Heap α) (P : Body α (Addr × Node α)), loadMut a h = .ok (b, h') ∧ World h' (has (b, nd) + F) ∧
      h'.cell b = some { count := 1, node := P.map Prod.fst } ∧ nd = (P.map Prod.snd).node ∧
      ∀ p ∈ P.kids, Den h' p.1 p.2 := by
  have d := w.mem a nd (by simp)
  obtain ⟨P, eP, hnd, hk⟩ := d.inv
  obtain ⟨c, ec, hcn⟩ := Heap.exists_cell eP
  have hpos := w.pos _ _ ec
  by_cases hc : c.count = 1
  · refine ⟨a, h, P, ?_, w, ?_, hnd, hk⟩
    · unfold loadMut
      rw [hm_bind (isOne_ok ec), if_pos (by simp [hc])]; rfl
    · rw [ec]; cases c; simp at hc hcn ⊢; exact ⟨hc, hcn⟩
  · have hrefs := w.counts a
    rw [Heap.count_of_cell ec] at hrefs
    obtain ⟨h1, e1, w1, hn1, hu1⟩ := cloneKids_ok P.kids w (by
      intro p hp
      refine ⟨hk p hp, fun hm => ?_⟩
      have hcp := Heap.count_of_cell (w.hole _ hm)
      have hrp := w.counts p.1
      have h1 := refs_pos hm
      have h2 := World.used_of_kid eP (k := p.1) (by rw [Body.kids_map]; exact List.mem_map_of_mem hp)
      simp only at hcp
      omega)
    have w2 := w1.alloc_ok
    have hca : h1.node a = some (P.map Prod.fst) := by rw [hn1, eP]
    obtain ⟨c1, ec1, hcn1⟩ := Heap.exists_cell hca
    have hcount : 2 ≤ c1.count := by
      have := w1.counts a
      rw [Heap.count_of_cell ec1, refs_add, hu1] at this
      omega
    have hlt := Heap.cell_lt ec1
    generalize hh2 : ({ cells := h1.cells ++ [some { count := 1, node := P.map Prod.fst }] } : Heap α) = h2 at w2
    have ec2 : h2.cell a = some c1 := by
      rw [← hh2]
      unfold Heap.cell
      rw [List.getElem?_append_left hlt]
      exact ec1
    have eb2 : h2.cell h1.cells.length = some { count := 1, node := P.map Prod.fst } := by
      rw [← hh2]
      unfold Heap.cell
      simp
    have w2' : World h2 (has (a, nd) + (has (h1.cells.length, (P.map Prod.snd).node) + F)) := by
      rw [add_left_comm]; exact w2
    have w3 := w2'.decr_ok ec2 hcount
    refine ⟨h1.cells.length, _, P, ?_, by rw [hnd]; exact w3, ?_, hnd, ?_⟩
    · unfold loadMut
      rw [hm_bind (isOne_ok ec), if_neg (by simp [hc]), hm_bind (load_ok eP), Body.kids_map]
      show (cloneEntries (P.kids.map Prod.fst) >>= _) h = _
      rw [hm_bind e1]
      rw [hm_bind (show alloc (P.map Prod.fst) h1 = .ok (h1.cells.length, h2) by rw [← hh2]; rfl)]
      have htot := Heap.count_le_total ec2
      have : dropEntry a h2 = .ok ((), h2.put a (some { c1 with count := c1.count - 1 })) := by
        exact dropEntry_decr ec2 (by omega)
      rw [hm_bind this]
      rfl
    · rw [Heap.cell_put (Heap.cell_lt ec2), if_neg (by omega), eb2]
    · intro p hp
      have := w2.mem h1.cells.length (P.map Prod.snd).node (by simp)
      have dp : Den h1 p.1 p.2 := (hk p hp).mono fun b n e => by rw [hn1, e]
      refine dp.mono fun b n e => ?_
      rw [World.node_put_count ec2]
      obtain ⟨cb, ecb, hb⟩ := Heap.exists_cell e
      rw [← hh2, Heap.node]
      unfold Heap.cell
      rw [List.getElem?_append_left (Heap.cell_lt ecb)]
      show Option.map RcBox.node (h1.cell b) = _
      rw [ecb, ← hb]; rfl

/-! ### Without other threads -/

/-- A step does not change what the rest of the call does. -/
theorem HM.step_run {x : HM α γ} {h : Heap α} {r : HM α γ × Heap α} (hp : ∀ a c, h.cell a = some c → 1 ≤ c.count)
    (e : x.step h = .ok r) : x.run h = r.1.run r.2 := by
  cases x with
  | ret | fail => cases e; rfl
  | load a f | isOne a f | incr a f | poke a g f =>
    simp only [HM.step] at e
    rw [HM.run]
    split at e
    next hc => cases e; rw [hc]
    · cases e
  | alloc n f => cases e; rw [HM.run]
  | drop as f =>
    cases as with
    | nil =>
      cases e
      rw [HM.run]
      cases h.total <;> rfl
    | cons a as =>
      simp only [HM.step] at e
      cases hrel : h.release a with
      | error f => rw [hrel] at e; cases e
      | ok q =>
        rw [hrel] at e
        cases e
        have htot : h.total = q.2.total + 1 := by
          unfold Heap.release at hrel
          split at hrel
          · cases hrel
          next c hc =>
            have h1 := hp a c hc
            split at hrel
            next h2 =>
              cases hrel
              have := Heap.total_put hc none
              simp only [Option.map_none, Option.getD_none] at this
              have h3 := Heap.count_le_total hc
              simp only
              omega
            next h2 =>
              cases hrel
              have := Heap.total_put hc (some { c with count := c.count - 1 })
              simp only [Option.map_some, Option.getD_some] at this
              have h3 := Heap.count_le_total hc
              simp only
              omega
        rw [HM.run, HM.run, htot, dropLoop, hrel]
        rfl

theorem Runs.seq {Q : M γ → Ctx α → Heap α → Prop} {x : HM α γ} {L : Ctx α} {h : Heap α} (r : Runs Q x L h) :
    ∀ F, World h (L + F) → ∃ r h' L', Q r L' h' ∧ World h' (L' + F) ∧ Kept F h h' ∧ x h = r.map fun g => (g, h') := by
  induction r with
  | @ended x L h r e hq =>
    intro F w
    refine ⟨r, h, L, hq h F (.refl _ _) w, w, .refl _ _, ?_⟩
    cases x with
    | ret g => cases e; rfl
    | fail g => cases e; rfl
    | _ => cases e
  | @step x L h L' e ha hw _ ih =>
    intro F w
    obtain ⟨q, hq, kF⟩ := (ha h F (.refl _ _) w).step w
    have w' := hw h F q (.refl _ _) w hq
    obtain ⟨r, h2, L2, q2, w2, k2, e2⟩ := ih h F q (.refl _ _) w hq F w'
    exact ⟨r, h2, L2, q2, w2, kF.trans k2, (HM.step_run w.pos hq).trans e2⟩

theorem Spec.seq {x : HM α γ} {L : Ctx α} {Q : γ → Ctx α → Prop} (s : Spec x L Q) (h : Heap α) (F : Ctx α)
    (w : World h (L + F)) : ∃ g h' L', x h = .ok (g, h') ∧ Q g L' ∧ World h' (L' + F) := by
  obtain ⟨r, h', L', ⟨g, rfl, q⟩, w', -, e⟩ := (s h F w).seq F w
  exact ⟨g, h', L', e, q, w'⟩

theorem Fails.seq {x : HM α γ} {L : Ctx α} {e : Fault} (s : Fails x L e) (h : Heap α) (F : Ctx α)
    (w : World h (L + F)) : x h = .error e := by
  obtain ⟨r, h', L', rfl, -, -, e⟩ := (s h F w).seq F w
  exact e

/-! ### What the primitive calls do -/

/-- Entries that can be cloned: owned ones, and children of nodes that can be reached. -/
def Ctx.entry (L : Ctx α) (h : Heap α) (p : Addr × Node α) : Prop :=
  (p.1, some p.2) ∈ L ∨ (∃ x n, L.reach h x ∧ h.node x = some n ∧ p.1 ∈ n.kids) ∧ Den h p.1 p.2

theorem Ctx.entry_keep {L : Ctx α} {h h1 : Heap α} {p : Addr × Node α}
    (hk : ∀ b n, L.reach h b → h.node b = some n → h1.node b = some n) (e : L.entry h p) : L.entry h1 p := by
  rcases e with e | ⟨⟨x, n, r, e, hm⟩, d⟩
  · exact .inl e
  · exact .inr ⟨⟨x, n, Ctx.reach_keep hk r, hk _ _ r e, hm⟩, d.keep hk (Ctx.reach_kid r e hm)⟩

theorem Ctx.entry_ok {L F : Ctx α} {h : Heap α} {p : Addr × Node α} (w : World h (L + F)) (e : L.entry h p) :
    L.reach h p.1 ∧ Den h p.1 p.2 ∧ (p.1, none) ∉ L + F := by
  rcases e with e | ⟨⟨x, n, r, e, hm⟩, d⟩
  · have hm : (p.1, some p.2) ∈ L + F := Multiset.mem_add.2 (.inl e)
    exact ⟨Ctx.reach_start (Ctx.starts_of_mem e), w.mem _ _ hm, not_hole_of_mem w hm⟩
  · refine ⟨Ctx.reach_kid r e hm, d, fun hh => ?_⟩
    have hcp := Heap.count_of_cell (w.hole _ hh)
    have hrp := w.counts p.1
    have h1 := refs_pos hh
    have h2 := World.used_of_kid e hm
    simp only at hcp
    omega

theorem Runs.clones {Q : M γ → Ctx α → Heap α → Prop} {k : Unit → HM α γ} {L0 : Ctx α} {I : Heap α → Prop}
    (hI : ∀ h h1, I h → Kept L0 h h1 → I h1) : ∀ (ps : List (Addr × Node α)) {R : Ctx α} {h : Heap α},
    (∀ p ∈ ps, ∀ h h2, I h → (∀ b, h2.node b = h.node b) → (∀ b, b ≠ p.1 → h2.count b = h.count b) → I h2) → I h →
    (∀ p ∈ ps, (R + L0).entry h p) → (∀ h1 F, I h1 → World h1 (own ps + (R + L0) + F) → Runs Q (k ()) (own ps + (R + L0)) h1) →
    ∀ F, World h (R + L0 + F) → Runs Q (cloneEntries (ps.map Prod.fst) >>= k) (R + L0) h
  | [], R, h, _, h0, _, hk => by
    intro F w
    rw [own_nil, zero_add] at hk
    exact hk h F h0 w
  | p :: ps, R, h, hp', h0, hp, hk => by
    intro F w
    show Runs Q (.incr p.1 (cloneEntries (ps.map Prod.fst) >>= k)) (R + L0) h
    refine .incr (nd := p.2) fun h1 F k1 w => ?_
    obtain ⟨r, d, hn⟩ := Ctx.entry_ok w (Ctx.entry_keep k1.node (hp p (by simp)))
    refine ⟨r, d, hn, fun h2 hnode hcount w2 => ?_⟩
    have e0 : has (p.1, p.2) + (R + L0) = has p + R + L0 := (add_assoc _ _ _).symm
    rw [e0] at w2 ⊢
    refine Runs.clones hI ps (fun q hq => hp' q (by simp [hq])) (hp' p (by simp) h1 h2 (hI _ _ h0 k1.right) hnode hcount)
      (fun q hq => ?_) (fun h3 F h3I w => ?_) F w2
    · rw [← e0]
      rcases Ctx.entry_keep (fun b n r e => by rw [hnode]; exact k1.node b n r e) (hp q (by simp [hq])) with e | ⟨⟨x, n, r, e, hm⟩, d⟩
      · exact .inl (Multiset.mem_add.2 (.inr e))
      · exact .inr ⟨⟨x, n, Ctx.reach_mono (fun a ha => Ctx.starts_add.2 (.inr ha)) r, e, hm⟩, d⟩
    · have : own ps + (has p + R + L0) = own (p :: ps) + (R + L0) := by rw [own_cons]; abel
      rw [this] at w ⊢
      exact hk h3 F h3I w

theorem Runs.clones' {Q : M γ → Ctx α → Heap α → Prop} {k : Unit → HM α γ} (ps : List (Addr × Node α)) {L : Ctx α} {h : Heap α}
    (hp : ∀ p ∈ ps, L.entry h p) (hk : ∀ h1 F, World h1 (own ps + L + F) → Runs Q (k ()) (own ps + L) h1) (F : Ctx α)
    (w : World h (L + F)) : Runs Q (cloneEntries (ps.map Prod.fst) >>= k) L h := by
  have := Runs.clones (I := fun _ => True) (L0 := L) (R := 0) (Q := Q) (k := k) (h := h) (fun _ _ _ _ => trivial) ps
    (fun _ _ _ _ _ _ _ => trivial) trivial (by rw [zero_add]; exact hp) (by rw [zero_add]; exact fun h1 F _ w => hk h1 F w) F
    (by rw [zero_add]; exact w)
  rw [zero_add] at this
  exact this

theorem alloc_spec (P : Body α (Addr × Node α)) :
    Spec (alloc (P.map Prod.fst)) (own P.kids) fun a L' => L' = has (a, (P.map Prod.snd).node) := by
  intro h F w
  have := Runs.alloc (γ := Addr) (R := 0) (P := P) (h := h) (k := HM.ret)
    (Q := fun r L' _ => ∃ g, r = .ok g ∧ L' = has (g, (P.map Prod.snd).node)) fun a h1 _ _ _ _ _ =>
      .ret fun _ _ _ _ => ⟨a, rfl, by rw [add_zero]⟩
  rw [add_zero] at this
  exact this

theorem dropEntries_spec (ps : List (Addr × Node α)) :
    Spec (dropEntries (ps.map Prod.fst)) (own ps) fun _ L' => L' = 0 := by
  intro h F w
  have := Runs.drops (γ := Unit) (R := 0) (h0 := h) (k := HM.ret ())
    (Q := fun r L' _ => ∃ g, r = .ok g ∧ L' = 0) (fun h1 F _ _ => .ret fun _ _ _ _ => ⟨(), rfl, rfl⟩) ps h (.refl _ _)
  rw [add_zero] at this
  exact this

theorem dropEntry_spec (p : Addr × Node α) : Spec (dropEntry p.1) (has p) fun _ L' => L' = 0 := by
  have := dropEntries_spec [p]
  simp only [own_cons, own_nil, add_zero] at this
  exact this

theorem cloneEntries_spec (ps : List (Addr × Node α)) :
    Spec (cloneEntries (ps.map Prod.fst)) (own ps) fun _ L' => L' = own ps + own ps := by
  intro h F w
  rw [← bind_pure (cloneEntries (ps.map Prod.fst))]
  exact Runs.clones' ps (fun p hp => .inl (mem_own.2 hp)) (fun h1 F w1 => .ret fun _ _ _ _ => ⟨(), rfl, rfl⟩) F w

/-- `make_mut`: afterwards there is one owner. -/
theorem loadMut_runs (a : Addr) (nd : Node α) (h : Heap α) (F : Ctx α) (w : World h (has (a, nd) + F)) :
    Runs (fun r L' h' => ∃ b, r = .ok b ∧ L' = has (b, nd) ∧ h'.count b = 1) (loadMut a) (has (a, nd)) h := by
  have hst : (has (a, nd)).starts a := Ctx.starts_of_mem (s := some nd) (by simp)
  refine .isOne fun h1 F1 k1 w1 => ⟨Ctx.reach_start hst, ?_⟩
  show Runs _ (if (h1.count a == 1) = true then _ else _) _ _
  by_cases hc : h1.count a = 1
  · rw [if_pos (by simp [hc])]
    exact .ret fun h2 F2 k2 _ => ⟨a, rfl, rfl, k2.one hst hc⟩
  · rw [if_neg (by simp [hc])]
    refine .load fun h2 F2 k2 w2 => ⟨Ctx.reach_start hst, fun n en => ?_⟩
    obtain ⟨P, eP, hnd, hk⟩ := (w2.mem a nd (by simp)).inv
    rw [en] at eP
    cases eP
    show Runs _ (cloneEntries (P.map Prod.fst).kids >>= _) _ _
    rw [Body.kids_map]
    refine Runs.clones' P.kids (fun p hp => .inr ⟨⟨a, _, Ctx.reach_start hst, en, ?_⟩, hk p hp⟩) (fun h3 F3 w3 => ?_) F2 w2
    · rw [Body.kids_map]; exact List.mem_map_of_mem hp
    · refine .alloc fun b h4 F4 k4 h4c _ _ => ?_
      rw [add_comm]
      have := Runs.drops (h0 := h4) (R := has (b, (P.map Prod.snd).node)) (k := HM.ret b)
        (Q := fun r L' h' => ∃ b, r = .ok b ∧ L' = has (b, nd) ∧ h'.count b = 1) (fun h5 F5 k5 w5 => .ret fun h6 F6 k6 _ =>
          ⟨b, rfl, by rw [hnd], (k5.trans k6).one (Ctx.starts_of_mem (s := some (P.map Prod.snd).node) (by simp)) h4c⟩)
        [(a, nd)] h4 (.refl _ _)
      simp only [own_cons, own_nil, add_zero] at this
      exact this

theorem borrow_spec (p : Addr × Node α) : Spec (borrow p.1) (has p) fun g L' =>
    ∃ P : Body α (Addr × Node α), g.2 = P.map Prod.fst ∧ p.2 = (P.map Prod.snd).node ∧
      L' = hole g.1 + own P.kids := by
  intro h F w
  unfold borrow
  refine (loadMut_runs p.1 p.2 h F w).bind (fun b L' h1 F1 q w1 => ?_) (fun e L' h1 q => ?_) F w
  · obtain ⟨_, e, rfl, hc⟩ := q
    cases e
    have := Runs.take (R := 0) (nd := p.2) (h := h1) (k := fun n => HM.ret (b, n))
      (Q := fun r L' _ => ∃ g : Addr × Body α Addr, r = .ok g ∧ ∃ P : Body α (Addr × Node α), g.2 = P.map Prod.fst ∧
        p.2 = (P.map Prod.snd).node ∧ L' = hole g.1 + own P.kids) hc fun h2 P hP => .ret fun h3 F3 _ _ =>
          ⟨_, rfl, P, rfl, hP, by rw [add_zero]⟩
    rw [add_zero] at this
    exact this
  · obtain ⟨_, e, -⟩ := q
    cases e

theorem giveBack_spec (a : Addr) (P : Body α (Addr × Node α)) :
    Spec (giveBack a (P.map Prod.fst)) (hole a + own P.kids) fun _ L' => L' = has (a, (P.map Prod.snd).node) := by
  intro h F w
  have := Runs.give (R := 0) (h := h) (P := P) (a := a) (k := fun _ => HM.ret ())
    (Q := fun r L' _ => ∃ g, r = .ok g ∧ L' = has (a, (P.map Prod.snd).node)) fun h1 n => .ret fun _ _ _ _ =>
      ⟨(), rfl, by rw [add_zero]⟩
  rw [add_zero] at this
  exact this

theorem load_spec {h : Heap α} {L : Ctx α} (w : World h L) {a : Addr} {nd : Node α} (hm : (a, some nd) ∈ L) :
    ∃ P : Body α (Addr × Node α), load a h = .ok (P.map Prod.fst, h) ∧ nd = (P.map Prod.snd).node := by
  obtain ⟨P, eP, hnd, -⟩ := (w.mem a nd hm).inv
  exact ⟨P, load_ok eP, hnd⟩

/-! ### Rules -/

theorem Spec.bind {x : HM α γ} {k : γ → HM α δ} {A R : Ctx α} {Q : γ → Ctx α → Prop} {Q' : δ → Ctx α → Prop}
    (hx : Spec x A Q) (hk : ∀ g A', Q g A' → Spec (k g) (A' + R) Q') : Spec (x >>= k) (A + R) Q' := by
  intro h F w
  have w0 := w
  rw [add_assoc] at w
  have := (hx h (R + F) w).frame (R := R) (Q' := fun r L' _ => ∃ g A', r = .ok g ∧ Q g A' ∧ L' = A' + R)
    fun r L h ⟨g, e, q⟩ => ⟨g, L, e, q, rfl⟩
  refine this.bind (fun g L h1 F1 q w1 => ?_) (fun e L h1 q => ?_) F w0
  · obtain ⟨_, A', e, q, rfl⟩ := q
    cases e
    exact hk g A' q h1 F1 w1
  · obtain ⟨_, _, e, -⟩ := q
    cases e

theorem Fails.bind {x : HM α γ} {k : γ → HM α δ} {A R : Ctx α} {e : Fault} (hx : Fails x A e) :
    Fails (x >>= k) (A + R) e := by
  intro h F w
  have w0 := w
  rw [add_assoc] at w
  have := (hx h (R + F) w).frame (R := R) (Q' := fun r _ _ => r = .error e) fun r L h q => q
  exact this.bind (fun g L h1 F1 q w1 => by cases q) (fun f L h1 q => by cases q; rfl) F w0

theorem Spec.fails {x : HM α γ} {k : γ → HM α δ} {A R : Ctx α} {Q : γ → Ctx α → Prop} {e : Fault}
    (hx : Spec x A Q) (hk : ∀ g A', Q g A' → Fails (k g) (A' + R) e) : Fails (x >>= k) (A + R) e := by
  intro h F w
  have w0 := w
  rw [add_assoc] at w
  have := (hx h (R + F) w).frame (R := R) (Q' := fun r L' _ => ∃ g A', r = .ok g ∧ Q g A' ∧ L' = A' + R)
    fun r L h ⟨g, e, q⟩ => ⟨g, L, e, q, rfl⟩
  refine this.bind (fun g L h1 F1 q w1 => ?_) (fun e L h1 q => ?_) F w0
  · obtain ⟨_, A', e, q, rfl⟩ := q
    cases e
    exact hk g A' q h1 F1 w1
  · obtain ⟨_, _, e, -⟩ := q
    cases e

namespace Sim

variable {x : HM α γ} {k : γ → HM α ζ} {y : M δ} {k' : δ → M η} {A R L L' : Ctx α}

theorem ctx {Q : γ → δ → Ctx α → Prop} (hL : L = L') (h : Sim x y L' Q) : Sim x y L Q := by rw [hL]; exact h

theorem error {Q : γ → δ → Ctx α → Prop} {e : Fault} (hx : x = .fail e := by rfl) : Sim x (.error e) L Q :=
  ⟨fun d hd => (by cases hd), fun e he _ h F _ => (by cases he; rw [hx]; exact .fail fun _ _ _ _ => rfl)⟩

theorem pure {Q : γ → δ → Ctx α → Prop} {g : γ} {d : δ} (h : Q g d L) : Sim (pure g) (.ok d) L Q := by
  refine ⟨fun d' e h' F w => ?_, fun e he _ => by cases he⟩
  cases e
  exact .ret fun _ _ _ _ => ⟨g, rfl, h⟩

theorem bind {Q : γ → δ → Ctx α → Prop} {Q' : ζ → η → Ctx α → Prop} (hx : Sim x y A Q)
    (hk : ∀ g d A', Q g d A' → Sim (k g) (k' d) (A' + R) Q') : Sim (x >>= k) (y >>= k') (A + R) Q' := by
  refine ⟨fun d e => ?_, fun e he hu => ?_⟩
  · obtain ⟨d1, e1, e2⟩ := RVec.bind_ok e
    exact (hx.ok d1 e1).bind fun g A' q => (hk g d1 A' q).ok d e2
  · rcases bind_error he with he | ⟨d, e1, e2⟩
    · exact (hx.err e he hu).bind
    · exact (hx.ok d e1).fails fun g A' q => (hk g d A' q).err e e2 hu

theorem frame {Q Q' : γ → δ → Ctx α → Prop} (hx : Sim x y A Q) (hq : ∀ g d A', Q g d A' → Q' g d (A' + R)) :
    Sim x y (A + R) Q' := by
  refine ⟨fun d e h F w => ?_, fun e he hu h F w => ?_⟩
  · rw [add_assoc] at w
    exact (hx.ok d e h (R + F) w).frame fun r L h ⟨g, e, q⟩ => ⟨g, e, hq g d L q⟩
  · rw [add_assoc] at w
    exact (hx.err e he hu h (R + F) w).frame fun r L h q => q

theorem mono {Q Q' : γ → δ → Ctx α → Prop} (hx : Sim x y L Q) (hq : ∀ g d A', Q g d A' → Q' g d A') :
    Sim x y L Q' :=
  ⟨fun d e h F w => (hx.ok d e h F w).mono fun r L h ⟨g, e, q⟩ => ⟨g, e, hq g d L q⟩, hx.err⟩

/-- A call with nothing that corresponds to it on nodes. -/
theorem step {Q : γ → Ctx α → Prop} {Q' : ζ → δ → Ctx α → Prop} (hx : Spec x A Q)
    (hk : ∀ g A', Q g A' → Sim (k g) y (A' + R) Q') : Sim (x >>= k) y (A + R) Q' :=
  ⟨fun d e => hx.bind fun g A' q => (hk g A' q).ok d e, fun e he hu => hx.fails fun g A' q => (hk g A' q).err e he hu⟩

/-- A call on nodes that is left out on the heap, and returns. -/
theorem skip {Q : γ → η → Ctx α → Prop} (hy : ∃ d, y = .ok d) (hk : ∀ d, y = .ok d → Sim x (k' d) L Q) :
    Sim x (y >>= k') L Q := by
  obtain ⟨d, rfl⟩ := hy
  exact hk d rfl

theorem same {z : M γ} {k' : γ → M η} {Q : ζ → η → Ctx α → Prop} (hk : ∀ a, z = .ok a → Sim (k a) (k' a) L Q) :
    Sim (liftM z >>= k) (z >>= k') L Q := by
  cases z with
  | error e => exact error
  | ok a => exact hk a rfl

/-- The same code on both sides, with different children. -/
theorem nat {z : M β} {f : β → γ} {f' : β → δ} {x : M γ} {Q : ζ → η → Ctx α → Prop} (hx : x = z.map f)
    (hy : y = z.map f') (hk : ∀ b, z = .ok b → Sim (k (f b)) (k' (f' b)) L Q) :
    Sim (liftM x >>= k) (y >>= k') L Q := by
  subst hx hy
  cases z with
  | error e => exact error
  | ok b => exact hk b rfl

theorem natLast {z : M β} {f : β → γ} {f' : β → δ} {x : M γ} {Q : γ → δ → Ctx α → Prop} (hx : x = z.map f)
    (hy : y = z.map f') (hk : ∀ b, z = .ok b → Q (f b) (f' b) L) : Sim (liftM x : HM α γ) y L Q := by
  subst hx hy
  cases z with
  | error e => exact error
  | ok b => exact pure (hk b rfl)

/-- A call on the heap side only, that returns. -/
theorem lift {z : M γ} {a : γ} {Q : ζ → δ → Ctx α → Prop} (hz : z = .ok a) (hk : Sim (k a) y L Q) :
    Sim (liftM z >>= k) y L Q := by
  subst hz
  exact hk

theorem ite {c : Prop} [Decidable c] {x' : HM α γ} {y' : M δ} {Q : γ → δ → Ctx α → Prop}
    (h1 : c → Sim x y L Q) (h2 : ¬ c → Sim x' y' L Q) :
    Sim (if c then x else x') (if c then y else y') L Q := by
  by_cases h : c
  · rw [if_pos h, if_pos h]; exact h1 h
  · rw [if_neg h, if_neg h]; exact h2 h

theorem load {a : Addr} {nd : Node α} {k : Body α Addr → HM α ζ} {Q : ζ → δ → Ctx α → Prop} (hm : (a, some nd) ∈ L)
    (hk : ∀ P : Body α (Addr × Node α), nd = (P.map Prod.snd).node → Sim (k (P.map Prod.fst)) y L Q) :
    Sim (Librrb.load a >>= k) y L Q := by
  have key : ∀ {Q' : M ζ → Ctx α → Heap α → Prop} (h : Heap α),
      (∀ (P : Body α (Addr × Node α)) h F, nd = (P.map Prod.snd).node → World h (L + F) → Runs Q' (k (P.map Prod.fst)) L h) →
      Runs Q' (Librrb.load a >>= k) L h := by
    intro Q' h hP
    refine .load fun h1 F1 k1 w1 => ⟨Ctx.reach_start (Ctx.starts_of_mem hm), fun n en => ?_⟩
    obtain ⟨P, eP, hnd, -⟩ := (w1.mem a nd (Multiset.mem_add.2 (.inl hm))).inv
    rw [en] at eP
    cases eP
    exact hP P h1 F1 hnd w1
  exact ⟨fun d e h F w => key h fun P h1 F1 hnd w1 => (hk P hnd).ok d e h1 F1 w1,
    fun e he hu h F w => key h fun P h1 F1 hnd w1 => (hk P hnd).err e he hu h1 F1 w1⟩

theorem borrow {p : Addr × Node α} {k : Addr × Body α Addr → HM α ζ} {Q : ζ → δ → Ctx α → Prop}
    (hk : ∀ a (P : Body α (Addr × Node α)), p.2 = (P.map Prod.snd).node →
      Sim (k (a, P.map Prod.fst)) y (hole a + own P.kids + R) Q) :
    Sim (Librrb.borrow p.1 >>= k) y (has p + R) Q := by
  refine step (borrow_spec p) fun g A' q => ?_
  obtain ⟨P, h1, h2, rfl⟩ := q
  obtain ⟨a, n⟩ := g
  simp only at h1
  subst h1
  exact hk a P h2

theorem giveBack {a : Addr} {P : Body α (Addr × Node α)} {k : Unit → HM α ζ} {Q : ζ → δ → Ctx α → Prop}
    (hk : Sim (k ()) y (has (a, (P.map Prod.snd).node) + R) Q) :
    Sim (Librrb.giveBack a (P.map Prod.fst) >>= k) y (hole a + own P.kids + R) Q := by
  refine step (giveBack_spec a P) fun g A' q => ?_
  subst q
  exact hk

theorem alloc {P : Body α (Addr × Node α)} {k : Addr → HM α ζ} {Q : ζ → δ → Ctx α → Prop}
    (hk : ∀ a, Sim (k a) y (has (a, (P.map Prod.snd).node) + R) Q) :
    Sim (Librrb.alloc (P.map Prod.fst) >>= k) y (own P.kids + R) Q := by
  refine step (alloc_spec P) fun g A' q => ?_
  subst q
  exact hk g

theorem drop {p : Addr × Node α} {k : Unit → HM α ζ} {Q : ζ → δ → Ctx α → Prop} (hk : Sim (k ()) y R Q) :
    Sim (Librrb.dropEntry p.1 >>= k) y (has p + R) Q := by
  refine step (dropEntry_spec p) fun g A' q => ?_
  subst q
  rw [zero_add]
  exact hk

theorem drops {ps : List (Addr × Node α)} {k : Unit → HM α ζ} {Q : ζ → δ → Ctx α → Prop} (hk : Sim (k ()) y R Q) :
    Sim (Librrb.dropEntries (ps.map Prod.fst) >>= k) y (own ps + R) Q := by
  refine step (dropEntries_spec ps) fun g A' q => ?_
  subst q
  rw [zero_add]
  exact hk

end Sim

/-! ### Calls that only read -/

/-- The call only reads nodes, and comes to this end. -/
inductive Looks (h : Heap α) : HM α γ → M γ → Prop where
  | ret (g : γ) : Looks h (.ret g) (.ok g)
  | fail (e : Fault) : Looks h (.fail e) (.error e)
  | load {a : Addr} {k : Body α Addr → HM α γ} {n : Body α Addr} {r : M γ} (e : h.node a = some n)
      (l : Looks h (k n) r) : Looks h (.load a k) r

theorem Looks.run {h : Heap α} {x : HM α γ} {r : M γ} (l : Looks h x r) : x h = r.map fun g => (g, h) := by
  induction l with
  | ret | fail => rfl
  | @load a k n r e l ih =>
    obtain ⟨c, ec, rfl⟩ := Heap.exists_cell e
    rw [← ih]
    show (HM.load a k).run h = _
    rw [HM.run, ec]

theorem Looks.bind {h : Heap α} {x : HM α γ} {k : γ → HM α δ} {g : γ} {r : M δ} (l : Looks h x (.ok g))
    (l' : Looks h (k g) r) : Looks h (x >>= k) r := by
  show Looks h (x.bind k) r
  generalize hr : (Except.ok g : M γ) = r' at l
  induction l with
  | ret => cases hr; exact l'
  | fail => cases hr
  | load e _ ih => exact .load e (ih hr)

theorem Looks.error {h : Heap α} {x : HM α γ} {k : γ → HM α δ} {e : Fault} (l : Looks h x (.error e)) :
    Looks h (x >>= k) (.error e) := by
  show Looks h (x.bind k) _
  generalize hr : (Except.error e : M γ) = r' at l
  induction l with
  | ret => cases hr
  | fail => cases hr; exact .fail e
  | load e _ ih => exact .load e (ih hr)

/-- The call changes nothing, and returns or fails just as the call on nodes does. -/
structure Reads (h : Heap α) (x : HM α γ) (y : M δ) (Q : γ → δ → Prop) : Prop where
  looks : ∀ d, y = .ok d → ∃ g, Looks h x (.ok g) ∧ Q g d
  fails : ∀ e, y = .error e → Looks h x (.error e)

namespace Reads

variable {h : Heap α} {x : HM α γ} {y : M δ} {k : γ → HM α ζ} {k' : δ → M η}

theorem ok {Q : γ → δ → Prop} (r : Reads h x y Q) (d : δ) (e : y = .ok d) : ∃ g, x h = .ok (g, h) ∧ Q g d := by
  obtain ⟨g, l, q⟩ := r.looks d e
  exact ⟨g, l.run, q⟩

theorem err {Q : γ → δ → Prop} (r : Reads h x y Q) (e : Fault) (he : y = .error e) : x h = .error e := (r.fails e he).run

theorem error {Q : γ → δ → Prop} {e : Fault} (hx : x = .fail e := by rfl) : Reads h x (.error e) Q :=
  ⟨fun d hd => (by cases hd), fun e he => (by cases he; rw [hx]; exact .fail _)⟩

theorem pure {Q : γ → δ → Prop} {g : γ} {d : δ} (hq : Q g d) : Reads h (pure g) (.ok d) Q := by
  refine ⟨fun d' e => ?_, fun e he => by cases he⟩
  cases e
  exact ⟨g, .ret g, hq⟩

theorem bind {Q : γ → δ → Prop} {Q' : ζ → η → Prop} (hx : Reads h x y Q)
    (hk : ∀ g d, Q g d → Reads h (k g) (k' d) Q') : Reads h (x >>= k) (y >>= k') Q' := by
  refine ⟨fun d e => ?_, fun e he => ?_⟩
  · obtain ⟨d1, e1, e2⟩ := RVec.bind_ok e
    obtain ⟨g, l, q⟩ := hx.looks d1 e1
    obtain ⟨g', l', q'⟩ := (hk g d1 q).looks d e2
    exact ⟨g', l.bind l', q'⟩
  · rcases bind_error he with he | ⟨d, e1, e2⟩
    · exact (hx.fails e he).error
    · obtain ⟨g, l, q⟩ := hx.looks d e1
      exact l.bind ((hk g d q).fails e e2)

theorem same {z : M γ} {k' : γ → M η} {Q : ζ → η → Prop} (hk : ∀ a, z = .ok a → Reads h (k a) (k' a) Q) :
    Reads h (liftM z >>= k) (z >>= k') Q := by
  cases z with
  | error e => exact error
  | ok a => exact hk a rfl

theorem nat {z : M β} {f : β → γ} {f' : β → δ} {x : M γ} {Q : ζ → η → Prop} (hx : x = z.map f)
    (hy : y = z.map f') (hk : ∀ b, z = .ok b → Reads h (k (f b)) (k' (f' b)) Q) :
    Reads h (liftM x >>= k) (y >>= k') Q := by
  subst hx hy
  cases z with
  | error e => exact error
  | ok b => exact hk b rfl

theorem last {z : M γ} : Reads h (liftM z : HM α γ) z Eq := by
  cases z with
  | error e => exact error
  | ok a => exact pure rfl

theorem mono {Q Q' : γ → δ → Prop} (hx : Reads h x y Q) (hq : ∀ g d, Q g d → Q' g d) : Reads h x y Q' := by
  refine ⟨fun d e => ?_, hx.fails⟩
  obtain ⟨g, e1, q⟩ := hx.looks d e
  exact ⟨g, e1, hq g d q⟩

theorem ite {c : Prop} [Decidable c] {x' : HM α γ} {y' : M δ} {Q : γ → δ → Prop}
    (h1 : c → Reads h x y Q) (h2 : ¬ c → Reads h x' y' Q) : Reads h (if c then x else x') (if c then y else y') Q := by
  by_cases hc : c
  · rw [if_pos hc, if_pos hc]; exact h1 hc
  · rw [if_neg hc, if_neg hc]; exact h2 hc

theorem load {a : Addr} {nd : Node α} {k : Body α Addr → HM α ζ} {Q : ζ → δ → Prop} (hd : Den h a nd)
    (hk : ∀ P : Body α (Addr × Node α), nd = (P.map Prod.snd).node → (∀ p ∈ P.kids, Den h p.1 p.2) →
      Reads h (k (P.map Prod.fst)) y Q) : Reads h (Librrb.load a >>= k) y Q := by
  obtain ⟨P, eP, hnd, hkids⟩ := hd.inv
  refine ⟨fun d e => ?_, fun e he => .load eP ((hk P hnd hkids).fails e he)⟩
  obtain ⟨g, l, q⟩ := (hk P hnd hkids).looks d e
  exact ⟨g, .load eP l, q⟩

end Reads

open Classical in
/-- The part of the heap that can be reached. -/
noncomputable def Heap.part (h : Heap α) (L : Ctx α) : Heap α :=
  { cells := h.cells.mapIdx fun i c => if L.reach h i then c else none }

theorem Heap.node_part {h : Heap α} {L : Ctx α} {b : Addr} {n : Body α Addr} :
    (h.part L).node b = some n ↔ L.reach h b ∧ h.node b = some n := by
  unfold Heap.part Heap.node Heap.cell
  rw [List.getElem?_mapIdx]
  by_cases r : L.reach h b
  · cases h.cells[b]? with
    | none => simp
    | some c => simp [r]
  · cases h.cells[b]? with
    | none => simp
    | some c => simp [r]

/-- What is read is what can be reached, so it makes no difference what others do. -/
theorem Looks.runs {h : Heap α} {x : HM α γ} {r : M γ} {L : Ctx α} {Q : M γ → Ctx α → Heap α → Prop}
    (l : Looks (h.part L) x r) : ∀ {h1 : Heap α}, Kept L h h1 → (∀ h2 F, Kept L h h2 → World h2 (L + F) → Q r L h2) →
    Runs Q x L h1 := by
  induction l with
  | ret g => exact fun k hq => .ret fun h2 F k2 w2 => hq h2 F (k.trans k2) w2
  | fail g => exact fun k hq => .fail fun h2 F k2 w2 => hq h2 F (k.trans k2) w2
  | @load a f n r e _ ih =>
    intro h1 k hq
    obtain ⟨re, en⟩ := Heap.node_part.1 e
    refine .load fun h2 F k2 w2 => ⟨(k.trans k2).reach re, fun m em => ?_⟩
    have := (k.trans k2).node _ _ re en
    rw [em] at this
    cases this
    exact ih (k.trans k2) hq

theorem Den.part {h : Heap α} {L : Ctx α} {a : Addr} {nd : Node α} (d : Den h a nd) (r : L.reach h a) :
    Den (h.part L) a nd :=
  d.keep (fun _ _ r e => Heap.node_part.2 ⟨r, e⟩) r

/-- A call that only reads, on owned entries. -/
theorem Sim.reads {x : HM α γ} {y : M δ} {L : Ctx α} {Q : γ → δ → Ctx α → Prop} {Q0 : γ → δ → Prop}
    (hx : ∀ h, (∀ a nd, (a, some nd) ∈ L → Den h a nd) → Reads h x y Q0) (hq : ∀ g d, Q0 g d → Q g d L) : Sim x y L Q := by
  have key : ∀ h F, World h (L + F) → Reads (h.part L) x y Q0 := fun h F w => hx _ fun a nd hm =>
    (w.mem a nd (Multiset.mem_add.2 (.inl hm))).part (Ctx.reach_start (Ctx.starts_of_mem hm))
  refine ⟨fun d e h F w => ?_, fun e he hu h F w => ?_⟩
  · obtain ⟨g, l, q⟩ := (key h F w).looks d e
    exact l.runs (.refl _ _) fun _ _ _ _ => ⟨g, rfl, hq g d q⟩
  · exact ((key h F w).fails e he).runs (.refl _ _) fun _ _ _ _ => rfl

/-- A call that only reads, on an entry that is owned. -/
theorem Sim.read {a : Addr} {nd : Node α} {x : HM α γ} {y : M γ} {k : γ → HM α ζ} {k' : γ → M η} {L : Ctx α}
    {Q : ζ → η → Ctx α → Prop} (hm : (a, some nd) ∈ L) (hx : ∀ h, Den h a nd → Reads h x y Eq)
    (hk : ∀ o, y = .ok o → Sim (k o) (k' o) L Q) : Sim (x >>= k) (y >>= k') L Q := by
  have s : Sim x y L fun g d L' => g = d ∧ y = .ok d ∧ L' = L :=
    Sim.reads (Q0 := fun g d => g = d ∧ y = .ok d) (fun h hd => ⟨fun d e => by
      obtain ⟨g, l, q⟩ := (hx h (hd a nd hm)).looks d e
      exact ⟨g, l, q, e⟩, (hx h (hd a nd hm)).fails⟩) fun g d q => ⟨q.1, q.2, rfl⟩
  have := s.bind (R := 0) (k := k) (k' := k') (Q' := Q) fun g d A' ⟨h1, h2, h3⟩ => by
    subst h1 h3
    rw [add_zero]
    exact hk g h2
  rw [add_zero] at this
  exact this

end Librrb
