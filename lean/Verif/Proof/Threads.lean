import Verif.Proof.LendCall
import Mathlib.Data.Nat.Find

/-!
# Threads that share nodes

Each thread owns its part of the counted references, and does what it would do if the others kept still. The references
`S` are lent to all threads.
-/
namespace Librrb

/-- A thread, what it owns, and how it may end. -/
structure Task (α γ : Type) where
  code : HM α γ
  ctx : Ctx α
  goal : M γ → Ctx α → Heap α → Prop

/-- The threads own what is counted and not lent, and each goes on to its end. -/
structure Tasks (S : Ctx α) (cs : List (Task α γ)) (p : Pool α γ) : Prop where
  threads : p.threads = cs.map Task.code
  world : World p.heap ((cs.map Task.ctx).sum + S)
  runs : ∀ c ∈ cs, RunsIn S c.goal c.code c.ctx p.heap

/-- What one thread owns. -/
theorem Tasks.world_at {S : Ctx α} {cs : List (Task α γ)} {p : Pool α γ} (t : Tasks S cs p) {i : Nat} {c : Task α γ}
    (hc : cs[i]? = some c) : World p.heap (c.ctx + S + ((cs.eraseIdx i).map Task.ctx).sum) := by
  have w := t.world
  rw [(sum_at (f := Task.ctx) hc).1, add_assoc, add_comm _ S, ← add_assoc] at w
  exact w

theorem HM.step_ended {x : HM α γ} {r : M γ} (e : x.ended = some r) (h : Heap α) : x.step h = .ok (x, h) := by
  cases x with
  | ret => rfl
  | fail => rfl
  | _ => cases e

theorem Ctx.starts_sum {ι : Type} {f : ι → Ctx α} {ps : List ι} {p : ι} (hm : p ∈ ps) {a : Addr} (hs : (f p).starts a) :
    Ctx.starts (ps.map f).sum a := by
  obtain ⟨i, hi⟩ := List.mem_iff_getElem?.1 hm
  rw [(sum_at (f := f) hi).1]
  exact Ctx.starts_add.2 (.inl hs)

theorem mem_set_erase {ι : Type} {l : List ι} {i : Nat} {x y : ι} (h : y ∈ l.set i x) : y = x ∨ y ∈ l.eraseIdx i := by
  induction l generalizing i with
  | nil => cases h
  | cons z l ih =>
    cases i with
    | zero =>
      rcases List.mem_cons.1 h with h | h
      · exact .inl h
      · exact .inr h
    | succ i =>
      rcases List.mem_cons.1 h with rfl | h
      · exact .inr (by simp)
      · exact (ih h).imp id fun h => List.mem_cons_of_mem _ h

/-- One step of one thread: either it has ended, and nothing happens, or it takes a step, which the others do not
notice. -/
theorem Tasks.step {S : Ctx α} {cs : List (Task α γ)} {p : Pool α γ} (t : Tasks S cs p) (i : Nat) :
    ∃ cs' p', p.step i = .ok p' ∧ Tasks S cs' p' ∧ cs'.map Task.goal = cs.map Task.goal ∧
      (∀ j, j ≠ i → cs'[j]? = cs[j]?) ∧
      (∀ c ∈ cs.eraseIdx i, Kept c.ctx p.heap p'.heap) ∧ Unchanged S p.heap p'.heap := by
  unfold Pool.step
  cases hc : cs[i]? with
  | none =>
    refine ⟨cs, p, ?_, t, rfl, fun _ _ => rfl, fun _ _ => .refl _ _, .refl _ _⟩
    rw [t.threads, List.getElem?_map, hc]
    rfl
  | some c =>
    obtain ⟨s1, s2⟩ := sum_at (f := Task.ctx) hc
    have w := t.world_at hc
    have hr := t.runs c (List.mem_of_getElem? hc)
    have hx : p.threads[i]? = some c.code := by rw [t.threads, List.getElem?_map, hc]; rfl
    rw [hx]
    have key : ∃ r L', c.code.step p.heap = .ok r ∧ World r.2 (L' + S + ((cs.eraseIdx i).map Task.ctx).sum) ∧
        RunsIn S c.goal r.1 L' r.2 ∧ Kept ((cs.eraseIdx i).map Task.ctx).sum p.heap r.2 ∧ Unchanged S p.heap r.2 := by
      cases hr' : hr with
      | ended e hq => exact ⟨(c.code, p.heap), c.ctx, HM.step_ended e _, w, hr, .refl _ _, .refl _ _⟩
      | step L' e ha hw hr =>
        obtain ⟨r, e1, k⟩ := (ha _ _ (.refl _ _) (.refl _ _) w).step w
        exact ⟨r, _, e1, hw _ _ r (.refl _ _) (.refl _ _) w e1, hr _ _ r (.refl _ _) (.refl _ _) w e1, k⟩
    obtain ⟨r, L', e1, w', hr', k, u⟩ := key
    have hk : ∀ d ∈ cs.eraseIdx i, Kept d.ctx p.heap r.2 := fun d hd => k.mono fun a ha => Ctx.starts_sum hd ha
    refine ⟨cs.set i ⟨r.1, L', c.goal⟩, ⟨p.threads.set i r.1, r.2⟩, ?_, ⟨?_, ?_, ?_⟩, ?_, ?_, hk, u⟩
    · dsimp only
      rw [e1]; rfl
    · rw [t.threads, List.map_set]
    · rw [s2, add_assoc, add_comm _ S, ← add_assoc]; exact w'
    · intro d hd
      rcases mem_set_erase hd with rfl | hd
      · exact hr'
      · exact (t.runs d (List.mem_of_mem_eraseIdx hd)).later (hk d hd) u
    · rw [List.map_set]
      refine List.ext_getElem? fun j => ?_
      rw [List.getElem?_set]
      split
      next h =>
        subst h
        rw [List.getElem?_map, hc]
        split
        · rfl
        next h => exact absurd (List.getElem?_eq_some_iff.1 hc).1 (by simpa using h)
      · rfl
    · intro j hj
      rw [List.getElem?_set_ne (Ne.symm hj)]

theorem Tasks.run {S : Ctx α} {cs : List (Task α γ)} {p : Pool α γ} (t : Tasks S cs p) (is : List Nat) :
    ∃ cs' p', p.run is = .ok p' ∧ Tasks S cs' p' ∧ cs'.map Task.goal = cs.map Task.goal ∧ Unchanged S p.heap p'.heap := by
  induction is generalizing cs p with
  | nil => exact ⟨cs, p, rfl, t, rfl, .refl _ _⟩
  | cons i is ih =>
    obtain ⟨cs1, p1, e1, t1, g1, -, -, u1⟩ := t.step i
    obtain ⟨cs2, p2, e2, t2, g2, u2⟩ := ih t1
    refine ⟨cs2, p2, ?_, t2, g2.trans g1, u1.trans u2⟩
    show (p.step i >>= fun p => p.run is) = _
    rw [e1]
    exact e2

/-- A thread that has ended has come to what it should. -/
theorem Tasks.ended {S : Ctx α} {cs : List (Task α γ)} {p : Pool α γ} (t : Tasks S cs p) {c : Task α γ} (hc : c ∈ cs) {r : M γ}
    (e : c.code.ended = some r) : c.goal r c.ctx p.heap := by
  obtain ⟨i, hi⟩ := List.mem_iff_getElem?.1 hc
  have w := t.world_at hi
  cases t.runs c hc with
  | ended e' hq =>
    rw [e] at e'
    cases e'
    exact hq _ _ (.refl _ _) (.refl _ _) w
  | step _ e' => rw [e] at e'; cases e'

theorem Tasks.allowed {S : Ctx α} {cs : List (Task α γ)} {p : Pool α γ} (t : Tasks S cs p) {c : Task α γ} (hc : c ∈ cs) :
    c.code.AllowedIn S c.ctx p.heap := by
  obtain ⟨i, hi⟩ := List.mem_iff_getElem?.1 hc
  have w := t.world_at hi
  cases t.runs c hc with
  | ended e' hq =>
    revert e'
    generalize c.code = x
    intro e'
    cases x with
    | ret => trivial
    | fail => trivial
    | _ => cases e'
  | step _ e' ha => exact ha _ _ (.refl _ _) (.refl _ _) w

/-! ### Fair schedules -/

theorem Pool.run_append (p : Pool α γ) (is js : List Nat) : p.run (is ++ js) = p.run is >>= fun q => q.run js := by
  induction is generalizing p with
  | nil => rfl
  | cons i is ih =>
    show (p.step i >>= fun p => p.run (is ++ js)) = ((p.step i >>= fun p => p.run is) >>= _)
    cases p.step i with
    | error f => rfl
    | ok q => exact ih q

/-- Steps `n` to `n + k - 1` of a schedule. -/
def window (s : Nat → Nat) (n k : Nat) : List Nat := (List.range k).map fun j => s (n + j)

theorem window_succ (s : Nat → Nat) (n k : Nat) : window s n (k + 1) = window s n k ++ [s (n + k)] := by
  simp [window, List.range_succ]

theorem window_add (s : Nat → Nat) (n k l : Nat) : window s n (k + l) = window s n k ++ window s (n + k) l := by
  induction l with
  | zero => simp [window]
  | succ l ih => rw [← Nat.add_assoc, window_succ, ih, window_succ, List.append_assoc, Nat.add_assoc]

/-- Other threads take steps. -/
theorem Tasks.others {S : Ctx α} {cs : List (Task α γ)} {p : Pool α γ} (t : Tasks S cs p) {i : Nat} {c : Task α γ} (hc : cs[i]? = some c)
    (is : List Nat) (hi : i ∉ is) : ∃ cs' p', p.run is = .ok p' ∧ Tasks S cs' p' ∧ cs'.map Task.goal = cs.map Task.goal ∧
      cs'[i]? = some c ∧ Kept c.ctx p.heap p'.heap ∧ Unchanged S p.heap p'.heap := by
  induction is generalizing cs p with
  | nil => exact ⟨cs, p, rfl, t, rfl, hc, .refl _ _, .refl _ _⟩
  | cons j is ih =>
    obtain ⟨cs1, p1, e1, t1, g1, o1, k1, u1⟩ := t.step j
    have hij : i ≠ j := fun h => hi (by simp [h])
    have hc1 : cs1[i]? = some c := (o1 i hij).trans hc
    obtain ⟨cs2, p2, e2, t2, g2, o2, k2, u2⟩ := ih t1 hc1 (fun h => hi (by simp [h]))
    refine ⟨cs2, p2, ?_, t2, g2.trans g1, o2, (k1 c ?_).trans k2, u1.trans u2⟩
    · show (p.step j >>= fun p => p.run is) = _
      rw [e1]
      exact e2
    · rw [List.mem_iff_getElem?]
      refine ⟨if i < j then i else i - 1, ?_⟩
      rw [List.getElem?_eraseIdx]
      by_cases hl : i < j
      · rw [if_pos hl, if_pos hl, hc]
      · rw [if_neg hl, if_neg (by omega), show i - 1 + 1 = i by omega, hc]

/-- The first time, from `n` on, that `i` gets a step. -/
theorem first_at {s : Nat → Nat} {i n : Nat} (h : ∃ m, n ≤ m ∧ s m = i) : ∃ k, s (n + k) = i ∧ i ∉ window s n k := by
  classical
  obtain ⟨m, hm, e⟩ := h
  have hex : ∃ k, s (n + k) = i := ⟨m - n, by rw [show n + (m - n) = m by omega, e]⟩
  refine ⟨Nat.find hex, Nat.find_spec hex, fun hmem => ?_⟩
  obtain ⟨j, hj, ej⟩ := List.mem_map.1 hmem
  exact Nat.find_min hex (List.mem_range.1 hj) ej

theorem Pool.step_ended {p q : Pool α γ} {i j : Nat} {x : HM α γ} (e : p.step j = .ok q) (hx : p.threads[i]? = some x)
    {r : M γ} (hr : x.ended = some r) : q.threads[i]? = some x := by
  unfold Pool.step at e
  cases hj : p.threads[j]? with
  | none => rw [hj] at e; cases e; exact hx
  | some y =>
    rw [hj] at e
    obtain ⟨z, e1, e2⟩ := RVec.bind_ok e
    cases e2
    by_cases hij : j = i
    · subst hij
      rw [hx] at hj
      cases hj
      rw [HM.step_ended hr] at e1
      cases e1
      rw [List.getElem?_set_self (List.getElem?_eq_some_iff.1 hx).1]
    · rw [List.getElem?_set_ne hij, hx]

theorem Pool.run_ended {p q : Pool α γ} {i : Nat} {is : List Nat} {x : HM α γ} (e : p.run is = .ok q)
    (hx : p.threads[i]? = some x) {r : M γ} (hr : x.ended = some r) : q.threads[i]? = some x := by
  induction is generalizing p with
  | nil => cases e; exact hx
  | cons j is ih =>
    obtain ⟨p1, e1, e2⟩ := RVec.bind_ok (show (p.step j >>= fun p => p.run is) = _ from e)
    exact ih e2 (Pool.step_ended e1 hx hr)

/-- A thread that gets a step again and again comes to its end. -/
theorem Tasks.comes {S : Ctx α} {s : Nat → Nat} {i : Nat} (hs : ∀ n, ∃ m, n ≤ m ∧ s m = i) {Q : M γ → Ctx α → Heap α → Prop} {x : HM α γ}
    {L : Ctx α} {h : Heap α} (r : RunsIn S Q x L h) : ∀ {cs : List (Task α γ)} {p : Pool α γ} (n : Nat), Tasks S cs p →
      cs[i]? = some ⟨x, L, Q⟩ → Kept L h p.heap → Unchanged S h p.heap → ∃ k q y, p.run (window s n k) = .ok q ∧ q.threads[i]? = some y ∧
        ∃ r, y.ended = some r := by
  induction r with
  | @ended x L h r e hq =>
    intro cs p n t hc _ _
    exact ⟨0, p, x, rfl, by rw [t.threads, List.getElem?_map, hc]; rfl, r, e⟩
  | @step x L h L' e ha hw hr ih =>
    intro cs p n t hc k0 u0
    obtain ⟨k, ek, hk⟩ := first_at (hs n)
    obtain ⟨cs1, p1, e1, t1, g1, c1, k1, u1⟩ := t.others hc _ hk
    obtain ⟨s1, s2⟩ := sum_at (f := Task.ctx) c1
    have w := t1.world_at c1
    have k2 := k0.trans k1
    have u2 := u0.trans u1
    obtain ⟨r, er, kr, ur⟩ := (ha _ _ k2 u2 w).step w
    have w' := hw _ _ r k2 u2 w er
    have hst : p1.step i = .ok ⟨p1.threads.set i r.1, r.2⟩ := by
      unfold Pool.step
      rw [t1.threads, List.getElem?_map, c1]
      dsimp only [Option.map_some]
      rw [er]; rfl
    have t2 : Tasks S (cs1.set i ⟨r.1, L' p1.heap ((cs1.eraseIdx i).map Task.ctx).sum, Q⟩) ⟨p1.threads.set i r.1, r.2⟩ := by
      refine ⟨by rw [t1.threads, List.map_set], by rw [s2, add_assoc, add_comm _ S, ← add_assoc]; exact w', fun d hd => ?_⟩
      rcases mem_set_erase hd with rfl | hd
      · exact hr _ _ r k2 u2 w er
      · exact (t1.runs d (List.mem_of_mem_eraseIdx hd)).later (kr.mono fun a ha => Ctx.starts_sum hd ha) ur
    obtain ⟨l, q, y, e3, hy, hr⟩ := ih _ _ r k2 u2 w er (n + (k + 1)) t2
      (List.getElem?_set_self (List.getElem?_eq_some_iff.1 c1).1) (.refl _ _) (.refl _ _)
    refine ⟨k + 1 + l, q, y, ?_, hy, hr⟩
    rw [window_add, window_succ, Pool.run_append, Pool.run_append, e1, ok_bind, ek]
    show (p1.step i >>= fun p => .ok p) >>= _ = _
    rw [hst]
    exact e3

end Librrb
