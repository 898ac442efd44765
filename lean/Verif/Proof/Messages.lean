import Verif.MessageSpec
import Verif.Props.Threads

/-!
# Threads that send each other vectors

At any time each thread owns what it has in its variables, or what its call owns at that place, and the messages own the rest.
-/
namespace Librrb
open RVec

variable {α : Type}

/-- A thread, the one on sequences, and what it owns and has to come to. -/
abbrev Member (α : Type) := Worker α × Actor α × Task α (Answer α × List HVec)

/-- A message: its channel, the vector, its contents. -/
abbrev Letter (α : Type) := Nat × VecOf (Addr × Node α) × List α

def Letter.owned (m : Letter α) : Ctx α := m.2.1.owned

/-- The parts of a member belong together. -/
structure Member.Fit (t : Member α) : Prop where
  legal : ∀ log c, t.1.plan log = some (.call c) → c.Fits
  plan : t.1.plan = t.2.1.plan
  log : t.1.log = t.2.1.log
  phase : match t.1.phase with
    | .idle vars => t.2.1.dead = none ∧ t.2.2.code = .ret (.none, vars) ∧ ∃ ps : List (VecOf (Addr × Node α)), vars = ps.map VecOf.addrs ∧
        t.2.2.ctx = (ps.map VecOf.owned).sum ∧ Holding (ps.map VecOf.nodes) t.2.1.vars
    | .busy x => t.2.1.dead = none ∧ t.2.2.code = x ∧ ∃ c q, t.2.1.plan t.2.1.log = some (.call c) ∧ c.Means t.2.1.vars q ∧
        t.2.2.goal = fun r L _ => Comes [] q r L
    | .dead e => t.2.1.dead = some e ∧ t.2.2.code = .fail e

/-- A team, its counterpart on sequences, and who owns what. -/
structure Crew (ts : List (Member α)) (ms : List (Letter α)) (p : Team α) (s : Stage α) : Prop where
  workers : p.workers = ts.map fun t => t.1
  actors : s.actors = ts.map fun t => t.2.1
  mail : p.mail = ms.map fun m => (m.1, m.2.1.addrs)
  mail' : s.mail = ms.map fun m => (m.1, m.2.2)
  good : ∀ m ∈ ms, Built m.2.1.nodes ∧ Shows m.2.1.nodes m.2.2
  fit : ∀ t ∈ ts, t.Fit
  world : World p.heap ((ts.map fun t => t.2.2.ctx).sum + (ms.map Letter.owned).sum)
  runs : ∀ t ∈ ts, RunsIn 0 t.2.2.goal t.2.2.code t.2.2.ctx p.heap

theorem takeMail_map (f : β → γ) (ch : Nat) : ∀ ms : List (Nat × β), takeMail ch (ms.map fun m => (m.1, f m.2)) =
    (takeMail ch ms).map fun r => (f r.1, r.2.map fun m => (m.1, f m.2))
  | [] => rfl
  | m :: ms => by
    simp only [List.map_cons, takeMail]
    split
    · rfl
    · rw [takeMail_map f ch ms]
      cases takeMail ch ms <;> rfl

theorem takeMail_perm {ch : Nat} : ∀ {ms : List (Nat × β)} {x : β} {ms' : List (Nat × β)}, takeMail ch ms = some (x, ms') →
    ms.Perm ((ch, x) :: ms')
  | [], _, _, e => by cases e
  | m :: ms, x, ms', e => by
    simp only [takeMail] at e
    split at e
    next h => cases e; rw [← h]
    next h =>
      cases e1 : takeMail ch ms with
      | none => rw [e1] at e; cases e
      | some r =>
        rw [e1] at e
        cases e
        exact ((takeMail_perm e1).cons m).trans (.swap ..)

theorem takeMail_first {ch : Nat} : ∀ {ms : List (Nat × β)} {x : β} {ms' : List (Nat × β)}, takeMail ch ms = some (x, ms') →
    ∃ before later, ms = before ++ (ch, x) :: later ∧ (∀ m ∈ before, m.1 ≠ ch) ∧ ms' = before ++ later
  | [], _, _, e => by cases e
  | m :: ms, x, ms', e => by
    simp only [takeMail] at e
    split at e
    next h => cases e; exact ⟨[], ms, by rw [← h]; rfl, nofun, rfl⟩
    next h =>
      cases e1 : takeMail ch ms with
      | none => rw [e1] at e; cases e
      | some r =>
        rw [e1] at e
        cases e
        obtain ⟨before, later, e2, hf, e3⟩ := takeMail_first e1
        refine ⟨m :: before, later, by rw [e2]; rfl, ?_, by rw [e3]; rfl⟩
        intro k hk
        rcases List.mem_cons.1 hk with rfl | hk
        · exact h
        · exact hf k hk

theorem unchanged_zero (h h' : Heap α) : Unchanged (0 : Ctx α) h h' := fun b n hb => by
  obtain ⟨a, ha, -⟩ := hb
  simp [Ctx.starts] at ha

/-- What remains to be shown if the member at one place is replaced. -/
theorem Crew.next {ts : List (Member α)} {ms : List (Letter α)} {p : Team α} {s : Stage α} (k : Crew ts ms p s) {i : Nat} {t : Member α}
    (ht : ts[i]? = some t) (t' : Member α) (ms' : List (Letter α)) (h' : Heap α)
    (hw : World h' (t'.2.2.ctx + ((ts.eraseIdx i).map fun t => t.2.2.ctx).sum + (ms'.map Letter.owned).sum))
    (hk : Kept ((ts.eraseIdx i).map fun t => t.2.2.ctx).sum p.heap h') (hr : RunsIn 0 t'.2.2.goal t'.2.2.code t'.2.2.ctx h')
    (hf : t'.Fit) (hg : ∀ m ∈ ms', Built m.2.1.nodes ∧ Shows m.2.1.nodes m.2.2) :
    Crew (ts.set i t') ms' ⟨p.workers.set i t'.1, ms'.map fun m => (m.1, m.2.1.addrs), h'⟩
      ⟨s.actors.set i t'.2.1, ms'.map fun m => (m.1, m.2.2)⟩ := by
  refine ⟨by rw [k.workers, List.map_set], by rw [k.actors, List.map_set], rfl, rfl, hg, fun u hu => ?_, ?_, fun u hu => ?_⟩
  · rcases mem_set_erase hu with rfl | hu
    · exact hf
    · exact k.fit u (List.mem_of_mem_eraseIdx hu)
  · rw [(sum_at (f := fun t : Member α => t.2.2.ctx) ht).2 t']
    exact hw
  · rcases mem_set_erase hu with rfl | hu
    · exact hr
    · exact (k.runs u (List.mem_of_mem_eraseIdx hu)).later (hk.mono fun a ha => Ctx.starts_sum (f := fun t : Member α => t.2.2.ctx) hu ha)
        (unchanged_zero _ _)

/-- What a call in a thread may come to is known when it begins. -/
theorem call_runs {c : Call α} (hf : c.Fits) {ps : List (VecOf (Addr × Node α))} {ls : List (List α)} (hv : Holding (ps.map VecOf.nodes) ls) :
    ∃ q, c.Means ls q ∧ ∀ h F, World h ((ps.map VecOf.owned).sum + F) →
      RunsIn 0 (fun r L _ => Comes [] q r L) (c.hrun (ps.map VecOf.addrs)) (ps.map VecOf.owned).sum h := by
  obtain ⟨q, m, s⟩ := call_ok hv c hf
  have hfm : ∀ p ∈ ps, ∃ d, p.nodes.cells.focusMut = .ok d := by
    intro p hp
    obtain ⟨i, hi, e⟩ := List.getElem_of_mem (List.mem_map_of_mem (f := VecOf.nodes) hp)
    rw [← e]
    exact (hv.2 i _ (List.getElem?_eq_getElem hi)).1.focusMut
  have hb : c.Borrows ([] : List (VecOf (Addr × Node α))).length := by
    cases c <;> simp [Call.Borrows]
  refine ⟨q, m, fun h F w => ?_⟩
  have w0 : World h ((ps.map VecOf.owned).sum + (([] : List (VecOf (Addr × Node α))).map VecOf.owned).sum + F) := by
    simpa using w
  cases q with
  | error e =>
    have hu : e ≠ .ub := fun he => (Call.means_safe m).1 (by rw [he])
    exact ((call_lend [] ps hfm c hb).err e s hu h F w0).mono fun r L h' q => q
  | ok q =>
    obtain ⟨ws, er, hw⟩ := s
    refine ((call_lend [] ps hfm c hb).ok _ er h F w0).mono fun r L h' hq => ?_
    obtain ⟨ps', e, e3, e4⟩ := hq
    refine ⟨ps', e, e4, ?_⟩
    rw [← e3]
    exact hw

theorem Crew.world_at {ts : List (Member α)} {ms : List (Letter α)} {p : Team α} {s : Stage α} (k : Crew ts ms p s) {i : Nat} {t : Member α}
    (ht : ts[i]? = some t) :
    World p.heap (t.2.2.ctx + ((ts.eraseIdx i).map fun t => t.2.2.ctx).sum + (ms.map Letter.owned).sum) := by
  have w := k.world
  rw [(sum_at (f := fun t : Member α => t.2.2.ctx) ht).1] at w
  exact w

theorem Crew.worker_at {ts : List (Member α)} {ms : List (Letter α)} {p : Team α} {s : Stage α} (k : Crew ts ms p s) {i : Nat} {t : Member α}
    (ht : ts[i]? = some t) : p.workers[i]? = some t.1 := by
  rw [k.workers, List.getElem?_map, ht]; rfl

theorem Crew.actor_at {ts : List (Member α)} {ms : List (Letter α)} {p : Team α} {s : Stage α} (k : Crew ts ms p s) {i : Nat} {t : Member α}
    (ht : ts[i]? = some t) : s.actors[i]? = some t.2.1 := by
  rw [k.actors, List.getElem?_map, ht]; rfl

theorem runs_ret {g : γ} {L : Ctx α} {h : Heap α} : RunsIn 0 (fun _ _ _ => True) (.ret g) L h := .ended rfl fun _ _ _ _ _ => trivial

/-- One step of one thread. On sequences nothing happens, or a whole call, or a message is sent or received. -/
theorem Crew.step {ts : List (Member α)} {ms : List (Letter α)} {p : Team α} {s : Stage α} (k : Crew ts ms p s) (i : Nat) :
    ∃ ts' ms' p' s', p.step i = .ok p' ∧ Crew ts' ms' p' s' ∧ (s' = s ∨ s.Step s') ∧ (∀ j, j ≠ i → ts'[j]? = ts[j]?) ∧
      ∀ t ∈ ts.eraseIdx i, Kept t.2.2.ctx p.heap p'.heap := by
  unfold Team.step
  cases ht : ts[i]? with
  | none =>
    refine ⟨ts, ms, p, s, ?_, k, .inl rfl, fun _ _ => rfl, fun _ _ => .refl _ _⟩
    rw [k.workers, List.getElem?_map, ht]
    rfl
  | some t =>
    rw [k.worker_at ht]
    have f := k.fit t (List.mem_of_getElem? ht)
    have w := k.world_at ht
    have stay : ∀ {w' : Worker α}, w' = t.1 → ∃ ts' ms' p' s', (Except.ok { workers := p.workers.set i w', mail := p.mail, heap := p.heap } : M (Team α)) = .ok p' ∧
        Crew ts' ms' p' s' ∧ (s' = s ∨ s.Step s') ∧ (∀ j, j ≠ i → ts'[j]? = ts[j]?) ∧ ∀ t ∈ ts.eraseIdx i, Kept t.2.2.ctx p.heap p'.heap := by
      rintro w' rfl
      refine ⟨ts, ms, p, s, ?_, k, .inl rfl, fun _ _ => rfl, fun _ _ => .refl _ _⟩
      rw [set_same (k.worker_at ht)]
    have quiet : ∀ (t' : Member α) (ms' : List (Letter α)),
        t'.2.2.ctx + (ms'.map Letter.owned).sum = t.2.2.ctx + (ms.map Letter.owned).sum →
        RunsIn 0 t'.2.2.goal t'.2.2.code t'.2.2.ctx p.heap → t'.Fit → (∀ m ∈ ms', Built m.2.1.nodes ∧ Shows m.2.1.nodes m.2.2) →
        (∀ s', s' = (⟨s.actors.set i t'.2.1, ms'.map fun m => (m.1, m.2.2)⟩ : Stage α) → s' = s ∨ s.Step s') →
        ∃ ts' ms'' p' s', (Except.ok { workers := p.workers.set i t'.1, mail := ms'.map fun m => (m.1, m.2.1.addrs), heap := p.heap } : M (Team α)) = .ok p' ∧
        Crew ts' ms'' p' s' ∧ (s' = s ∨ s.Step s') ∧ (∀ j, j ≠ i → ts'[j]? = ts[j]?) ∧ ∀ t ∈ ts.eraseIdx i, Kept t.2.2.ctx p.heap p'.heap := by
      intro t' ms' hc hr hf hg hs
      refine ⟨_, ms', _, _, rfl, k.next ht t' ms' p.heap ?_ (.refl _ _) hr hf hg, hs _ rfl, fun j hj => List.getElem?_set_ne (Ne.symm hj), fun _ _ => .refl _ _⟩
      rw [add_right_comm, hc, add_right_comm]
      exact w
    obtain ⟨⟨plan, log, phase⟩, a, c⟩ := t
    obtain ⟨hl, hp, hlog, hph⟩ := f
    dsimp only at hl hp hlog hph
    subst hp
    subst hlog
    cases phase with
    | dead e => exact stay rfl
    | busy x =>
      obtain ⟨hd, rfl, cl, q, hpl, hm, hgoal⟩ := hph
      have hr := k.runs _ (List.mem_of_getElem? ht)
      dsimp only at hr
      simp only [Worker.step]
      cases hr with
      | @ended _ _ _ r e hq =>
        rw [add_assoc] at w
        have hq := hq _ (((ts.eraseIdx i).map fun t => t.2.2.ctx).sum + (ms.map Letter.owned).sum) (.refl _ _) (.refl _ _)
          (by rw [add_zero]; exact w)
        rw [hgoal] at hq
        rw [e]
        have hact := k.actor_at ht
        have hstep := Stage.Step.call hact hd hpl hm
        cases q with
        | error f =>
          cases hq
          have := quiet (⟨a.plan, a.log, .dead f⟩, { a with dead := some f }, ⟨.fail f, c.ctx, fun _ _ _ => True⟩) ms rfl
            (.ended rfl fun _ _ _ _ _ => trivial) ⟨hl, rfl, rfl, rfl, rfl⟩ k.good (fun s' e => by
              subst e
              rw [← k.mail']
              exact .inr hstep)
          rw [← k.mail] at this
          exact this
        | ok q =>
          obtain ⟨ans, ls⟩ := q
          obtain ⟨ps, rfl, e2, e3⟩ := hq
          have := quiet (⟨a.plan, a.log ++ [ans], .idle (ps.map VecOf.addrs)⟩, { a with log := a.log ++ [ans], vars := ls },
            ⟨.ret (.none, ps.map VecOf.addrs), c.ctx, fun _ _ _ => True⟩) ms rfl runs_ret ⟨hl, rfl, rfl, hd, rfl, ps, rfl, e2, e3⟩ k.good
            (fun s' e => by
              subst e
              rw [← k.mail']
              exact .inr hstep)
          rw [← k.mail] at this
          exact this
      | @step _ _ _ L' e ha hw hr =>
        rw [e]
        dsimp only at w
        rw [add_assoc] at w
        have w0 : World p.heap (c.ctx + 0 + (((ts.eraseIdx i).map fun t => t.2.2.ctx).sum + (ms.map Letter.owned).sum)) := by
          rw [add_zero]; exact w
        obtain ⟨r, e1, kr, ur⟩ := (ha _ _ (.refl _ _) (.refl _ _) w0).step w0
        have w' := hw _ _ r (.refl _ _) (.refl _ _) w0 e1
        have hr' := hr _ _ r (.refl _ _) (.refl _ _) w0 e1
        rw [add_zero, ← add_assoc] at w'
        have kr' : Kept ((ts.eraseIdx i).map fun t => t.2.2.ctx).sum p.heap r.2 := kr.mono fun a ha => Ctx.starts_add.2 (.inl ha)
        have := k.next ht (⟨a.plan, a.log, .busy r.1⟩, a, ⟨r.1, _, c.goal⟩) ms r.2 w' kr' hr' ⟨hl, rfl, rfl, hd, rfl, cl, q, hpl, hm, hgoal⟩ k.good
        rw [← k.mail, ← k.mail'] at this
        dsimp only at this
        rw [set_same (k.actor_at ht)] at this
        refine ⟨_, ms, _, _, ?_, this, .inl rfl, fun j hj => List.getElem?_set_ne (Ne.symm hj), fun u hu => kr'.mono fun b hb =>
          Ctx.starts_sum (f := fun t : Member α => t.2.2.ctx) hu hb⟩
        rw [e1]
        rfl
    | idle vars =>
      obtain ⟨hd, hcode, ps, rfl, hctx, hv⟩ := hph
      simp only [Worker.step]
      cases hpl : a.plan a.log with
      | none => exact stay rfl
      | some cmd =>
        have hact := k.actor_at ht
        cases cmd with
        | call cl =>
          obtain ⟨q, hm, hr⟩ := call_runs (hl _ _ hpl) hv
          have := quiet (⟨a.plan, a.log, .busy (cl.hrun (ps.map VecOf.addrs))⟩, a, ⟨cl.hrun (ps.map VecOf.addrs), c.ctx, fun r L _ => Comes [] q r L⟩)
            ms rfl (by
              dsimp only
              rw [hctx]
              refine hr _ (((ts.eraseIdx i).map fun t => t.2.2.ctx).sum + (ms.map Letter.owned).sum) ?_
              rw [← hctx, ← add_assoc]
              exact w) ⟨hl, rfl, rfl, hd, rfl, cl, q, hpl, hm, rfl⟩ k.good (fun s' e => by
              subst e
              rw [← k.mail']
              dsimp only
              rw [set_same hact]
              exact .inl rfl)
          rw [← k.mail] at this
          exact this
        | send ch v =>
          have hstep := Stage.Step.send hact hd hpl
          dsimp only
          rw [List.getElem?_map]
          cases hpv : ps[v]? with
          | none =>
            have hv0 : a.vars[v]? = none := hv.none (by rw [List.getElem?_map, hpv]; rfl)
            have he : a.vars.eraseIdx v = a.vars := List.eraseIdx_of_length_le (List.getElem?_eq_none_iff.1 hv0)
            rw [hv0, he] at hstep
            have := quiet (⟨a.plan, a.log ++ [.none], .idle (ps.map VecOf.addrs)⟩, { a with log := a.log ++ [.none] },
              ⟨.ret (.none, ps.map VecOf.addrs), c.ctx, fun _ _ _ => True⟩) ms rfl runs_ret ⟨hl, rfl, rfl, hd, rfl, ps, rfl, hctx, hv⟩ k.good
              (fun s' e => by
                subst e
                rw [← k.mail']
                rw [Option.map_none, Option.toList_none, List.append_nil] at hstep
                exact .inr hstep)
            rw [← k.mail] at this
            exact this
          | some pv =>
            obtain ⟨l, el, hb, hs⟩ := hv.get (show (ps.map VecOf.nodes)[v]? = some pv.nodes by rw [List.getElem?_map, hpv]; rfl)
            rw [el] at hstep
            have hsum := (sum_at (f := VecOf.owned) hpv).1
            have := quiet (⟨a.plan, a.log ++ [.none], .idle ((ps.map VecOf.addrs).eraseIdx v)⟩,
              { a with log := a.log ++ [.none], vars := a.vars.eraseIdx v },
              ⟨.ret (.none, (ps.map VecOf.addrs).eraseIdx v), ((ps.eraseIdx v).map VecOf.owned).sum, fun _ _ _ => True⟩) (ms ++ [(ch, pv, l)])
              (by
                dsimp only
                rw [hctx, hsum, List.map_append, List.sum_append, List.map_singleton, List.sum_singleton]
                show _ + (_ + pv.owned) = _
                rw [add_comm _ pv.owned, ← add_assoc, add_comm _ pv.owned]) runs_ret
              ⟨hl, rfl, rfl, hd, rfl, ps.eraseIdx v, (List.eraseIdx_map ..), rfl, by
                rw [← List.eraseIdx_map]; exact hv.eraseIdx v⟩
              (fun m hm => by
                rcases List.mem_append.1 hm with hm | hm
                · exact k.good m hm
                · rw [List.mem_singleton.1 hm]
                  exact ⟨hb, hs⟩)
              (fun s' e => by
                subst e
                rw [List.map_append, ← k.mail']
                exact .inr hstep)
            rw [List.map_append, ← k.mail] at this
            exact this
        | recv ch =>
          dsimp only
          have e0 := takeMail_map (fun m : VecOf (Addr × Node α) × List α => m.1.addrs) ch ms
          have e1 := takeMail_map (fun m : VecOf (Addr × Node α) × List α => m.2) ch ms
          rw [← k.mail] at e0
          rw [← k.mail'] at e1
          cases hms : takeMail ch ms with
          | none =>
            rw [e0, hms]
            exact stay rfl
          | some r =>
            obtain ⟨⟨pv, l⟩, ms'⟩ := r
            rw [hms] at e0 e1
            obtain ⟨before, later, eb, hf, e2⟩ := takeMail_first e1
            have hstep := Stage.Step.recv hact hd hpl eb hf
            rw [← e2] at hstep
            have hperm := takeMail_perm hms
            rw [e0]
            have := quiet (⟨a.plan, a.log ++ [.none], .idle (ps.map VecOf.addrs ++ [pv.addrs])⟩,
              { a with log := a.log ++ [.none], vars := a.vars ++ [l] },
              ⟨.ret (.none, ps.map VecOf.addrs ++ [pv.addrs]), ((ps ++ [pv]).map VecOf.owned).sum, fun _ _ _ => True⟩) ms'
              (by
                dsimp only
                rw [hctx, (hperm.map Letter.owned).sum_eq, List.map_append, List.sum_append, List.map_singleton, List.sum_singleton,
                  List.map_cons, List.sum_cons, add_assoc]
                rfl) runs_ret
              ⟨hl, rfl, rfl, hd, rfl, ps ++ [pv], by rw [List.map_append]; rfl, rfl, by
                have hg := k.good _ (hperm.mem_iff.2 (List.mem_cons_self ..))
                rw [List.map_append]
                exact hv.append (.one hg.1 hg.2)⟩
              (fun m hm => k.good m (hperm.mem_iff.2 (List.mem_cons_of_mem _ hm)))
              (fun s' e => by
                subst e
                exact .inr hstep)
            exact this

theorem Crew.run {ts : List (Member α)} {ms : List (Letter α)} {p : Team α} {s : Stage α} (k : Crew ts ms p s) (is : List Nat) :
    ∃ ts' ms' p' s', p.run is = .ok p' ∧ Crew ts' ms' p' s' ∧ Relation.ReflTransGen Stage.Step s s' := by
  induction is generalizing ts ms p s with
  | nil => exact ⟨ts, ms, p, s, rfl, k, .refl⟩
  | cons i is ih =>
    obtain ⟨ts1, ms1, p1, s1, e1, k1, g1, -⟩ := k.step i
    obtain ⟨ts2, ms2, p2, s2, e2, k2, g2⟩ := ih k1
    refine ⟨ts2, ms2, p2, s2, ?_, k2, ?_⟩
    · show (p.step i >>= fun p => p.run is) = _
      rw [e1]
      exact e2
    · rcases g1 with rfl | g1
      · exact g2
      · exact .head g1 g2

/-- Letters as variables. -/
theorem Crew.letters {ts : List (Member α)} {ms : List (Letter α)} {p : Team α} {s : Stage α} (k : Crew ts ms p s) :
    Holding ((ms.map fun m => m.2.1).map VecOf.nodes) (ms.map fun m => m.2.2) := by
  refine ⟨by simp, fun i v e => ?_⟩
  rw [List.map_map, List.getElem?_map] at e
  obtain ⟨m, hm, rfl⟩ := Option.map_eq_some_iff.1 e
  obtain ⟨b, s⟩ := k.good m (List.mem_of_getElem? hm)
  exact ⟨b, m.2.2, by rw [List.getElem?_map, hm]; rfl, s⟩

theorem letters_owned (ms : List (Letter α)) : (ms.map Letter.owned).sum = ((ms.map fun m => m.2.1).map VecOf.owned).sum := by
  rw [List.map_map]; rfl

theorem Crew.matches {ts : List (Member α)} {ms : List (Letter α)} {p : Team α} {s : Stage α} (k : Crew ts ms p s) : p.Matches s := by
  refine ⟨?_, ?_, ?_⟩
  · rw [k.workers, k.actors, List.forall₂_map_left_iff, List.forall₂_map_right_iff, List.forall₂_same]
    intro t ht
    obtain ⟨i, hi⟩ := List.mem_iff_getElem?.1 ht
    obtain ⟨-, h1, h2, h3⟩ := k.fit t ht
    refine ⟨h1, h2, ?_⟩
    split at h3 <;> rename_i hph <;> rw [hph]
    · obtain ⟨hd, -, ps, rfl, hctx, hv⟩ := h3
      refine ⟨hd, World.holding (F := ((ts.eraseIdx i).map fun t => t.2.2.ctx).sum + (ms.map Letter.owned).sum) ?_ hv⟩
      rw [← hctx, ← add_assoc]
      exact k.world_at hi
    · obtain ⟨hd, -, c, q, hp, -⟩ := h3
      exact ⟨hd, c, hp⟩
    · exact h3.1
  · rw [k.mail, k.mail', List.map_map, List.map_map]; rfl
  · have w := k.world
    rw [add_comm, letters_owned] at w
    have := w.holding k.letters
    rw [k.mail, k.mail', List.map_map, List.map_map]
    rw [List.map_map] at this
    exact this

/-- The messages, as a thread that has ended. -/
def lettersTask (ms : List (Letter α)) : Task α (Answer α × List HVec) := ⟨.ret (.none, []), (ms.map Letter.owned).sum, fun _ _ _ => True⟩

/-- The threads as those of a pool, with the messages as one more. -/
theorem Crew.tasks {ts : List (Member α)} {ms : List (Letter α)} {p : Team α} {s : Stage α} (k : Crew ts ms p s) :
    Tasks 0 ((ts.map fun t => t.2.2) ++ [lettersTask ms]) ⟨((ts.map fun t => t.2.2) ++ [lettersTask ms]).map Task.code, p.heap⟩ := by
  refine ⟨rfl, ?_, fun c hc => ?_⟩
  · show World p.heap _
    rw [add_zero, List.map_append, List.sum_append, List.map_singleton, List.sum_singleton, List.map_map]
    exact k.world
  · rcases List.mem_append.1 hc with hc | hc
    · obtain ⟨t, ht, rfl⟩ := List.mem_map.1 hc
      exact k.runs t ht
    · rw [List.mem_singleton.1 hc]
      exact runs_ret

/-- If no thread is in a call or has panicked, then the vectors in variables and messages own everything. -/
theorem Crew.ready {ts : List (Member α)} {ms : List (Letter α)} {p : Team α} {s : Stage α} (k : Crew ts ms p s)
    (hi : ∀ w ∈ p.workers, ∃ vars, w.phase = .idle vars) : ∃ ls, Ready p.heap p.vectors ls := by
  have key : ∀ us : List (Member α), (∀ t ∈ us, t.Fit) → (∀ t ∈ us, ∃ vars, t.1.phase = .idle vars) →
      ∃ (ps : List (VecOf (Addr × Node α))) (ls : List (List α)),
        ((us.map fun t => t.1).flatMap fun w => w.phase.vars) = ps.map VecOf.addrs ∧
        (us.map fun t => t.2.2.ctx).sum = (ps.map VecOf.owned).sum ∧ Holding (ps.map VecOf.nodes) ls := by
    intro us
    induction us with
    | nil => exact fun _ _ => ⟨[], [], rfl, rfl, .nil⟩
    | cons t us ih =>
      intro hf hi
      obtain ⟨ps, ls, e1, e2, hv⟩ := ih (fun t ht => hf t (by simp [ht])) fun t ht => hi t (by simp [ht])
      obtain ⟨vars, hph⟩ := hi t (by simp)
      have f := (hf t (by simp)).phase
      rw [hph] at f
      obtain ⟨-, -, ps0, e3, e4, hv0⟩ := f
      refine ⟨ps0 ++ ps, t.2.1.vars ++ ls, ?_, ?_, ?_⟩
      · rw [List.map_cons, List.flatMap_cons, e1, hph, List.map_append, ← e3]
        rfl
      · rw [List.map_cons, List.sum_cons, e2, e4, List.map_append, List.sum_append]
      · rw [List.map_append]
        exact hv0.append hv
  obtain ⟨ps, ls, e1, e2, hv⟩ := key ts k.fit fun t ht => hi t.1 (by rw [k.workers]; exact List.mem_map_of_mem ht)
  refine ⟨ls ++ ms.map fun m => m.2.2, _, ⟨ps ++ ms.map (fun m => m.2.1), ?_, rfl, ?_⟩, ?_⟩
  · unfold Team.vectors
    rw [k.workers, e1, k.mail, List.map_append, List.map_map, List.map_map]
    rfl
  · have w := k.world
    rw [e2, letters_owned] at w
    rw [List.map_append, List.sum_append]
    exact w
  · rw [List.map_append]
    exact hv.append k.letters

/-- The threads at the start. -/
theorem Ready.crew {h : Heap α} {st : List HVec} {ls : List (List α)} (r : Ready h st ls)
    {jobs : List ((List (Answer α) → Option (Cmd α)) × List HVec)} (hj : (jobs.flatMap Prod.snd).Perm st)
    (hf : ∀ j ∈ jobs, ∀ log c, j.1 log = some (.call c) → c.Fits) : ∃ ts s, Crew ts [] (Team.start jobs h) s := by
  obtain ⟨ls', vs, ⟨ps, e1, rfl, w⟩, hv⟩ := r.perm hj
  have key : ∀ (js : List ((List (Answer α) → Option (Cmd α)) × List HVec)) (ps : List (VecOf (Addr × Node α))) (ls : List (List α)),
      (∀ j ∈ js, ∀ log c, j.1 log = some (.call c) → c.Fits) → js.flatMap Prod.snd = ps.map VecOf.addrs → Holding (ps.map VecOf.nodes) ls →
      ∃ ts : List (Member α), (ts.map fun t => t.1) = js.map (fun j => { plan := j.1, log := [], phase := .idle j.2 }) ∧
        (ts.map fun t => t.2.2.ctx).sum = (ps.map VecOf.owned).sum ∧ (∀ t ∈ ts, t.Fit) ∧
        ∀ t ∈ ts, ∃ g, t.2.2.code = .ret g ∧ t.2.2.goal = fun _ _ _ => True := by
    intro js
    induction js with
    | nil =>
      intro ps ls _ e hv
      obtain rfl : ps = [] := by simpa using e.symm
      exact ⟨[], rfl, rfl, by simp, by simp⟩
    | cons j js ih =>
      intro ps ls hf e hv
      rw [List.flatMap_cons] at e
      obtain ⟨p1, p2, rfl, e1, e2⟩ := List.map_eq_append_iff.1 e.symm
      rw [List.map_append] at hv
      obtain ⟨l1, l2, rfl, h1, h2⟩ := hv.split
      obtain ⟨ts, k1, k2, k3, k4⟩ := ih p2 l2 (fun j hj => hf j (by simp [hj])) e2.symm h2
      refine ⟨(⟨j.1, [], .idle j.2⟩, ⟨j.1, [], l1, none⟩, ⟨.ret (.none, j.2), (p1.map VecOf.owned).sum, fun _ _ _ => True⟩) :: ts, ?_, ?_,
        fun t ht => ?_, fun t ht => ?_⟩
      · rw [List.map_cons, k1]; rfl
      · rw [List.map_cons, List.sum_cons, k2, List.map_append, List.sum_append]
      · rcases List.mem_cons.1 ht with rfl | ht
        · exact ⟨hf j (by simp), rfl, rfl, rfl, rfl, p1, e1.symm, rfl, h1⟩
        · exact k3 t ht
      · rcases List.mem_cons.1 ht with rfl | ht
        · exact ⟨_, rfl, rfl⟩
        · exact k4 t ht
  obtain ⟨ts, k1, k2, k3, k4⟩ := key jobs ps ls' hf e1 hv
  refine ⟨ts, ⟨ts.map fun t => t.2.1, []⟩, k1.symm, rfl, rfl, rfl, by simp, k3, ?_, fun t ht => ?_⟩
  · rw [k2, List.map_nil, List.sum_nil, add_zero]
    exact w
  · obtain ⟨g, e1, e2⟩ := k4 t ht
    rw [e1, e2]
    exact runs_ret

/-! ### Fair schedules -/

theorem Team.run_append (p : Team α) (is js : List Nat) : p.run (is ++ js) = p.run is >>= fun q => q.run js := by
  induction is generalizing p with
  | nil => rfl
  | cons i is ih =>
    show (p.step i >>= fun p => p.run (is ++ js)) = ((p.step i >>= fun p => p.run is) >>= _)
    cases p.step i with
    | error f => rfl
    | ok q => exact ih q

/-- Other threads take steps. -/
theorem Crew.others {ts : List (Member α)} {ms : List (Letter α)} {p : Team α} {s : Stage α} (k : Crew ts ms p s) {i : Nat} {t : Member α}
    (ht : ts[i]? = some t) (is : List Nat) (hi : i ∉ is) :
    ∃ ts' ms' p' s', p.run is = .ok p' ∧ Crew ts' ms' p' s' ∧ ts'[i]? = some t ∧ Kept t.2.2.ctx p.heap p'.heap := by
  induction is generalizing ts ms p s with
  | nil => exact ⟨ts, ms, p, s, rfl, k, ht, .refl _ _⟩
  | cons j is ih =>
    obtain ⟨ts1, ms1, p1, s1, e1, k1, -, o1, c1⟩ := k.step j
    have hij : i ≠ j := fun h => hi (by simp [h])
    have ht1 : ts1[i]? = some t := (o1 i hij).trans ht
    obtain ⟨ts2, ms2, p2, s2, e2, k2, o2, c2⟩ := ih k1 ht1 (fun h => hi (by simp [h]))
    refine ⟨ts2, ms2, p2, s2, ?_, k2, o2, (c1 t ?_).trans c2⟩
    · show (p.step j >>= fun p => p.run is) = _
      rw [e1]
      exact e2
    · rw [List.mem_iff_getElem?]
      refine ⟨if i < j then i else i - 1, ?_⟩
      rw [List.getElem?_eraseIdx]
      by_cases hl : i < j
      · rw [if_pos hl, if_pos hl, ht]
      · rw [if_neg hl, if_neg (by omega), show i - 1 + 1 = i by omega, ht]

/-- A call of a thread that gets a step again and again comes to its end, whatever the others do. -/
theorem Crew.comes {σ : Nat → Nat} {i : Nat} (hs : ∀ n, ∃ m, n ≤ m ∧ σ m = i) {Q : M (Answer α × List HVec) → Ctx α → Heap α → Prop}
    {x : HM α (Answer α × List HVec)} {L : Ctx α} {h : Heap α} (r : RunsIn 0 Q x L h) : ∀ {ts : List (Member α)} {ms : List (Letter α)}
      {p : Team α} {s : Stage α} (n : Nat) {plan : List (Answer α) → Option (Cmd α)} {log : List (Answer α)} {a : Actor α}, Crew ts ms p s →
      ts[i]? = some (⟨plan, log, .busy x⟩, a, ⟨x, L, Q⟩) → Kept L h p.heap → ∃ m q w, p.run (window σ n m) = .ok q ∧ q.workers[i]? = some w ∧
        ((∃ r vars, w.log = log ++ [r] ∧ w.phase = .idle vars) ∨ ∃ e, w.phase = .dead e) := by
  induction r with
  | @ended x L h r e hq =>
    intro ts ms p s n plan log a k ht _
    obtain ⟨m, em, hm⟩ := first_at (hs n)
    obtain ⟨ts1, ms1, p1, s1, e1, k1, t1, -⟩ := k.others ht _ hm
    have hw := k1.worker_at t1
    have hst : ∃ p2 w, p1.step i = .ok p2 ∧ p2.workers[i]? = some w ∧
        ((∃ r vars, w.log = log ++ [r] ∧ w.phase = .idle vars) ∨ ∃ e, w.phase = .dead e) := by
      have hl := (List.getElem?_eq_some_iff.1 hw).1
      unfold Team.step
      rw [hw]
      simp only [Worker.step, e]
      cases r with
      | error f => exact ⟨_, _, rfl, List.getElem?_set_self hl, .inr ⟨f, rfl⟩⟩
      | ok g => exact ⟨_, _, rfl, List.getElem?_set_self hl, .inl ⟨g.1, g.2, rfl, rfl⟩⟩
    obtain ⟨p2, w, e2, hw2, hres⟩ := hst
    refine ⟨m + 1, p2, w, ?_, hw2, hres⟩
    rw [window_succ, Team.run_append, e1, ok_bind, em]
    show (p1.step i >>= fun p => .ok p) = _
    rw [e2]
    rfl
  | @step x L h L' e ha hw hr ih =>
    intro ts ms p s n plan log a k ht k0
    obtain ⟨m, em, hm⟩ := first_at (hs n)
    obtain ⟨ts1, ms1, p1, s1, e1, k1, t1, c1⟩ := k.others ht _ hm
    have k2 := k0.trans c1
    have u2 := unchanged_zero h p1.heap
    have w := k1.world_at t1
    dsimp only at w
    rw [add_assoc] at w
    have w0 : World p1.heap (L + 0 + (((ts1.eraseIdx i).map fun t => t.2.2.ctx).sum + (ms1.map Letter.owned).sum)) := by
      rw [add_zero]; exact w
    obtain ⟨r, er, kr, -⟩ := (ha _ _ k2 u2 w0).step w0
    have w' := hw _ _ r k2 u2 w0 er
    rw [add_zero, ← add_assoc] at w'
    have kr' : Kept ((ts1.eraseIdx i).map fun t => t.2.2.ctx).sum p1.heap r.2 := kr.mono fun a ha => Ctx.starts_add.2 (.inl ha)
    obtain ⟨hl, hp, hlog, hd, -, cl, q, hpl, hmean, hgoal⟩ := k1.fit _ (List.mem_of_getElem? t1)
    have k3 := k1.next t1 (⟨plan, log, .busy r.1⟩, a, ⟨r.1, _, Q⟩) ms1 r.2 w' kr' (hr _ _ r k2 u2 w0 er)
      ⟨hl, hp, hlog, hd, rfl, cl, q, hpl, hmean, hgoal⟩ k1.good
    have hst : p1.step i = .ok ⟨p1.workers.set i ⟨plan, log, .busy r.1⟩, ms1.map fun m => (m.1, m.2.1.addrs), r.2⟩ := by
      unfold Team.step
      rw [k1.worker_at t1]
      simp only [Worker.step, e]
      rw [er, ← k1.mail]
      rfl
    obtain ⟨l, q', w2, e3, hres⟩ := ih _ _ r k2 u2 w0 er (n + (m + 1)) k3
      (List.getElem?_set_self (List.getElem?_eq_some_iff.1 t1).1) (.refl _ _)
    refine ⟨m + 1 + l, q', w2, ?_, hres⟩
    rw [window_add, window_succ, Team.run_append, Team.run_append, e1, ok_bind, em]
    show (p1.step i >>= fun p => .ok p) >>= _ = _
    rw [hst]
    exact e3

end Librrb
