import Verif.Proof.Threads
import Verif.Props.Clone

/-!
# Vectors in several threads
-/
namespace Librrb
open RVec

/-- How a thread ends whose program comes to `q` on sequences, and what it owns then; the vectors `ss` are lent to it. -/
def Comes (ss : List (VecOf (Addr × Node α))) (q : M (β × List (List α))) (r : M (β × List HVec)) (L : Ctx α) : Prop :=
  match q with
  | .error e => r = .error e
  | .ok (a, ls) => ∃ ps : List (VecOf (Addr × Node α)), r = .ok (a, (ss ++ ps).map VecOf.addrs) ∧
      L = (ps.map VecOf.owned).sum ∧ Holding ((ss ++ ps).map VecOf.nodes) ls

theorem World.holding {h : Heap α} {F : Ctx α} {ps : List (VecOf (Addr × Node α))} {ls : List (List α)}
    (w : World h ((ps.map VecOf.owned).sum + F)) (hv : Holding (ps.map VecOf.nodes) ls) :
    HHolding h (ps.map VecOf.addrs) ls := by
  obtain ⟨hl, hv⟩ := hv
  refine ⟨by simpa using hl, fun i v e => ?_⟩
  rw [List.getElem?_map] at e
  obtain ⟨p, ep, rfl⟩ := Option.map_eq_some_iff.1 e
  obtain ⟨-, l, el, s⟩ := hv i p.nodes (by rw [List.getElem?_map, ep]; rfl)
  have hs : SameVec h p.addrs p.nodes := by
    refine w.sameVec ?_
    rw [(sum_at (f := VecOf.owned) ep).1]
    exact fun x hx => Multiset.mem_add.2 (.inl (Multiset.mem_add.2 (.inl hx)))
  refine ⟨l, el, s.1, fun j => ?_⟩
  obtain ⟨g, eg, rfl⟩ := (HVec.get_reads hs j).ok _ (s.2 j)
  exact eg

theorem World.holding_in {h : Heap α} {F : Ctx α} {ss ps : List (VecOf (Addr × Node α))} {ls : List (List α)}
    (w : World h ((ps.map VecOf.owned).sum + (ss.map VecOf.owned).sum + F)) (hv : Holding ((ss ++ ps).map VecOf.nodes) ls) :
    HHolding h ((ss ++ ps).map VecOf.addrs) ls := by
  refine World.holding (F := F) ?_ hv
  rw [List.map_append, List.sum_append, add_comm (ss.map VecOf.owned).sum]
  exact w

theorem Comes.endsAs {ss : List (VecOf (Addr × Node α))} {q : M (β × List (List α))} {r : M (β × List HVec)} {L F : Ctx α}
    {h : Heap α} (c : Comes ss q r L) (w : World h (L + (ss.map VecOf.owned).sum + F)) : EndsAs h r q := by
  cases q with
  | error e => exact c
  | ok q =>
    obtain ⟨ps, rfl, rfl, hv⟩ := c
    exact ⟨_, rfl, w.holding_in hv⟩

/-- A program in a thread does what it may do on sequences; what it does is known before any step of any thread. -/
theorem program_runs (ss : List (VecOf (Addr × Node α))) (prog : List (Call α))
    (hf : ∀ c ∈ prog, c.Fits ∧ c.Borrows ss.length) {vs : List (RVec α)} {ls : List (List α)} (hv : Holding vs ls) :
    ∃ q, ProgramMeans prog ls q ∧ ∀ ps : List (VecOf (Addr × Node α)), (ss ++ ps).map VecOf.nodes = vs →
      ∀ h F, World h ((ps.map VecOf.owned).sum + (ss.map VecOf.owned).sum + F) →
        RunsIn (ss.map VecOf.owned).sum (fun r L _ => Comes ss q r L) (runHeap prog ((ss ++ ps).map VecOf.addrs))
          (ps.map VecOf.owned).sum h := by
  induction prog generalizing vs ls with
  | nil =>
    refine ⟨_, rfl, fun ps e h F w => .ret fun _ _ _ _ _ => ⟨ps, rfl, rfl, ?_⟩⟩
    rw [e]; exact hv
  | cons c cs ih =>
    obtain ⟨q, m, s⟩ := call_ok hv c (hf c (by simp)).1
    have hfm : ∀ ps : List (VecOf (Addr × Node α)), (ss ++ ps).map VecOf.nodes = vs → ∀ p ∈ ps, ∃ d, p.nodes.cells.focusMut = .ok d := by
      rintro ps rfl p hp
      obtain ⟨i, hi, e⟩ := List.getElem_of_mem (List.mem_map_of_mem (f := VecOf.nodes) (List.mem_append.2 (.inr hp) : p ∈ ss ++ ps))
      rw [← e]
      exact (hv.2 i _ (List.getElem?_eq_getElem hi)).1.focusMut
    have hb := (hf c (by simp)).2
    cases q with
    | error e =>
      refine ⟨.error e, ⟨_, m, rfl⟩, fun ps en h F w => ?_⟩
      have hu : e ≠ .ub := fun he => (Call.means_safe m).1 (by rw [he])
      subst en
      exact ((call_lend ss ps (hfm ps rfl) c hb).err e s hu h F w).bind (fun g L h1 F1 q w1 => by cases q)
        (fun f L h1 q => by cases q; exact rfl) F w
    | ok q =>
      obtain ⟨a, ls1⟩ := q
      obtain ⟨ws, er, hw⟩ := s
      obtain ⟨q', m', s'⟩ := ih (fun c hc => hf c (by simp [hc])) hw
      refine ⟨_, ⟨_, m, q', m', rfl⟩, fun ps en h F w => ?_⟩
      subst en
      refine ((call_lend ss ps (hfm ps rfl) c hb).ok _ er h F w).bind (fun g L h1 F1 q w1 => ?_) (fun f L h1 q => ?_) F w
      · obtain ⟨ps', e, e3, rfl⟩ := q
        cases e
        dsimp only at e3 ⊢
        refine (s' ps' e3.symm h1 F1 w1).bind (fun g L h2 F2 q w2 => ?_) (fun f L h2 q => ?_) F1 w1
        · refine .ret fun _ _ _ _ _ => ?_
          cases q' with
          | error f => cases q
          | ok q' =>
            obtain ⟨ps2, e, e4, h4⟩ := q
            cases e
            exact ⟨ps2, rfl, e4, h4⟩
        · cases q' with
          | error f => cases q; exact rfl
          | ok q' => obtain ⟨ps2, e, -⟩ := q; cases e
      · obtain ⟨g', e, -⟩ := q
        cases e

/-- A list that is reordered after a map, is reordered before. -/
theorem perm_map {g : δ → γ} {l : List γ} {ps : List δ} (hp : l.Perm (ps.map g)) : ∃ ps' : List δ, ps'.Perm ps ∧ ps'.map g = l := by
  generalize hm : ps.map g = m at hp
  induction hp generalizing ps with
  | nil => exact ⟨[], by simpa using hm, rfl⟩
  | cons x _ ih =>
    obtain ⟨p, ps, rfl, rfl, rfl⟩ := List.map_eq_cons_iff.1 hm
    obtain ⟨ps', h1, rfl⟩ := ih rfl
    exact ⟨p :: ps', h1.cons p, rfl⟩
  | swap x y l =>
    obtain ⟨p, ps, rfl, rfl, hm'⟩ := List.map_eq_cons_iff.1 hm
    obtain ⟨q, ps, rfl, rfl, rfl⟩ := List.map_eq_cons_iff.1 hm'
    exact ⟨q :: p :: ps, .swap .., rfl⟩
  | trans _ _ ih1 ih2 =>
    obtain ⟨ps', h1, h2⟩ := ih2 hm
    obtain ⟨ps'', h3, h4⟩ := ih1 h2
    exact ⟨ps'', h3.trans h1, h4⟩

/-- What is needed of a state to go on from there. -/
theorem Ready.perm {h : Heap α} {st st' : List HVec} {ls : List (List α)} (r : Ready h st ls) (hp : st'.Perm st) :
    ∃ ls', Ready h st' ls' := by
  obtain ⟨vs, ⟨ps, rfl, rfl, w⟩, hv⟩ := r
  obtain ⟨ps', h1, rfl⟩ := perm_map hp
  refine ⟨ps'.map fun p => p.nodes.toList, _, ⟨ps', rfl, rfl, ?_⟩, by simp, fun i v e => ?_⟩
  · rw [(h1.map VecOf.owned).sum_eq]; exact w
  · rw [List.getElem?_map] at e ⊢
    obtain ⟨p, ep, rfl⟩ := Option.map_eq_some_iff.1 e
    obtain ⟨j, hj⟩ := List.mem_iff_getElem?.1 (h1.mem_iff.1 (List.mem_of_getElem? ep))
    obtain ⟨b, -⟩ := hv.2 j p.nodes (by rw [List.getElem?_map, hj]; rfl)
    obtain ⟨k, i⟩ := b.inv
    exact ⟨b, _, by rw [ep]; rfl, (shows_iff i).2 rfl⟩

theorem Holding.split {vs ws : List (RVec α)} {ls : List (List α)} (h : Holding (vs ++ ws) ls) :
    ∃ l1 l2, ls = l1 ++ l2 ∧ Holding vs l1 ∧ Holding ws l2 := by
  refine ⟨ls.take vs.length, ls.drop vs.length, by simp, ⟨?_, fun i v e => ?_⟩, ?_, fun i v e => ?_⟩
  · have := h.1; simp at this ⊢; omega
  · have hi := (List.getElem?_eq_some_iff.1 e).1
    rw [List.getElem?_take_of_lt hi]
    exact h.2 i v (by rw [List.getElem?_append_left hi, e])
  · have := h.1; simp at this ⊢; omega
  · rw [List.getElem?_drop]
    exact h.2 _ v (by rw [List.getElem?_append_right (by simp), ← e]; congr 1; simp)

/-- The threads at the start. -/
theorem start_tasks {h : Heap α} {ss : List (VecOf (Addr × Node α))} {lls : List (List α)} (hs : Holding (ss.map VecOf.nodes) lls) :
    ∀ {jobs : List (Job α)} (hf : Legal (ss.map VecOf.addrs) jobs) {ls : List (List α)}
    {ps : List (VecOf (Addr × Node α))} (e : ps.map VecOf.addrs = jobs.flatMap Job.vars) (F : Ctx α)
    (w : World h ((ps.map VecOf.owned).sum + (ss.map VecOf.owned).sum + F)) (hv : Holding (ps.map VecOf.nodes) ls),
    ∃ (qs : List (M (List (Answer α) × List (List α)))) (cs : List (Task α (List (Answer α) × List HVec))),
      List.Forall₂ (fun (j : Job α) q => ∃ ls, HHolding h (ss.map VecOf.addrs ++ j.vars) ls ∧ ProgramMeans j.prog ls q ∧
        SameOnHeap (runHeap j.prog (ss.map VecOf.addrs ++ j.vars) h) q) jobs qs ∧
      cs.map Task.goal = qs.map (fun q r L _ => Comes ss q r L) ∧
      cs.map Task.code = (Pool.start (ss.map VecOf.addrs) jobs h).threads ∧
      (cs.map Task.ctx).sum = (ps.map VecOf.owned).sum ∧ ∀ c ∈ cs, RunsIn (ss.map VecOf.owned).sum c.goal c.code c.ctx h
  | [], _, ls, ps, e, F, w, hv => by
    obtain rfl : ps = [] := by simpa using e
    exact ⟨[], [], .nil, rfl, rfl, rfl, by simp⟩
  | j :: jobs, hf, ls, ps, e, F, w, hv => by
    rw [List.flatMap_cons] at e
    obtain ⟨p1, p2, rfl, e1, e2⟩ := List.map_eq_append_iff.1 e
    rw [List.map_append] at hv
    obtain ⟨l1, l2, rfl, h1, h2⟩ := hv.split
    have h3 : Holding ((ss ++ p1).map VecOf.nodes) (lls ++ l1) := by
      rw [List.map_append]; exact hs.append h1
    have s : ((p1 ++ p2).map VecOf.owned).sum = (p1.map VecOf.owned).sum + (p2.map VecOf.owned).sum := by simp
    rw [s] at w ⊢
    have w1 : World h ((p1.map VecOf.owned).sum + (ss.map VecOf.owned).sum + ((p2.map VecOf.owned).sum + F)) := by
      convert w using 1; abel
    have w2 : World h ((p2.map VecOf.owned).sum + (ss.map VecOf.owned).sum + ((p1.map VecOf.owned).sum + F)) := by
      convert w using 1; abel
    have ea : ss.map VecOf.addrs ++ j.vars = (ss ++ p1).map VecOf.addrs := by rw [List.map_append, e1]
    obtain ⟨q, m, r⟩ := program_runs ss j.prog (fun c hc => by simpa using hf j (by simp) c hc) h3
    obtain ⟨qs, cs, k1, k2, k3, k4, k5⟩ := start_tasks hs (fun j hj => hf j (by simp [hj])) e2 _ w2 h2
    have hr := r p1 rfl h _ w1
    refine ⟨q :: qs, ⟨runHeap j.prog (ss.map VecOf.addrs ++ j.vars), (p1.map VecOf.owned).sum, fun r L _ => Comes ss q r L⟩ :: cs,
      .cons ⟨_, ?_, m, ?_⟩ k1, by rw [List.map_cons, k2]; rfl, by rw [List.map_cons, k3]; rfl,
      by rw [List.map_cons, List.sum_cons, k4], ?_⟩
    · rw [ea]; exact w1.holding_in h3
    · obtain ⟨r, h', L', c, w', e⟩ := hr.seq _ w1
      rw [ea]
      cases q with
      | error f => cases c; exact e
      | ok q =>
        obtain ⟨ps', rfl, rfl, h'⟩ := c
        exact ⟨_, _, e, w'.holding_in h'⟩
    · intro c hc
      rcases List.mem_cons.1 hc with rfl | hc
      · rw [ea]; exact hr
      · exact k5 c hc

theorem Ready.start {h : Heap α} {st : List HVec} {ls : List (List α)} (r : Ready h st ls) {lent : List HVec}
    {jobs : List (Job α)} (hj : (lent ++ jobs.flatMap Job.vars).Perm st) (hf : Legal lent jobs) :
    ∃ (ss : List (VecOf (Addr × Node α))) (lls : List (List α)) (qs : List (M (List (Answer α) × List (List α))))
      (cs : List (Task α (List (Answer α) × List HVec))), lent = ss.map VecOf.addrs ∧ Holding (ss.map VecOf.nodes) lls ∧
      List.Forall₂ (fun (j : Job α) q => ∃ ls, HHolding h (lent ++ j.vars) ls ∧ ProgramMeans j.prog ls q ∧
        SameOnHeap (runHeap j.prog (lent ++ j.vars) h) q) jobs qs ∧
      cs.map Task.goal = qs.map (fun q r L _ => Comes ss q r L) ∧ Tasks (ss.map VecOf.owned).sum cs (Pool.start lent jobs h) := by
  obtain ⟨ls', vs, ⟨ps, e1, rfl, w⟩, hv⟩ := r.perm hj
  obtain ⟨ss, ps, rfl, rfl, e2⟩ := List.map_eq_append_iff.1 e1.symm
  rw [List.map_append] at hv
  obtain ⟨lls, ls, rfl, hs, hv⟩ := hv.split
  rw [List.map_append, List.sum_append, add_comm] at w
  obtain ⟨qs, cs, k1, k2, k3, k4, k5⟩ := start_tasks hs hf e2 0 (by rw [add_zero]; exact w) hv
  refine ⟨ss, lls, qs, cs, rfl, hs, k1, k2, k3.symm, ?_, k5⟩
  rw [k4]
  exact w

/-- The threads at some time, and those that have ended. -/
theorem Tasks.endsAs {ss : List (VecOf (Addr × Node α))} {cs : List (Task α (β × List HVec))} {p : Pool α (β × List HVec)}
    (t : Tasks (ss.map VecOf.owned).sum cs p) {qs : List (M (β × List (List α)))}
    (g : cs.map Task.goal = qs.map (fun q r L _ => Comes ss q r L)) :
    List.Forall₂ (fun x q => ∀ r, x.ended = some r → EndsAs p.heap r q ∧ ∀ a st, r = .ok (a, st) → ss.map VecOf.addrs <+: st)
      p.threads qs := by
  rw [t.threads]
  have hlen : cs.length = qs.length := by simpa using congrArg List.length g
  refine List.forall₂_iff_get.2 ⟨by simpa using hlen, fun i h1 h2 r e => ?_⟩
  have hi : i < cs.length := by simpa using h1
  have hc : cs[i]? = some cs[i] := List.getElem?_eq_getElem hi
  have hg : cs[i].goal = fun r L _ => Comes ss (qs[i]'(by simpa using h2)) r L := by
    have := congrArg (fun l => l[i]?) g
    simpa [hi, hlen ▸ hi] using this
  have e' : cs[i].code.ended = some r := by simpa using e
  have := t.ended (List.getElem_mem hi) e'
  rw [hg] at this
  refine ⟨Comes.endsAs this (t.world_at hc), ?_⟩
  rintro a st rfl
  revert this
  generalize qs[i]'(by simpa using h2) = q
  intro this
  cases q with
  | error f => cases this
  | ok q =>
    obtain ⟨ps, e, -⟩ := this
    cases e
    rw [List.map_append]
    exact List.prefix_append _ _

/-- All threads have ended, none by a panic. -/
theorem Tasks.joined {p : Pool α (β × List HVec)} {ss : List (VecOf (Addr × Node α))} : ∀ {cs : List (Task α (β × List HVec))}
    {qs : List (M (β × List (List α)))} {left : List (List HVec)} {F : Ctx α}
    (g : cs.map Task.goal = qs.map (fun q r L _ => Comes ss q r L))
    (w : World p.heap ((cs.map Task.ctx).sum + (ss.map VecOf.owned).sum + F))
    (r : ∀ c ∈ cs, RunsIn (ss.map VecOf.owned).sum c.goal c.code c.ctx p.heap)
    (he : List.Forall₂ (fun x st => ∃ as, x.ended = some (.ok (as, ss.map VecOf.addrs ++ st))) (cs.map Task.code) left),
    ∃ (ps : List (VecOf (Addr × Node α))) (ls : List (List α)), left.flatten = ps.map VecOf.addrs ∧ (cs.map Task.ctx).sum = (ps.map VecOf.owned).sum ∧
      Holding (ps.map VecOf.nodes) ls
  | [], qs, left, F, g, w, r, he => by
    cases he
    exact ⟨[], [], rfl, rfl, .nil⟩
  | c :: cs, qs, left, F, g, w, r, he => by
    cases qs with
    | nil => cases g
    | cons q qs =>
      rw [List.map_cons, List.map_cons] at g
      injection g with g1 g2
      cases he with
      | @cons _ st _ left h1 h2 =>
        obtain ⟨as, e⟩ := h1
        rw [List.map_cons, List.sum_cons] at w
        have w1 : World p.heap (c.ctx + (ss.map VecOf.owned).sum + ((cs.map Task.ctx).sum + F)) := by convert w using 1; abel
        have w2 : World p.heap ((cs.map Task.ctx).sum + (ss.map VecOf.owned).sum + (c.ctx + F)) := by convert w using 1; abel
        obtain ⟨ps, ls, k1, k2, k3⟩ := Tasks.joined g2 w2 (fun c hc => r c (by simp [hc])) h2
        have hg : c.goal (.ok (as, ss.map VecOf.addrs ++ st)) c.ctx p.heap := by
          cases r c (by simp) with
          | ended e' hq =>
            rw [e] at e'
            cases e'
            exact hq _ _ (.refl _ _) (.refl _ _) w1
          | step _ e' => rw [e] at e'; cases e'
        rw [g1] at hg
        cases q with
        | error f => cases hg
        | ok q =>
          obtain ⟨ps1, e1, e2, h3⟩ := hg
          rw [List.map_append] at e1 h3
          obtain ⟨ll1, ls1, e4, -, h3⟩ := h3.split
          have e5 : st = ps1.map VecOf.addrs := by
            injection e1 with e1
            injection e1 with _ e1
            exact List.append_cancel_left e1
          refine ⟨ps1 ++ ps, ls1 ++ ls, ?_, ?_, ?_⟩
          · rw [List.flatten_cons, k1, List.map_append, e5]
          · rw [List.map_cons, List.sum_cons, k2, e2, List.map_append, List.sum_append]
          · rw [List.map_append]; exact h3.append k3

theorem ForkJoin.ready {h : Heap α} {st : List HVec} (f : ForkJoin h st) : ∃ ls, Ready h st ls := by
  induction f with
  | empty => exact ⟨[], .empty⟩
  | call f hc e ih =>
    obtain ⟨ls, r⟩ := ih
    obtain ⟨q, -, s⟩ := r.call _ hc
    cases q with
    | error f => rw [SameReady, e] at s; cases s
    | ok q =>
      obtain ⟨st', h', e', r⟩ := s
      rw [e] at e'
      cases e'
      exact ⟨_, r⟩
  | threads f hj hf e he hp ih =>
    obtain ⟨ls, r⟩ := ih
    obtain ⟨ss, lls, qs, cs, rfl, hs, -, g, t⟩ := r.start hj hf
    obtain ⟨cs', p', e', t', g', -⟩ := t.run _
    obtain rfl := Except.ok.inj (e.symm.trans e')
    rw [t'.threads] at he
    obtain ⟨ps, ls, k1, k2, k3⟩ := Tasks.joined (F := 0) (g'.trans g) (by rw [add_zero]; exact t'.world) t'.runs he
    refine Ready.perm (ls := lls ++ ls) ⟨_, ⟨ss ++ ps, by rw [List.map_append, k1], rfl, ?_⟩, ?_⟩ hp.symm
    · rw [List.map_append, List.sum_append, add_comm, ← k2]
      exact t'.world
    · rw [List.map_append]; exact hs.append k3

/-! ### C56 -/

/-- Vectors that share nodes are handed out to threads, some to one thread each and some to all of them, whose steps are taken
in any order. Each thread gets the answers, and its vectors have the contents, that it would have if it ran alone, which
are some that its program may have on plain sequences; if it panics, it panics as it would alone. No thread gets at a node
that is freed. What is lent to all threads has the same contents all the time. -/
theorem C56_threads {h : Heap α} {st : List HVec} (f : ForkJoin h st) {lent : List HVec} {jobs : List (Job α)}
    (hj : (lent ++ jobs.flatMap Job.vars).Perm st) (hf : Legal lent jobs) :
    ∃ lls qs, HHolding h lent lls ∧
      List.Forall₂ (fun (j : Job α) q => ∃ ls, HHolding h (lent ++ j.vars) ls ∧ ProgramMeans j.prog ls q ∧
        SameOnHeap (runHeap j.prog (lent ++ j.vars) h) q) jobs qs ∧
      ∀ schedule, ∃ p, (Pool.start lent jobs h).run schedule = .ok p ∧ HHolding p.heap lent lls ∧
        List.Forall₂ (fun x q => ∀ r, x.ended = some r → EndsAs p.heap r q ∧ ∀ as st, r = .ok (as, st) → lent <+: st) p.threads qs := by
  obtain ⟨ls, r⟩ := f.ready
  obtain ⟨ss, lls, qs, cs, rfl, hs, k, g, t⟩ := r.start hj hf
  have held : ∀ {cs : List (Task α (List (Answer α) × List HVec))} {p}, Tasks (ss.map VecOf.owned).sum cs p →
      HHolding p.heap (ss.map VecOf.addrs) lls := by
    intro cs p t
    have w := t.world
    rw [add_comm] at w
    exact w.holding hs
  refine ⟨lls, qs, held t, k, fun schedule => ?_⟩
  obtain ⟨cs', p, e, t', g', -⟩ := t.run schedule
  exact ⟨p, e, held t', t'.endsAs (g'.trans g)⟩

/-- What a program leaves. -/
theorem ForkJoin.program {h : Heap α} {st : List HVec} (f : ForkJoin h st) {prog : List (Call α)} (hf : ∀ c ∈ prog, c.Fits)
    {as : List (Answer α)} {st' : List HVec} {h' : Heap α} (e : runHeap prog st h = .ok ((as, st'), h')) : ForkJoin h' st' := by
  induction prog generalizing h st as with
  | nil => cases e; exact f
  | cons c cs ih =>
    simp only [runHeap, hrunAll] at e
    obtain ⟨g, h1, e1, e⟩ := hm_bind_inv e
    obtain ⟨g', h2, e2, e⟩ := hm_bind_inv e
    cases e
    exact ih (f.call (hf c (by simp)) e1) (fun c hc => hf c (by simp [hc])) e2

/-- A vector and two copies of it. -/
def sharing3 : List (Call Nat) := sharing ++ [.clone 0]

/-- Two threads that have one copy each, and that both have the original lent, as their variable 0. The one writes through a
cursor, cuts its vector and joins it again, and reads the original. The other one writes, copies and
compares the original, reverses some items, ends the copy, and reverses behind the end, with a panic. -/
def jobs2 (st : List HVec) : List (Job Nat) :=
  [{ vars := (st.drop 1).take 1, prog := [.act 1 (.editFocus [.write 5 999, .write 150 7]), .act 1 (.splitOff 100), .append 2 1,
      .act 2 (.get 50), .act 0 (.focusRead [5, 150])] },
    { vars := st.drop 2, prog := [.act 1 (.set 3 1), .clone 0, .compare compare 0 1,
      .act 1 (.reverseRange (.included 60) (.excluded 64)), .act 1 (.get 61), .drop 2,
      .act 1 (.reverseRange (.included 60) (.excluded 640))] }]

/-- How the threads have ended. -/
def ends (p : Pool Nat (List (Answer Nat) × List HVec)) : List (Option (Fault ⊕ List (Answer Nat))) :=
  p.threads.map fun x => x.ended.map fun r => match r with | .error e => .inl e | .ok r => .inr r.1

theorem shared : ∃ as st h, runHeap sharing3 [] Heap.empty = .ok ((as, st), h) ∧ ForkJoin h st ∧
    (st.take 1 ++ (jobs2 st).flatMap Job.vars).Perm st ∧ Legal (st.take 1) (jobs2 st) := by
  have e0 : (runHeap sharing3 [] Heap.empty).map (fun r => r.1.2.length) = .ok 3 := by decide +kernel
  cases e : runHeap sharing3 [] Heap.empty with
  | error f => rw [e] at e0; cases e0
  | ok r =>
    have hl : r.1.2.length = 3 := by rw [e] at e0; exact Except.ok.inj e0
    refine ⟨r.1.1, r.1.2, r.2, rfl, ForkJoin.empty.program (by simp [sharing3, sharing, Call.Fits]) e, ?_, ?_⟩
    · simp only [jobs2, List.flatMap_cons, List.flatMap_nil, List.append_nil]
      rw [show 2 = 1 + 1 from rfl, ← List.drop_drop, List.take_append_drop, List.take_append_drop]
    · have h1 : (r.1.2.take 1).length = 1 := by simp [hl]
      simp [Legal, h1, jobs2, Call.Fits, Act.Fits, Bound.Fits, Call.Borrows, Act.ReadOnly]

/-- All nodes are shared at first; the threads copy what they write to. They come to the same end in another order of
steps, where one goes on only when the other one has ended. -/
example : (runHeap sharing3 [] Heap.empty).map (fun r => (r.1.2.map VecOf.entries, r.2.cells.map (·.map RcBox.count))) =
      .ok ([[2, 4, 1], [2, 4, 1], [2, 4, 1]], [some 1, some 3, some 3, some 1, some 3]) ∧
    (runHeap sharing3 [] Heap.empty >>= fun r =>
        (Pool.start (r.1.2.take 1) (jobs2 r.1.2) r.2).run ((List.range 300).map (· % 2))).map ends =
      .ok [some (.inr [.items [some 5, some 150], .none, .none, .item (some 7), .items [some 5, some 150]]), some (.inl .panic)] ∧
    (runHeap sharing3 [] Heap.empty >>= fun r =>
        (Pool.start (r.1.2.take 1) (jobs2 r.1.2) r.2).run ((List.range 300).map (· / 150))).map ends =
      .ok [some (.inr [.items [some 5, some 150], .none, .none, .item (some 7), .items [some 5, some 150]]), some (.inl .panic)] :=
  ⟨by decide +kernel, by decide +kernel, by decide +kernel⟩

/-- If each thread gets a step again and again, then all come to an end. -/
theorem C56_ends {h : Heap α} {st : List HVec} (f : ForkJoin h st) {lent : List HVec} {jobs : List (Job α)}
    (hj : (lent ++ jobs.flatMap Job.vars).Perm st) (hf : Legal lent jobs) (schedule : Nat → Nat)
    (fair : ∀ i < jobs.length, ∀ n, ∃ m, n ≤ m ∧ schedule m = i) :
    ∃ n p, (Pool.start lent jobs h).run ((List.range n).map schedule) = .ok p ∧ ∀ x ∈ p.threads, ∃ r, x.ended = some r := by
  obtain ⟨ls, r⟩ := f.ready
  obtain ⟨ss, lls, qs, cs, -, hs, -, -, t⟩ := r.start hj hf
  have hw : ∀ n, window schedule 0 n = (List.range n).map schedule := fun n => by simp [window]
  have one : ∀ i < jobs.length, ∃ k q y, (Pool.start lent jobs h).run (window schedule 0 k) = .ok q ∧ q.threads[i]? = some y ∧
      ∃ r, y.ended = some r := by
    intro i hi
    have hl : cs.length = jobs.length := by
      have := congrArg List.length t.threads
      simpa [Pool.start] using this.symm
    have hc : cs[i]? = some cs[i] := List.getElem?_eq_getElem (by omega)
    exact Tasks.comes (fair i hi) (t.runs _ (List.getElem_mem (by omega))) 0 t hc (.refl _ _) (.refl _ _)
  have all : ∀ m ≤ jobs.length, ∃ n p, (Pool.start lent jobs h).run (window schedule 0 n) = .ok p ∧
      ∀ i < m, ∃ y, p.threads[i]? = some y ∧ ∃ r, y.ended = some r := by
    intro m
    induction m with
    | zero => exact fun _ => ⟨0, _, rfl, fun i hi => absurd hi (Nat.not_lt_zero i)⟩
    | succ m ih =>
      intro hm
      obtain ⟨n, p, e, hp⟩ := ih (by omega)
      obtain ⟨k, q, y, e2, hy, r, hr⟩ := one m (by omega)
      obtain ⟨cs', p', e', -⟩ := t.run (window schedule 0 (max n k))
      have later : ∀ {a : Nat} {b : Pool α _}, a ≤ max n k → (Pool.start lent jobs h).run (window schedule 0 a) = .ok b →
          ∃ w, b.run w = .ok p' := by
        intro a b ha eb
        refine ⟨window schedule (0 + a) (max n k - a), ?_⟩
        have := e'
        rw [show max n k = a + (max n k - a) by omega, window_add, Pool.run_append, eb] at this
        exact this
      obtain ⟨w1, h1⟩ := later (Nat.le_max_left n k) e
      obtain ⟨w2, h2⟩ := later (Nat.le_max_right n k) e2
      refine ⟨_, p', e', fun i hi => ?_⟩
      rcases Nat.lt_succ_iff_lt_or_eq.1 hi with hi | rfl
      · obtain ⟨y, hy, r, hr⟩ := hp i hi
        exact ⟨y, Pool.run_ended h1 hy hr, r, hr⟩
      · exact ⟨y, Pool.run_ended h2 hy hr, r, hr⟩
  obtain ⟨n, p, e, hp⟩ := all _ (Nat.le_refl _)
  refine ⟨n, p, by rw [← hw]; exact e, fun x hx => ?_⟩
  obtain ⟨cs', p', e', t', g', -⟩ := t.run (window schedule 0 n)
  rw [e] at e'
  cases e'
  obtain ⟨i, hi⟩ := List.mem_iff_getElem?.1 hx
  have hl : p.threads.length = jobs.length := by
    have h1 := congrArg List.length t.threads
    have h2 := congrArg List.length t'.threads
    have h3 := congrArg List.length g'
    simp [Pool.start] at h1 h2 h3
    omega
  obtain ⟨y, hy, r, hr⟩ := hp i (by have := (List.getElem?_eq_some_iff.1 hi).1; omega)
  rw [hi] at hy
  cases hy
  exact ⟨r, hr⟩

/-- Turns are fair. -/
example : ∀ i < 2, ∀ n, ∃ m, n ≤ m ∧ m % 2 = i := fun i hi n => ⟨2 * n + i, by omega, by omega⟩

theorem Tasks.no_race {S : Ctx α} {cs : List (Task α γ)} {p : Pool α γ} (t : Tasks S cs p) {i j : Nat} (hij : i ≠ j) {c d : Task α γ}
    (ec : cs[i]? = some c) (ed : cs[j]? = some d) {a : Addr} (hw : c.code.writesTo p.heap = some a) : d.code.touches ≠ some a := by
  have ha := t.allowed (List.mem_of_getElem? ec)
  have hb := t.allowed (List.mem_of_getElem? ed)
  obtain ⟨R, s, -⟩ := sum_at2 (f := Task.ctx) hij ec ed
  have w := t.world
  rw [s, add_assoc, add_assoc] at w
  have hu : ∃ e π, c.ctx.starts e ∧ UPath p.heap e π a := by
    revert ha hw
    generalize c.code = x
    intro hw ha
    cases x with
    | poke b g k => cases hw; exact ha
    | drop as k =>
      cases as with
      | nil => cases hw
      | cons b as =>
        simp only [HM.writesTo] at hw
        split at hw
        next hc =>
          cases hw
          cases hd : p.heap.cell a with
          | none => rw [hd] at hc; cases hc
          | some d =>
            have := w.pos _ _ hd
            rw [hd] at hc
            have h1 := of_decide_eq_true (show decide (d.count ≤ 1) = true from hc)
            exact ⟨a, [], ha, .nil (by rw [Heap.count_of_cell hd]; omega)⟩
        · cases hw
    | _ => cases hw
  obtain ⟨s, π, hs, u⟩ := hu
  have hn := w.path_reach u hs
  intro ht
  apply hn
  refine Ctx.reach_mono (L := d.ctx + S) (fun x hx => ?_) ?_
  · rcases Ctx.starts_add.1 hx with hx | hx
    · exact Ctx.starts_add.2 (.inl hx)
    · exact Ctx.starts_add.2 (.inr (Ctx.starts_add.2 (.inr hx)))
  revert hb ht
  generalize d.code = y
  intro hb ht
  cases y with
  | load b k | isOne b k | incr b k => cases ht; exact hb
  | poke b g k =>
    cases ht
    obtain ⟨s, π, hs, u⟩ := hb
    exact u.reach (Ctx.starts_add.2 (.inl hs))
  | drop as k =>
    cases as with
    | nil => cases ht
    | cons b as => cases ht; exact Ctx.reach_start (Ctx.starts_add.2 (.inl hb))
  | _ => cases ht

/-- When a thread is about to write to a node or to free it, then no other thread is about to touch it. -/
theorem C56_no_race {h : Heap α} {st : List HVec} (f : ForkJoin h st) {lent : List HVec} {jobs : List (Job α)}
    (hj : (lent ++ jobs.flatMap Job.vars).Perm st) (hf : Legal lent jobs) {schedule : List Nat}
    {p : Pool α (List (Answer α) × List HVec)} (e : (Pool.start lent jobs h).run schedule = .ok p) {i j : Nat} (hij : i ≠ j)
    {x y : HM α (List (Answer α) × List HVec)} (hx : p.threads[i]? = some x) (hy : p.threads[j]? = some y) {a : Addr}
    (hw : x.writesTo p.heap = some a) : y.touches ≠ some a := by
  obtain ⟨ls, r⟩ := f.ready
  obtain ⟨ss, lls, qs, cs, rfl, hs, -, -, t⟩ := r.start hj hf
  obtain ⟨cs', p', e', t, -⟩ := t.run schedule
  rw [e] at e'
  cases e'
  rw [t.threads, List.getElem?_map] at hx hy
  obtain ⟨c, ec, rfl⟩ := Option.map_eq_some_iff.1 hx
  obtain ⟨d, ed, rfl⟩ := Option.map_eq_some_iff.1 hy
  exact t.no_race hij ec ed hw

/-- The one is about to write to its copy of a node, and the other one reads a node that is lent to both. -/
example : (runHeap sharing3 [] Heap.empty >>= fun r =>
      (Pool.start (r.1.2.take 1) (jobs2 r.1.2) r.2).run ((List.range 47).map (· % 2))).map
      (fun p => (p.threads.map (HM.writesTo p.heap), p.threads.map HM.touches)) = .ok ([some 5, none], [some 5, some 2]) := by
  decide +kernel

/-- After any number of times at which vectors were handed out to threads, a node is in memory exactly if a vector refers to
it or to a node above it, and its count is the number of references to it. -/
theorem C56_memory {h : Heap α} {st : List HVec} (f : ForkJoin h st) (a : Addr) :
    ((∃ c, h.cell a = some c) ↔ Reached h st a) ∧ ∀ c, h.cell a = some c → c.count = references h st a ∧ 1 ≤ c.count := by
  obtain ⟨ls, r⟩ := f.ready
  exact r.memory a

/-- The threads end well if the second one leaves its last call out; then all is put together, and ended. -/
def jobs3 (st : List HVec) : List (Job Nat) := (jobs2 st).map fun j => { j with prog := j.prog.take 6 }

/-- The lent vector, two vectors from the first thread, and one from the second one. -/
def joined : M (List HVec × Heap Nat) := do
  let r ← runHeap sharing3 [] Heap.empty
  let p ← (Pool.start (r.1.2.take 1) (jobs3 r.1.2) r.2).run ((List.range 300).map (· % 2))
  .ok (r.1.2.take 1 ++ p.threads.flatMap fun x => match x.ended with | some (.ok r) => r.2.drop 1 | _ => [], p.heap)

theorem joined_forkJoin : ∃ st h, joined = .ok (st, h) ∧ ForkJoin h st := by
  obtain ⟨as, st, h, e, f, hp, hf⟩ := shared
  have hp3 : (st.take 1 ++ (jobs3 st).flatMap Job.vars).Perm st := hp
  have hf3 : Legal (st.take 1) (jobs3 st) := by
    intro j hj c hc
    obtain ⟨k, hk, rfl⟩ := List.mem_map.1 hj
    exact hf k hk c (List.mem_of_mem_take hc)
  have e0 : (runHeap sharing3 [] Heap.empty >>= fun r => (Pool.start (r.1.2.take 1) (jobs3 r.1.2) r.2).run ((List.range 300).map (· % 2))).map
      (fun p => p.threads.map fun x => match x.ended with | some (.ok _) => true | _ => false) = .ok [true, true] := by
    decide +kernel
  have el : (runHeap sharing3 [] Heap.empty).map (fun r => r.1.2.length) = .ok 3 := by decide +kernel
  rw [e] at e0 el
  have hl : st.length = 3 := Except.ok.inj el
  obtain ⟨lls, qs, -, -, hall⟩ := C56_threads f hp3 hf3
  obtain ⟨p, ep, -, hx⟩ := hall ((List.range 300).map (· % 2))
  refine ⟨_, _, by simp only [joined, e, ep, ok_bind]; rfl, f.threads hp3 hf3 ep (left := p.threads.map fun x =>
    match x.ended with | some (.ok r) => r.2.drop 1 | _ => []) ?_ (by rw [List.flatMap])⟩
  rw [ok_bind, ep] at e0
  have e1 : p.threads.map (fun x => match x.ended with | some (.ok _) => true | _ => false) = [true, true] := by
    injection e0
  rw [List.forall₂_map_right_iff, List.forall₂_same]
  intro x hm
  have : (match x.ended with | some (.ok _) => true | _ => false) = true := by
    have := List.mem_map_of_mem (f := fun x : HM Nat _ => match x.ended with | some (.ok _) => true | _ => false) hm
    rw [e1] at this
    simpa using this
  obtain ⟨i, hi, rfl⟩ := List.getElem_of_mem hm
  have hx := List.forall₂_iff_get.1 hx
  have hx := hx.2 i hi (by rw [← hx.1]; exact hi)
  simp only [List.get_eq_getElem] at hx
  cases hr : p.threads[i].ended with
  | none => rw [hr] at this; cases this
  | some r =>
    cases r with
    | error f => rw [hr] at this; cases this
    | ok r =>
      obtain ⟨rest, h2⟩ := (hx _ hr).2 r.1 r.2 rfl
      refine ⟨r.1, ?_⟩
      dsimp only
      rw [← h2, List.drop_append_of_le_length (by simp [hl]), List.drop_of_length_le (by simp), List.nil_append, h2]

/-- Only one node is shared then, as the threads have written elsewhere; when all vectors have ended, no node is left. -/
example : joined.map (fun r => (r.1.map VecOf.entries, r.2.cells.map fun c => (c.map RcBox.count).getD 0)) =
      .ok ([[2, 4, 1], [17], [13, 12, 15], [6, 14, 11]], [1, 1, 1, 2, 1, 1, 1, 0, 1, 1, 0, 1, 1, 1, 1, 1, 1, 1]) ∧
    (joined >>= fun r => runHeap [.drop 0, .drop 0, .drop 0, .drop 0] r.1 r.2).map (fun r => r.2.cells.all Option.isNone) =
      .ok true :=
  ⟨by decide +kernel, by decide +kernel⟩

end Librrb
