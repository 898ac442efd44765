import Verif.Proof.HeapEdit
import Verif.Proof.HeapJoin
import Verif.Proof.HeapFocus

/-!
# A program on reference-counted nodes does what it does on plain trees
-/
namespace Librrb

open VecOf

/-- The variables hold entries of trees in the heap, and each tree is the one that the model without a heap has. The
counts in the heap are exact. -/
def Mirrors (h : Heap α) (st : List HVec) (vs : List (RVec α)) : Prop :=
  ∃ ps : List (VecOf (Addr × Node α)), st = ps.map VecOf.addrs ∧ vs = ps.map VecOf.nodes ∧
    World h (ps.map VecOf.owned).sum

/-- What a call leaves: the vector and the further ones. -/
def Left (g : Answer α × HVec × List HVec) (d : Answer α × RVec α × List (RVec α)) (L : Ctx α) : Prop :=
  g.1 = d.1 ∧ ∃ (p : VecOf (Addr × Node α)) (ps : List (VecOf (Addr × Node α))), g.2.1 = p.addrs ∧ d.2.1 = p.nodes ∧
    g.2.2 = ps.map VecOf.addrs ∧ d.2.2 = ps.map VecOf.nodes ∧ L = p.owned + (ps.map VecOf.owned).sum

theorem Left.one {a : Answer α} (p : VecOf (Addr × Node α)) : Left (a, p.addrs, []) (a, p.nodes, []) p.owned :=
  ⟨rfl, p, [], rfl, rfl, rfl, rfl, by simp⟩

theorem Left.two {a : Answer α} (p q : VecOf (Addr × Node α)) :
    Left (a, p.addrs, [q.addrs]) (a, p.nodes, [q.nodes]) (p.owned + q.owned) :=
  ⟨rfl, p, [q], rfl, rfl, rfl, rfl, by simp⟩

/-- What a call of a program leaves: the variables. -/
def Held (g : Answer α × List HVec) (d : Answer α × List (RVec α)) (L : Ctx α) : Prop :=
  g.1 = d.1 ∧ ∃ ps : List (VecOf (Addr × Node α)), g.2 = ps.map VecOf.addrs ∧ d.2 = ps.map VecOf.nodes ∧
    L = (ps.map VecOf.owned).sum

theorem runAll_reads {h : Heap α} {R : σ → τ → Prop} {step : ι → σ → HM α (β × σ)} {step' : ι → τ → M (β × τ)}
    (hs : ∀ o a b, R a b → Reads h (step o a) (step' o b) fun x y => x.1 = y.1 ∧ R x.2 y.2) :
    ∀ (os : List ι) {a : σ} {b : τ}, R a b →
      Reads h (hrunAll step os a) (runAll step' os b) fun x y => x.1 = y.1 ∧ R x.2 y.2
  | [], a, b, r => Reads.pure ⟨rfl, r⟩
  | o :: os, a, b, r => by
    unfold hrunAll runAll
    refine Reads.bind (hs o a b r) fun x y q => ?_
    refine Reads.bind (runAll_reads hs os q.2) fun x' y' q' => ?_
    exact Reads.pure ⟨by rw [q.1, q'.1], q'.2⟩

theorem intoIter_sim : ∀ (script : List Side) (p : VecOf (Addr × Node α)),
    Sim (hrunAll HVec.intoIterStep script p.addrs) (runScript RVec.intoIterStep script p.nodes) p.owned fun g d L =>
      g.1 = d.1 ∧ Both g.2 d.2 L
  | [], p => Sim.pure ⟨rfl, p, rfl, rfl, rfl⟩
  | s :: script, p => by
    unfold hrunAll runScript
    have h1 : Sim (HVec.intoIterStep s p.addrs) (RVec.intoIterStep s p.nodes) p.owned fun g d L =>
        g.1 = d.1 ∧ Both g.2 d.2 L := by
      cases s
      · exact HVec.popSide_sim p .front
      · exact HVec.popSide_sim p .back
    refine Sim.ctx (add_zero _).symm (Sim.bind h1 fun g d A' q => ?_)
    obtain ⟨g1, g2⟩ := g
    obtain ⟨d1, d2⟩ := d
    obtain ⟨rfl, p, rfl, rfl, rfl⟩ := q
    refine Sim.bind (intoIter_sim script p) fun g d A' q => ?_
    obtain ⟨g1, g2⟩ := g
    obtain ⟨d1, d2⟩ := d
    obtain ⟨rfl, p, rfl, rfl, rfl⟩ := q
    exact Sim.ctx (add_zero _) (Sim.pure ⟨rfl, p, rfl, rfl, rfl⟩)

theorem Sim.of_nav {x : HM α γ} {y : M δ} {L : Ctx α} {Q : γ → δ → Ctx α → Prop} {E : Addr → Prop}
    (hn : ∀ s : St α, Own s L → Nav E s x y fun h' g d => ∃ L', Q g d L' ∧ Own h' L') : Sim x y L Q := by
  refine ⟨fun d e h F w => ?_, fun e he hu h F w => ?_⟩
  · refine ((hn ⟨h, L⟩ ⟨rfl, F, w⟩).ok d e ⟨F, w⟩).mono fun r L1 h1 q => ?_
    obtain ⟨g, s', rfl, rfl, -, -, -, L', q, o⟩ := q
    rw [o.ctx]
    exact ⟨g, rfl, q⟩
  · exact (hn ⟨h, L⟩ ⟨rfl, F, w⟩).err e he hu ⟨F, w⟩

theorem Own.nil {h : St α} {L : Ctx α} (w : Own h L) : Own h (L + 0) := by rw [add_zero]; exact w

theorem act_sim (p : VecOf (Addr × Node α)) (hf : ∃ d, p.nodes.cells.focusMut = .ok d) (a : Act α) : Sim (a.hrun p.addrs) (a.run p.nodes) p.owned Left := by
  have vec : ∀ {x : HM α HVec} {y : M (RVec α)}, Sim x y p.owned Both →
      Sim (x >>= fun v => pure (Answer.none, v, [])) (y >>= fun v => .ok (Answer.none, v, [])) p.owned Left := by
    intro x y hs
    refine Sim.ctx (add_zero _).symm (Sim.bind hs fun g d A' q => ?_)
    obtain ⟨p, rfl, rfl, rfl⟩ := q
    exact Sim.ctx (add_zero _) (Sim.pure (.one p))
  have item : ∀ {x : HM α (Option α)} {y : M (Option α)}, Sim x y p.owned (fun g d L' => g = d ∧ L' = p.owned) →
      Sim (x >>= fun r => pure (Answer.item r, p.addrs, [])) (y >>= fun r => .ok (Answer.item r, p.nodes, [])) p.owned Left := by
    intro x y hs
    refine Sim.ctx (add_zero _).symm (Sim.bind hs fun g d A' q => ?_)
    obtain ⟨rfl, rfl⟩ := q
    exact Sim.ctx (add_zero _) (Sim.pure (.one p))
  have pop : ∀ {x : HM α (Option α × HVec)} {y : M (Option α × RVec α)},
      Sim x y p.owned (fun g d L' => g.1 = d.1 ∧ Both g.2 d.2 L') →
      Sim (x >>= fun r => pure (Answer.item r.1, r.2, [])) (y >>= fun r => .ok (Answer.item r.1, r.2, [])) p.owned Left := by
    intro x y hs
    refine Sim.ctx (add_zero _).symm (Sim.bind hs fun g d A' q => ?_)
    obtain ⟨g1, g2⟩ := g
    obtain ⟨d1, d2⟩ := d
    obtain ⟨rfl, p, rfl, rfl, rfl⟩ := q
    exact Sim.ctx (add_zero _) (Sim.pure (.one p))
  have two : ∀ {x : HM α (HVec × HVec)} {y : M (RVec α × RVec α)}, Sim x y p.owned HVec.Both2 →
      Sim (x >>= fun r => pure (Answer.none, r.1, [r.2])) (y >>= fun r => .ok (Answer.none, r.1, [r.2])) p.owned Left := by
    intro x y hs
    refine Sim.ctx (add_zero _).symm (Sim.bind hs fun g d A' q => ?_)
    obtain ⟨a, b, rfl, rfl, rfl⟩ := q
    exact Sim.ctx (add_zero _) (Sim.pure (.two a b))
  have asg : ∀ {x : HM α (Bool × HVec)} {y : M (Option (RVec α))},
      Sim x y p.owned (fun g d L' => g.1 = d.isSome ∧ Both g.2 (d.getD p.nodes) L') →
      Sim (x >>= fun r => pure (Answer.flag r.1, r.2, [])) (y >>= fun r => .ok (assigned p.nodes r)) p.owned Left := by
    intro x y hs
    refine Sim.ctx (add_zero _).symm (Sim.bind hs fun g d A' q => ?_)
    obtain ⟨g1, g2⟩ := g
    obtain ⟨q1, q⟩ := q
    cases d with
    | none =>
      obtain ⟨p', rfl, e, rfl⟩ := q
      cases q1
      refine Sim.ctx (add_zero _) (Sim.pure ⟨rfl, p', [], rfl, e, rfl, rfl, by simp⟩)
    | some d =>
      obtain ⟨p', rfl, e, rfl⟩ := q
      cases q1
      refine Sim.ctx (add_zero _) (Sim.pure ⟨rfl, p', [], rfl, e, rfl, rfl, by simp⟩)
  have still : ∀ {x : HM α (Answer α × HVec × List HVec)} {y : M (Answer α × RVec α × List (RVec α))},
      (∀ h, SameVec h p.addrs p.nodes → Reads h x y fun g d => ∃ a : Answer α, g = (a, p.addrs, []) ∧ d = (a, p.nodes, [])) →
      Sim x y p.owned Left := by
    intro x y hr
    refine Sim.reads (fun h hd => hr h ⟨p, rfl, rfl, fun x hx => hd x.1 x.2 ?_⟩) fun g d q => ?_
    · rw [← VecOf.own_entries]; exact mem_own.2 hx
    · obtain ⟨a, rfl, rfl⟩ := q
      exact .one p
  have nav : ∀ {x : HM α HVec} {y : M (RVec α)}, (∀ h : St α, Own h (p.owned + 0) → Nav (Ctx.starts (0 : Ctx α)) h x y (VecLeft 0)) →
      Sim x y p.owned Both := by
    intro x y hn
    refine Sim.of_nav fun h w => (hn h w.nil).mono fun h' a b _ q => ?_
    obtain ⟨p', e1, e2, w'⟩ := q
    rw [add_zero] at w'
    exact ⟨p'.owned, ⟨p', e1, e2.symm, rfl⟩, w'⟩
  have nav' : ∀ {x : HM α (Answer α × HVec × List HVec)} {y : M (Answer α × RVec α × List (RVec α))},
      (∀ h : St α, Own h (p.owned + 0) → Nav (Ctx.starts (0 : Ctx α)) h x y fun h' g d => ∃ L', Left g d L' ∧ Own h' L') →
      Sim x y p.owned Left := fun hn => Sim.of_nav fun h w => hn h w.nil
  have leftBy : ∀ (h : St α) a b, LeftBy 0 h a b →
      ∃ L', Left (Answer.items a.1, a.2, []) (Answer.items b.1, b.2, []) L' ∧ Own h L' := by
    intro h a b q
    obtain ⟨a1, a2⟩ := a
    obtain ⟨b1, b2⟩ := b
    obtain ⟨rfl, p', rfl, rfl, w'⟩ := q
    rw [add_zero] at w'
    exact ⟨p'.owned, .one p', w'⟩
  cases a with
  | len => exact Sim.pure (.one p)
  | isEmpty => exact Sim.pure (.one p)
  | get i => exact item (HVec.get_sim p i)
  | front => exact item (HVec.frontBack_sim p .front)
  | back => exact item (HVec.frontBack_sim p .back)
  | iterate script =>
    refine still fun h hs => ?_
    refine Reads.bind (HVIter.new_reads hs) fun g d q => ?_
    refine Reads.bind (HVIter.run_reads script q) fun g d q => ?_
    rw [q.1]
    exact Reads.pure ⟨_, rfl, rfl⟩
  | set i x => exact asg (HVec.set_sim p i x)
  | setEnd s x => exact asg (HVec.setFrontBack_sim p s x)
  | pushBack x => exact vec (HVec.pushBack_sim p x)
  | pushFront x => exact vec (HVec.pushFront_sim p x)
  | popBack => exact pop (HVec.popSide_sim p .back)
  | popFront => exact pop (HVec.popSide_sim p .front)
  | splitOff i => exact two (HVec.splitOff_sim p i)
  | sliceFromStart n => exact vec (HVec.sliceFromStart_sim p n)
  | sliceToEnd n => exact vec (HVec.sliceToEnd_sim p n)
  | extractSlice sb eb => exact two (HVec.extractSlice_sim p sb eb)
  | insert i x => exact vec (HVec.insert_sim p i x)
  | remove i => exact pop (HVec.remove_sim p i)
  | reverseRange sb eb => exact vec (nav fun h w => hreverseRange_nav w hf sb eb)
  | sortRange cmp _ draws sb eb => exact vec (nav fun h w => hsortRangeBy_nav w hf cmp sb eb _ _)
  | focusRead is =>
    refine still fun h hs => ?_
    refine Reads.bind (HFocus.new_reads hs) fun g d q => ?_
    refine Reads.bind (runAll_reads (step := fun i f => HFocus.get f i) (step' := fun i f => Focus.get f i)
      (fun i a b r => HFocus.get_reads r i) is q) fun g d q => ?_
    rw [q.1]
    exact Reads.pure ⟨_, rfl, rfl⟩
  | mapEnds g script =>
    exact nav' fun h w => mapEnds_nav w hf g script (k := fun r => (Answer.items r.1, r.2, []))
      (k' := fun r => (Answer.items r.1, r.2, [])) leftBy
  | editFocus ops =>
    exact nav' fun h w => editFocus_nav w hf ops (k := fun r => (Answer.items r.1, r.2, []))
      (k' := fun r => (Answer.items r.1, r.2, [])) leftBy
  | shareFocus ops =>
    exact nav' fun h w => shareFocus_nav w hf ops (k := fun r => (Answer.items r.1, r.2, []))
      (k' := fun r => (Answer.items r.1, r.2, [])) leftBy

/-! ### Calls of a program -/

theorem sum_at {ι : Type} {f : ι → Ctx α} : ∀ {ps : List ι} {i : Nat} {p : ι}, ps[i]? = some p →
    (ps.map f).sum = f p + ((ps.eraseIdx i).map f).sum ∧
      ∀ q, ((ps.set i q).map f).sum = f q + ((ps.eraseIdx i).map f).sum
  | [], i, p, e => by simp at e
  | x :: ps, 0, p, e => by cases e; simp
  | x :: ps, i + 1, p, e => by
    obtain ⟨h1, h2⟩ := sum_at (f := f) (ps := ps) (i := i) (p := p) (by simpa using e)
    refine ⟨?_, fun q => ?_⟩
    · simp only [List.map_cons, List.sum_cons, List.eraseIdx_cons_succ, h1]
      exact add_left_comm _ _ _
    · simp only [List.map_cons, List.sum_cons, List.eraseIdx_cons_succ, List.set_cons_succ, h2]
      exact add_left_comm _ _ _

theorem sum_at2 {ι : Type} {f : ι → Ctx α} {ps : List ι} {i j : Nat} {p q : ι} (hij : i ≠ j) (e1 : ps[i]? = some p)
    (e2 : ps[j]? = some q) : ∃ R, (ps.map f).sum = f p + f q + R ∧
      ∀ p' q', (((ps.set i p').set j q').map f).sum = f p' + f q' + R := by
  obtain ⟨h1, h2⟩ := sum_at (f := f) e1
  have e3 : (ps.eraseIdx i)[if j < i then j else j - 1]? = some q := by
    rw [List.getElem?_eraseIdx]
    by_cases hj : j < i
    · rw [if_pos hj, if_pos hj, e2]
    · rw [if_neg hj, if_neg (by omega), show j - 1 + 1 = j by omega, e2]
  obtain ⟨k1, -⟩ := sum_at (f := f) e3
  refine ⟨_, by rw [h1, k1, add_assoc], fun p' q' => ?_⟩
  have e4 : (ps.set i p')[j]? = some q := by rw [List.getElem?_set_ne hij, e2]
  obtain ⟨m1, m2⟩ := sum_at (f := f) e4
  rw [h2 p', k1, add_left_comm] at m1
  rw [m2 q', ← add_left_cancel m1, add_left_comm, add_assoc]

theorem call_sim (ps : List (VecOf (Addr × Node α))) (hf : ∀ p ∈ ps, ∃ d, p.nodes.cells.focusMut = .ok d) (c : Call α) :
    Sim (c.hrun (ps.map VecOf.addrs)) (c.run (ps.map VecOf.nodes)) (ps.map VecOf.owned).sum Held := by
  have stay : Sim (pure (Answer.none, ps.map VecOf.addrs) : HM α (Answer α × List HVec))
      (.ok (Answer.none, ps.map VecOf.nodes)) (ps.map VecOf.owned).sum Held := Sim.pure ⟨rfl, ps, rfl, rfl, rfl⟩
  have gA : ∀ i : Nat, (ps.map VecOf.addrs)[i]? = (ps[i]?).map VecOf.addrs := fun i => by simp
  have gN : ∀ i : Nat, (ps.map VecOf.nodes)[i]? = (ps[i]?).map VecOf.nodes := fun i => by simp
  have hset : ∀ u v : Nat, (((ps.map VecOf.nodes).set u RVec.new)[v]?) =
      if u = v then ps[v]?.map (fun _ => RVec.new) else ps[v]?.map VecOf.nodes := by
    intro u v
    rw [List.getElem?_set]
    by_cases huv : u = v
    · rw [if_pos huv, if_pos huv]
      subst huv
      by_cases hl : u < ps.length
      · rw [if_pos (by simpa using hl), List.getElem?_eq_getElem hl]; rfl
      · rw [if_neg (by simpa using hl), List.getElem?_eq_none (by omega)]; rfl
    · rw [if_neg huv, if_neg huv, gN]
  have push : ∀ {x : HM α HVec} {y : M (RVec α)}, Sim x y 0 Both →
      Sim (x >>= fun v => pure (Answer.none, ps.map VecOf.addrs ++ [v])) (y >>= fun v => .ok (Answer.none, ps.map VecOf.nodes ++ [v]))
        (ps.map VecOf.owned).sum Held := by
    intro x y hs
    refine Sim.ctx (zero_add _).symm (Sim.bind hs fun g d A' q => ?_)
    obtain ⟨p, rfl, rfl, rfl⟩ := q
    exact Sim.pure ⟨rfl, ps ++ [p], by simp, by simp, by simp [add_comm]⟩
  cases c with
  | new => exact push (y := .ok RVec.new) ⟨fun d e => (by cases e; exact HVec.new_sim), fun e he => (by cases he)⟩
  | singleton x => exact push (HVec.singleton_sim x)
  | collect items => exact push (HVec.fromIter_sim items)
  | constant x n => exact push (HVec.constantVec_sim x n)
  | clone v =>
    simp only [Call.run, Call.hrun]
    rw [gN, gA]
    cases ev : ps[v]? with
    | none => simp only [Option.map_none, Option.toList_none, List.append_nil]; exact stay
    | some p =>
      obtain ⟨s1, -⟩ := sum_at (f := VecOf.owned) ev
      refine Sim.ctx s1 (Sim.step (HVec.clone_sim p) fun g A' n => ?_)
      obtain ⟨rfl, rfl⟩ := n
      refine Sim.pure ⟨rfl, ps ++ [p], by simp, by simp, ?_⟩
      rw [List.map_append, List.sum_append, s1]
      simp only [List.map_cons, List.map_nil, List.sum_cons, List.sum_nil, add_zero]
      abel
  | act v a =>
    simp only [Call.run, Call.hrun]
    rw [gN, gA]
    cases ev : ps[v]? with
    | none => exact stay
    | some p =>
      obtain ⟨s1, s2⟩ := sum_at (f := VecOf.owned) ev
      refine Sim.ctx s1 (Sim.bind (act_sim p (hf _ (List.mem_of_getElem? ev)) a) fun g d A' n => ?_)
      obtain ⟨g1, g2, g3⟩ := g
      obtain ⟨d1, d2, d3⟩ := d
      obtain ⟨rfl, q, qs, rfl, rfl, rfl, rfl, rfl⟩ := n
      refine Sim.pure ⟨rfl, ps.set v q ++ qs, ?_, ?_, ?_⟩
      · rw [List.map_append, List.map_set]
      · rw [List.map_append, List.map_set]
      · rw [List.map_append, List.sum_append, s2]
        abel
  | append v u =>
    simp only [Call.run, Call.hrun]
    rw [hset, gN, gA, gA]
    cases ev : ps[v]? with
    | none => simp only [Option.map_none, ite_self]; exact stay
    | some p =>
      cases eu : ps[u]? with
      | none =>
        have huv : u ≠ v := by rintro rfl; rw [ev] at eu; cases eu
        rw [if_neg huv]
        exact stay
      | some q =>
        simp only [Option.map_some]
        refine Sim.ctx (zero_add _).symm (Sim.step HVec.new_sim fun g A' n => ?_)
        obtain ⟨o, rfl, o1, rfl⟩ := n
        by_cases huv : u = v
        · subst huv
          obtain rfl : p = q := by rw [ev] at eu; cases eu; rfl
          rw [if_pos rfl, if_pos rfl]
          obtain ⟨s1, s2⟩ := sum_at (f := VecOf.owned) ev
          rw [o1]
          refine Sim.ctx (by rw [s1, ← add_assoc]) (Sim.bind (HVec.append_sim o p) fun g d A' n => ?_)
          obtain ⟨r, rfl, rfl, rfl⟩ := n
          refine Sim.pure ⟨rfl, ps.set u r, ?_, ?_, (s2 r).symm⟩
          · simp only [List.set_set, List.map_set]
          · simp only [List.set_set, List.map_set]
        · rw [if_neg huv, if_neg (Ne.symm huv)]
          obtain ⟨R, s1, s2⟩ := sum_at2 (f := VecOf.owned) (Ne.symm huv) ev eu
          refine Sim.ctx (L' := (p.owned + q.owned) + (o.owned + R)) (by rw [s1]; abel) (Sim.bind (HVec.append_sim p q) fun g d A' n => ?_)
          obtain ⟨r, rfl, rfl, rfl⟩ := n
          refine Sim.pure ⟨rfl, (ps.set v r).set u o, ?_, ?_, by rw [s2, add_assoc]⟩
          · rw [List.set_comm _ _ (Ne.symm huv), List.map_set, List.map_set]
          · simp only [List.map_set]; rw [← o1, List.set_comm _ _ huv]
  | prepend v u =>
    simp only [Call.run, Call.hrun]
    rw [hset, gN, gA, gA]
    cases ev : ps[v]? with
    | none => simp only [Option.map_none, ite_self]; exact stay
    | some p =>
      cases eu : ps[u]? with
      | none =>
        have huv : u ≠ v := by rintro rfl; rw [ev] at eu; cases eu
        rw [if_neg huv]
        exact stay
      | some q =>
        simp only [Option.map_some]
        refine Sim.ctx (zero_add _).symm (Sim.step HVec.new_sim fun g A' n => ?_)
        obtain ⟨o, rfl, o1, rfl⟩ := n
        by_cases huv : u = v
        · subst huv
          obtain rfl : p = q := by rw [ev] at eu; cases eu; rfl
          rw [if_pos rfl, if_pos rfl]
          obtain ⟨s1, s2⟩ := sum_at (f := VecOf.owned) ev
          rw [o1]
          refine Sim.ctx (by rw [s1, ← add_assoc]; rw [add_comm o.owned]) (Sim.bind (HVec.append_sim p o) fun g d A' n => ?_)
          obtain ⟨r, rfl, rfl, rfl⟩ := n
          refine Sim.pure ⟨rfl, ps.set u r, ?_, ?_, (s2 r).symm⟩
          · simp only [List.set_set, List.map_set]
          · simp only [List.set_set, List.map_set]
        · rw [if_neg huv, if_neg (Ne.symm huv)]
          obtain ⟨R, s1, s2⟩ := sum_at2 (f := VecOf.owned) (Ne.symm huv) ev eu
          refine Sim.ctx (L' := (q.owned + p.owned) + (o.owned + R)) (by rw [s1]; abel) (Sim.bind (HVec.append_sim q p) fun g d A' n => ?_)
          obtain ⟨r, rfl, rfl, rfl⟩ := n
          refine Sim.pure ⟨rfl, (ps.set v r).set u o, ?_, ?_, by rw [s2, add_assoc]⟩
          · rw [List.set_comm _ _ (Ne.symm huv), List.map_set, List.map_set]
          · simp only [List.map_set]; rw [← o1, List.set_comm _ _ huv]
  | compare cmp v u =>
    simp only [Call.run, Call.hrun]
    rw [gN, gN, gA, gA]
    cases ev : ps[v]? with
    | none => exact stay
    | some p =>
      cases eu : ps[u]? with
      | none => exact stay
      | some q =>
        simp only [Option.map_some]
        have mem : ∀ {i : Nat} {p : VecOf (Addr × Node α)}, ps[i]? = some p → ∀ x ∈ p.entries,
            (x.1, some x.2) ∈ (ps.map VecOf.owned).sum := by
          intro i p e x hx
          rw [(sum_at (f := VecOf.owned) e).1, ← VecOf.own_entries]
          exact Multiset.mem_add.2 (.inl (mem_own.2 hx))
        refine Sim.reads (Q0 := fun g d => ∃ a : Answer α, g = (a, ps.map VecOf.addrs) ∧ d = (a, ps.map VecOf.nodes)) (fun h hd => ?_)
          fun g d n => ?_
        · refine Reads.bind (HVec.cmpVec_reads cmp ⟨p, rfl, rfl, fun x hx => hd x.1 x.2 (mem ev x hx)⟩
            ⟨q, rfl, rfl, fun x hx => hd x.1 x.2 (mem eu x hx)⟩) fun g d n => ?_
          subst n
          exact Reads.pure ⟨_, rfl, rfl⟩
        · obtain ⟨a, rfl, rfl⟩ := n
          exact ⟨rfl, ps, rfl, rfl, rfl⟩
  | drop v =>
    simp only [Call.run, Call.hrun]
    rw [gA]
    cases ev : ps[v]? with
    | none =>
      have he : (ps.map VecOf.nodes).eraseIdx v = ps.map VecOf.nodes := List.eraseIdx_of_length_le (by simpa using ev)
      rw [he]
      exact stay
    | some p =>
      obtain ⟨s1, -⟩ := sum_at (f := VecOf.owned) ev
      refine Sim.ctx s1 (Sim.step (HVec.drop_spec p) fun g A' n => ?_)
      subst n
      exact Sim.ctx (zero_add _) (Sim.pure ⟨rfl, ps.eraseIdx v, List.eraseIdx_map .., List.eraseIdx_map .., rfl⟩)
  | intoIter v script =>
    simp only [Call.run, Call.hrun]
    rw [gN, gA]
    cases ev : ps[v]? with
    | none => exact stay
    | some p =>
      obtain ⟨s1, -⟩ := sum_at (f := VecOf.owned) ev
      refine Sim.ctx s1 (Sim.bind (intoIter_sim script p) fun g d A' n => ?_)
      obtain ⟨g1, g2⟩ := g
      obtain ⟨d1, d2⟩ := d
      obtain ⟨rfl, r, rfl, rfl, rfl⟩ := n
      refine Sim.step (HVec.drop_spec r) fun g A' n => ?_
      subst n
      exact Sim.ctx (zero_add _) (Sim.pure ⟨rfl, ps.eraseIdx v, List.eraseIdx_map .., List.eraseIdx_map .., rfl⟩)
  | dualSort cmp total draws sb eb v u =>
    simp only [Call.run, Call.hrun]
    by_cases hvu : v = u
    · rw [if_pos hvu, if_pos hvu]; exact stay
    rw [if_neg hvu, if_neg hvu]
    rw [gN, gN, gA, gA]
    cases ev : ps[v]? with
    | none => exact stay
    | some p =>
      cases eu : ps[u]? with
      | none => exact stay
      | some q =>
        simp only [Option.map_some]
        obtain ⟨R, s1, s2⟩ := sum_at2 (f := VecOf.owned) hvu ev eu
        have hs : Sim (p.addrs.dualSortRangeBy q.addrs cmp sb eb (fun n : Nat => (draws n, n + 1)) 0)
            (p.nodes.dualSortRangeBy q.nodes cmp sb eb (fun n : Nat => (draws n, n + 1)) 0) (p.owned + q.owned) HVec.Both2 := by
          refine Sim.of_nav fun h w => (hdualSortRangeBy_nav w.nil (hf _ (List.mem_of_getElem? ev))
            (hf _ (List.mem_of_getElem? eu)) cmp sb eb _ _).mono fun h' a b _ n => ?_
          obtain ⟨p', q', rfl, n1, n2, w'⟩ := n
          rw [add_zero] at w'
          exact ⟨_, ⟨p', q', rfl, by rw [n1, n2], rfl⟩, w'⟩
        refine Sim.ctx s1 (Sim.bind hs fun g d A' n => ?_)
        obtain ⟨p', q', rfl, rfl, rfl⟩ := n
        refine Sim.pure ⟨rfl, (ps.set v p').set u q', ?_, ?_, (s2 p' q').symm⟩
        · rw [List.map_set, List.map_set]
        · rw [List.map_set, List.map_set]

theorem call_mirrors {h : Heap α} {st : List HVec} {vs : List (RVec α)} (m : Mirrors h st vs)
    (hf : ∀ v ∈ vs, ∃ d, v.cells.focusMut = .ok d) (c : Call α) {a : Answer α}
    {vs' : List (RVec α)} (e : c.run vs = .ok (a, vs')) :
    ∃ st' h', c.hrun st h = .ok ((a, st'), h') ∧ Mirrors h' st' vs' := by
  obtain ⟨ps, rfl, rfl, w⟩ := m
  rw [← add_zero (ps.map VecOf.owned).sum] at w
  obtain ⟨⟨g1, g2⟩, h', L', k, ⟨rfl, qs, rfl, q2, rfl⟩, w'⟩ :=
    ((call_sim ps (fun p hp => hf _ (List.mem_map_of_mem hp)) c).ok _ e).seq h 0 w
  rw [add_zero] at w'
  exact ⟨_, h', k, qs, rfl, q2, w'⟩

/-- A call that fails on plain trees fails on the heap, and in the same way. -/
theorem call_fails {h : Heap α} {st : List HVec} {vs : List (RVec α)} (m : Mirrors h st vs)
    (hf : ∀ v ∈ vs, ∃ d, v.cells.focusMut = .ok d) (c : Call α) {f : Fault} (e : c.run vs = .error f) (hu : f ≠ .ub) :
    c.hrun st h = .error f := by
  obtain ⟨ps, rfl, rfl, w⟩ := m
  rw [← add_zero (ps.map VecOf.owned).sum] at w
  exact ((call_sim ps (fun p hp => hf _ (List.mem_map_of_mem hp)) c).err f e hu).seq h 0 w

end Librrb
