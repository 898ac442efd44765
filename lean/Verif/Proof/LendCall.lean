import Verif.Proof.HeapLend
import Verif.Proof.HeapGarbage
import Verif.ThreadSpec

/-!
# Calls of a thread to which vectors are lent
-/
namespace Librrb

open VecOf

theorem HVec.frontBack_reads {h : Heap α} {g : HVec} {d : RVec α} (hs : SameVec h g d) (s : Side) :
    Reads h (g.frontBack s) (d.frontBack s) Eq := by
  obtain ⟨p, rfl, rfl, hp⟩ := hs
  unfold frontBack RVec.frontBack
  rw [addrs_leafNode, nodes_leafNode]
  refine Reads.load (hp (p.leafNode s) (mem_own.1 (by rw [own_entries]; exact mem_leaf p s))) fun P hP _ => ?_
  rw [hP]
  cases P with
  | leaf b => cases s <;> exact Reads.last
  | internal t g c => exact Reads.error

theorem act_reads {h : Heap α} {p : VecOf (Addr × Node α)} (hs : SameVec h p.addrs p.nodes) {a : Act α} (ha : a.ReadOnly) :
    Reads h (a.hrun p.addrs) (a.run p.nodes) fun g d => ∃ r : Answer α, g = (r, p.addrs, []) ∧ d = (r, p.nodes, []) := by
  have item : ∀ {x : HM α (Option α)} {y : M (Option α)}, Reads h x y Eq →
      Reads h (x >>= fun r => pure (Answer.item r, p.addrs, ([] : List HVec)))
        (y >>= fun r => .ok (Answer.item r, p.nodes, ([] : List (RVec α)))) fun g d => ∃ r : Answer α, g = (r, p.addrs, []) ∧ d = (r, p.nodes, []) := by
    intro x y hr
    refine Reads.bind hr fun g d q => ?_
    subst q
    exact Reads.pure ⟨_, rfl, rfl⟩
  cases a with
  | len => exact Reads.pure ⟨_, rfl, rfl⟩
  | isEmpty => exact Reads.pure ⟨_, rfl, rfl⟩
  | get i => exact item (HVec.get_reads hs i)
  | front => exact item (HVec.frontBack_reads hs .front)
  | back => exact item (HVec.frontBack_reads hs .back)
  | iterate script =>
    refine Reads.bind (HVIter.new_reads hs) fun g d q => ?_
    refine Reads.bind (HVIter.run_reads script q) fun g d q => ?_
    rw [q.1]
    exact Reads.pure ⟨_, rfl, rfl⟩
  | focusRead is =>
    refine Reads.bind (HFocus.new_reads hs) fun g d q => ?_
    refine Reads.bind (runAll_reads (step := fun i f => HFocus.get f i) (step' := fun i f => Focus.get f i)
      (fun i a b r => HFocus.get_reads r i) is q) fun g d q => ?_
    rw [q.1]
    exact Reads.pure ⟨_, rfl, rfl⟩
  | _ => cases ha

/-! ### Calls on own variables only -/

/-- The call with the first `k` variables left out. -/
def Call.down (k : Nat) : Call α → Call α
  | .clone v => .clone (v - k)
  | .act v a => .act (v - k) a
  | .append v w => .append (v - k) (w - k)
  | .prepend v w => .prepend (v - k) (w - k)
  | .compare cmp v w => .compare cmp (v - k) (w - k)
  | .drop v => .drop (v - k)
  | .intoIter v script => .intoIter (v - k) script
  | .dualSort cmp t draws sb eb v w => .dualSort cmp t draws sb eb (v - k) (w - k)
  | .new => .new
  | .singleton x => .singleton x
  | .collect items => .collect items
  | .constant x n => .constant x n

/-- The call mentions none of the first `k` variables. -/
def Call.Own (k : Nat) : Call α → Prop
  | .act v _ | .clone v | .drop v | .intoIter v _ => k ≤ v
  | .append v w | .prepend v w | .dualSort _ _ _ _ _ v w | .compare _ v w => k ≤ v ∧ k ≤ w
  | .new | .singleton _ | .collect _ | .constant _ _ => True

theorem get_right {σ : Type} (ss st : List σ) {v : Nat} (h : ss.length ≤ v) : (ss ++ st)[v]? = st[v - ss.length]? :=
  List.getElem?_append_right h

theorem set_right {σ : Type} (ss st : List σ) {v : Nat} (x : σ) (h : ss.length ≤ v) :
    (ss ++ st).set v x = ss ++ st.set (v - ss.length) x := List.set_append_right _ _ h

theorem hrun_down (ss st : List HVec) (c : Call α) (hc : c.Own ss.length) :
    c.hrun (ss ++ st) = (c.down ss.length).hrun st >>= fun r => pure (r.1, ss ++ r.2) := by
  cases c with
  | new | singleton x | collect items | constant x n => simp [Call.hrun, Call.down, bind_assoc]
  | clone v | act v a =>
    simp only [Call.hrun, Call.down, get_right ss st hc]
    cases st[v - ss.length]? <;> simp [bind_assoc, set_right ss st _ hc]
  | drop v | intoIter v sc =>
    simp only [Call.hrun, Call.down, get_right ss st hc]
    cases st[v - ss.length]? <;> simp [bind_assoc, List.eraseIdx_append_of_length_le hc]
  | compare cmp v u =>
    simp only [Call.hrun, Call.down, get_right ss st hc.1, get_right ss st hc.2]
    cases st[v - ss.length]? <;> cases st[u - ss.length]? <;> simp [bind_assoc]
  | append v u | prepend v u =>
    have hvu : (v = u) = (v - ss.length = u - ss.length) := by
      obtain ⟨h1, h2⟩ := hc
      exact propext ⟨fun h => by rw [h], fun h => by omega⟩
    simp only [Call.hrun, Call.down, get_right ss st hc.1, get_right ss st hc.2, hvu, set_right ss _ _ hc.1, set_right ss _ _ hc.2]
    cases st[v - ss.length]? <;> cases st[u - ss.length]? <;> simp [bind_assoc]
  | dualSort cmp t draws sb eb v u =>
    have hvu : (v = u) = (v - ss.length = u - ss.length) := by
      obtain ⟨h1, h2⟩ := hc
      exact propext ⟨fun h => by rw [h], fun h => by omega⟩
    simp only [Call.hrun, Call.down, get_right ss st hc.1, get_right ss st hc.2, hvu, set_right ss _ _ hc.1, set_right ss _ _ hc.2]
    split
    · simp
    · cases st[v - ss.length]? <;> cases st[u - ss.length]? <;> simp [bind_assoc]

theorem run_down (ss st : List (RVec α)) (c : Call α) (hc : c.Own ss.length) :
    c.run (ss ++ st) = (c.down ss.length).run st >>= fun r => .ok (r.1, ss ++ r.2) := by
  have bb : ∀ {β γ δ : Type} (x : M β) (f : β → M γ) (g : γ → M δ), (x >>= f) >>= g = x >>= fun a => f a >>= g := by
    intro β γ δ x f g
    cases x <;> rfl
  cases c with
  | new | singleton x | collect items | constant x n => simp [Call.run, Call.down, bb, ok_bind]
  | clone v => simp [Call.run, Call.down, get_right ss st hc, ok_bind]
  | act v a =>
    simp only [Call.run, Call.down, get_right ss st hc]
    cases st[v - ss.length]? <;> simp [bb, ok_bind, set_right ss st _ hc]
  | drop v => simp [Call.run, Call.down, ok_bind, List.eraseIdx_append_of_length_le hc]
  | intoIter v sc =>
    simp only [Call.run, Call.down, get_right ss st hc]
    cases st[v - ss.length]? <;> simp [bb, ok_bind, List.eraseIdx_append_of_length_le hc]
  | compare cmp v u =>
    simp only [Call.run, Call.down, get_right ss st hc.1, get_right ss st hc.2]
    cases st[v - ss.length]? <;> cases st[u - ss.length]? <;> simp [bb, ok_bind]
  | append v u | prepend v u =>
    simp only [Call.run, Call.down, set_right ss _ _ hc.1, set_right ss _ _ hc.2, get_right ss _ hc.1, get_right ss _ hc.2]
    cases (st.set (u - ss.length) RVec.new)[v - ss.length]? <;> cases st[u - ss.length]? <;> simp [bb, ok_bind]
  | dualSort cmp t draws sb eb v u =>
    have hvu : (v = u) = (v - ss.length = u - ss.length) := by
      obtain ⟨h1, h2⟩ := hc
      exact propext ⟨fun h => by rw [h], fun h => by omega⟩
    simp only [Call.run, Call.down, get_right ss st hc.1, get_right ss st hc.2, hvu, set_right ss _ _ hc.1, set_right ss _ _ hc.2]
    split
    · simp [ok_bind]
    · cases st[v - ss.length]? <;> cases st[u - ss.length]? <;> simp [bb, ok_bind]

/-! ### Calls on lent variables too -/

/-- What a call leaves, if the vectors `ss` are lent to the thread. -/
def HeldIn (ss : List (VecOf (Addr × Node α))) (d : Answer α × List (RVec α)) (r : M (Answer α × List HVec)) (L : Ctx α) : Prop :=
  ∃ ps : List (VecOf (Addr × Node α)), r = .ok (d.1, (ss ++ ps).map VecOf.addrs) ∧ d.2 = (ss ++ ps).map VecOf.nodes ∧
    L = (ps.map VecOf.owned).sum

/-- The call does what it does on trees. -/
structure SimIn (ss ps : List (VecOf (Addr × Node α))) (x : HM α (Answer α × List HVec)) (y : M (Answer α × List (RVec α))) :
    Prop where
  ok : ∀ d, y = .ok d → ∀ h F, World h ((ps.map VecOf.owned).sum + (ss.map VecOf.owned).sum + F) →
    RunsIn (ss.map VecOf.owned).sum (fun r L _ => HeldIn ss d r L) x (ps.map VecOf.owned).sum h
  err : ∀ e, y = .error e → e ≠ .ub → ∀ h F, World h ((ps.map VecOf.owned).sum + (ss.map VecOf.owned).sum + F) →
    RunsIn (ss.map VecOf.owned).sum (fun r _ _ => r = .error e) x (ps.map VecOf.owned).sum h

theorem mem_sum {ps : List (VecOf (Addr × Node α))} {p : VecOf (Addr × Node α)} (hp : p ∈ ps) {x : Addr × Node α}
    (hx : x ∈ p.entries) : (x.1, some x.2) ∈ (ps.map VecOf.owned).sum := by
  obtain ⟨i, hi⟩ := List.mem_iff_getElem?.1 hp
  rw [(sum_at (f := VecOf.owned) hi).1, ← VecOf.own_entries]
  exact Multiset.mem_add.2 (.inl (mem_own.2 hx))

theorem SimIn.reads {ss ps : List (VecOf (Addr × Node α))} {x : HM α (Answer α × List HVec)}
    {y : M (Answer α × List (RVec α))} (hr : ∀ h, (∀ p ∈ ss ++ ps, SameVec h p.addrs p.nodes) →
      Reads h x y fun g d => ∃ a : Answer α, g = (a, (ss ++ ps).map VecOf.addrs) ∧ d = (a, (ss ++ ps).map VecOf.nodes)) :
    SimIn ss ps x y := by
  have key : ∀ h F, World h ((ps.map VecOf.owned).sum + (ss.map VecOf.owned).sum + F) →
      Reads (h.part ((ps.map VecOf.owned).sum + (ss.map VecOf.owned).sum)) x y fun g d =>
        ∃ a : Answer α, g = (a, (ss ++ ps).map VecOf.addrs) ∧ d = (a, (ss ++ ps).map VecOf.nodes) := by
    intro h F w
    refine hr _ fun p hp => ⟨p, rfl, rfl, fun x hx => ?_⟩
    have hm : (x.1, some x.2) ∈ (ps.map VecOf.owned).sum + (ss.map VecOf.owned).sum := by
      rcases List.mem_append.1 hp with hp | hp
      · exact Multiset.mem_add.2 (.inr (mem_sum hp hx))
      · exact Multiset.mem_add.2 (.inl (mem_sum hp hx))
    exact (w.mem _ _ (Multiset.mem_add.2 (.inl hm))).part (Ctx.reach_start (Ctx.starts_of_mem hm))
  refine ⟨fun d e h F w => ?_, fun e he _ h F w => ?_⟩
  · obtain ⟨g, l, a, rfl, rfl⟩ := (key h F w).looks d e
    exact l.lend (.refl _ _) (.refl _ _) fun _ => ⟨ps, rfl, rfl, rfl⟩
  · exact ((key h F w).fails e he).lend (.refl _ _) (.refl _ _) fun _ => rfl

theorem SimIn.stay {ss ps : List (VecOf (Addr × Node α))} {a : Answer α} :
    SimIn ss ps (pure (a, (ss ++ ps).map VecOf.addrs)) (.ok (a, (ss ++ ps).map VecOf.nodes)) := by
  refine ⟨fun d e h F w => ?_, fun e he => by cases he⟩
  cases e
  exact .ret fun _ _ _ _ _ => ⟨ps, rfl, rfl, rfl⟩

/-- A call on own variables only. -/
theorem SimIn.own {ss ps : List (VecOf (Addr × Node α))} (hf : ∀ p ∈ ps, ∃ d, p.nodes.cells.focusMut = .ok d) {c : Call α}
    (hc : c.Own ss.length) : SimIn ss ps (c.hrun ((ss ++ ps).map VecOf.addrs)) (c.run ((ss ++ ps).map VecOf.nodes)) := by
  have hs := call_sim ps hf (c.down ss.length)
  have h1 := hrun_down (ss.map VecOf.addrs) (ps.map VecOf.addrs) c (by rw [List.length_map]; exact hc)
  have h2 := run_down (ss.map VecOf.nodes) (ps.map VecOf.nodes) c (by rw [List.length_map]; exact hc)
  rw [List.length_map] at h1 h2
  rw [List.map_append, List.map_append, h1, h2]
  refine ⟨fun d e h F w => ?_, fun e he hu h F w => ?_⟩
  · obtain ⟨d', e1, e2⟩ := RVec.bind_ok e
    cases e2
    have w' := w
    rw [add_assoc] at w'
    refine (hs.ok d' e1 h _ w').lend.bind (fun g L h1 F1 q w1 => ?_) (fun f L h1 q => ?_) F w
    · obtain ⟨g', e, e1, ps', e2, e3, rfl⟩ := q
      cases e
      refine .ret fun _ _ _ _ _ => ⟨ps', ?_, ?_, rfl⟩
      · dsimp only
        rw [e1, e2, List.map_append]
      · dsimp only
        rw [e3, List.map_append]
    · obtain ⟨g', e, -⟩ := q
      cases e
  · rcases bind_error he with he | ⟨d, -, e2⟩
    · have w' := w
      rw [add_assoc] at w'
      exact (hs.err e he hu h _ w').lend.bind (fun g L h1 F1 q w1 => by cases q) (fun f L h1 q => by cases q; exact rfl) F w
    · cases e2

theorem call_lend (ss ps : List (VecOf (Addr × Node α))) (hf : ∀ p ∈ ps, ∃ d, p.nodes.cells.focusMut = .ok d) (c : Call α)
    (hb : c.Borrows ss.length) : SimIn ss ps (c.hrun ((ss ++ ps).map VecOf.addrs)) (c.run ((ss ++ ps).map VecOf.nodes)) := by
  by_cases ho : c.Own ss.length
  · exact .own hf ho
  cases c with
  | new | singleton x | collect items | constant x n => exact absurd trivial ho
  | append v u | prepend v u | dualSort cmp t draws sb eb v u => exact absurd hb ho
  | drop v | intoIter v sc => exact absurd hb ho
  | act v a =>
    have hv : v < ss.length := Nat.lt_of_not_le ho
    have ha : a.ReadOnly := hb.resolve_left ho
    have hg : (ss ++ ps)[v]? = some ss[v] := by rw [List.getElem?_append_left hv, List.getElem?_eq_getElem hv]
    simp only [Call.run, Call.hrun, List.getElem?_map, hg, Option.map_some]
    refine .reads fun h hs => ?_
    refine Reads.bind (act_reads (hs ss[v] (List.mem_of_getElem? hg)) ha) fun g d q => ?_
    obtain ⟨r, rfl, rfl⟩ := q
    refine Reads.pure ⟨r, ?_, ?_⟩
    · dsimp only
      rw [List.append_nil, ← List.map_set, set_same hg]
    · dsimp only
      rw [List.append_nil, ← List.map_set, set_same hg]
  | clone v =>
    have hv : v < ss.length := Nat.lt_of_not_le ho
    have hg : (ss ++ ps)[v]? = some ss[v] := by rw [List.getElem?_append_left hv, List.getElem?_eq_getElem hv]
    simp only [Call.run, Call.hrun, List.getElem?_map, hg, Option.map_some]
    refine ⟨fun d e h F w => ?_, fun e he => by cases he⟩
    cases e
    have hx : (HVec.clone ss[v].addrs : HM α HVec) = HM.bind (cloneEntries (ss[v].entries.map Prod.fst)) fun _ => .ret ss[v].addrs := by
      rw [← entries_addrs]; rfl
    have key : RunsIn (ss.map VecOf.owned).sum (fun r L _ => r = .ok ss[v].addrs ∧ L = ss[v].owned + (ps.map VecOf.owned).sum)
        (HVec.clone ss[v].addrs) (ps.map VecOf.owned).sum h := by
      rw [hx]
      refine (cloneEntries_lend (Q := fun r L _ => r = .ok () ∧ L = ss[v].owned + (ps.map VecOf.owned).sum) ss[v].entries
        (fun p hp => mem_sum (List.getElem_mem hv) hp) fun h => ⟨rfl, by rw [own_entries]⟩).bind (fun g L h1 F1 q w1 => ?_)
        (fun f L h1 q => by cases q.1) F w
      exact .ret fun _ _ _ _ _ => ⟨rfl, q.2⟩
    refine key.bind (fun g L h1 F1 q w1 => ?_) (fun f L h1 q => by cases q.1) F w
    obtain ⟨e, rfl⟩ := q
    cases e
    refine .ret fun _ _ _ _ _ => ⟨ps ++ [ss[v]], ?_, ?_, ?_⟩
    · simp
    · simp
    · simp [add_comm]
  | compare cmp v u =>
    simp only [Call.run, Call.hrun, List.getElem?_map]
    cases ev : (ss ++ ps)[v]? with
    | none => exact .stay
    | some p =>
      cases eu : (ss ++ ps)[u]? with
      | none => exact .stay
      | some q =>
        simp only [Option.map_some]
        refine .reads fun h hs => ?_
        refine Reads.bind (HVec.cmpVec_reads cmp (hs p (List.mem_of_getElem? ev)) (hs q (List.mem_of_getElem? eu))) fun g d n => ?_
        subst n
        exact Reads.pure ⟨_, rfl, rfl⟩

end Librrb
