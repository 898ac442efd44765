import Verif.Props.Steps
import Verif.Props.Space

/-!
# C61: calls that take constant time, and collecting in linear time
-/
namespace Librrb
open RVec

theorem steps_pure (x : HM α γ) (f : γ → δ) (h : Heap α) : (x >>= fun r => pure (f r)).steps h = x.steps h := by
  rw [HM.steps_bind]
  split <;> rfl

theorem HVec.pushAll_snoc (x : α) : ∀ (l : List α) (v : HVec) (h : Heap α),
    (HVec.pushAll v (l ++ [x])).steps h = (HVec.pushAll v l >>= fun v => HVec.pushBack v x).steps h
  | [], v, h => by
    show (HVec.pushBack v x >>= fun v => pure v).steps h = (HVec.pushBack v x).steps h
    rw [HM.steps_bind]
    split <;> rfl
  | y :: l, v, h => by
    show (HVec.pushBack v y >>= fun v => HVec.pushAll v (l ++ [x])).steps h =
      ((HVec.pushBack v y >>= fun v => HVec.pushAll v l) >>= fun v => HVec.pushBack v x).steps h
    rw [bind_assoc, HM.steps_bind, HM.steps_bind]
    split
    · rw [HVec.pushAll_snoc x l]
    · rfl

theorem HVec.fromIter_snoc (x : α) (l : List α) (h : Heap α) :
    (HVec.fromIter (l ++ [x])).steps h = (HVec.fromIter l >>= fun v => HVec.pushBack v x).steps h := by
  show (HVec.new >>= fun v => HVec.pushAll v (l ++ [x])).steps h =
      ((HVec.new >>= fun v => HVec.pushAll v l) >>= fun v => HVec.pushBack v x).steps h
  rw [bind_assoc, HM.steps_bind, HM.steps_bind]
  split
  · rw [HVec.pushAll_snoc x l]
  · rfl

/-- A vector that was collected is ready for further calls, and not high. -/
theorem Ready.collected {h : Heap α} {st : List HVec} {ls : List (List α)} (r : Ready h st ls) {l : List α} {v : HVec} {h' : Heap α}
    (e : HVec.fromIter l h = .ok (v, h')) : (∃ ls', Ready h' (st ++ [v]) ls') ∧ v.height ≤ 10 := by
  obtain ⟨vs, m, hv⟩ := r
  obtain ⟨q, hq, s⟩ := call_ok hv (.collect l) trivial
  have hfm : ∀ v ∈ vs, ∃ d, v.cells.focusMut = .ok d := fun v hm => (hv.built v hm).focusMut
  have e0 : (Call.collect l).hrun st h = .ok ((.none, st ++ [v]), h') := hm_bind e
  cases q with
  | error f =>
    have := call_fails m hfm (.collect l) s fun he => (Call.means_safe hq).1 (by rw [he])
    rw [e0] at this
    cases this
  | ok q =>
    obtain ⟨ws, e1, hw⟩ := s
    obtain ⟨st1, h1, e2, m'⟩ := call_mirrors m hfm (.collect l) e1
    rw [e0] at e2
    have e2' := Except.ok.inj e2
    cases (congrArg (·.1.2) e2' : st ++ [v] = st1)
    cases (congrArg (·.2) e2' : h' = h1)
    refine ⟨⟨_, _, m', hw⟩, ?_⟩
    obtain ⟨ps, e3, e4, -⟩ := m'
    obtain ⟨u, eu, e1⟩ := bind_ok e1
    have e5 : ws = vs ++ [u] := (Prod.mk.inj (Except.ok.inj e1)).2.symm
    obtain ⟨n, en, h10, -⟩ := C44_at_most_ten (Unjoined.collect eu)
    unfold RVec.height at en
    obtain ⟨_, -, en⟩ := bind_ok en
    cases en
    have e6 : ps.getLast?.map VecOf.addrs = some v := by rw [← List.getLast?_map, ← e3]; exact List.getLast?_concat ..
    have e7 : ps.getLast?.map VecOf.nodes = some u := by rw [← List.getLast?_map, ← e4, e5]; exact List.getLast?_concat ..
    cases ep : ps.getLast? with
    | none => rw [ep] at e6; cases e6
    | some p =>
      rw [ep] at e6 e7
      cases e6
      cases e7
      simpa [HVec.height, VecOf.addrs, VecOf.nodes] using h10

theorem Ready.collect_steps {h : Heap α} {st : List HVec} {ls : List (List α)} (r : Ready h st ls) (l : List α) :
    (HVec.fromIter l).steps h ≤ 4198 * l.length + 1 := by
  induction l using List.reverseRecOn with
  | nil =>
    show (HVec.new >>= fun v => pure v).steps h ≤ _
    exact (HVec.new_steps (Z := zoneOf h 0) (K := 0)).and_pure.le _ (tame_zoneOf h _)
  | append_singleton l x ih =>
    rw [HVec.fromIter_snoc, HM.steps_bind, List.length_append, List.length_singleton]
    cases e : HVec.fromIter l h with
    | error f => dsimp only; omega
    | ok q =>
      obtain ⟨v, h1⟩ := q
      obtain ⟨⟨ls', r'⟩, hh⟩ := r.collected e
      have hs := (HVec.pushSide_steps (K := 10) (r'.vecOk (i := st.length) (by simp) hh) .back x).le _ (tame_zoneOf h1 _)
      have : (HVec.pushBack v x).steps h1 ≤ 368 * 10 + 518 := hs
      dsimp only
      omega

/-- C61. To collect `n` items takes a constant times `n` steps, whatever vectors there are. -/
theorem C61_collect {prog : List (Call α)} (hf : ∀ c ∈ prog, c.Fits) {answers : List (Answer α)} {st : List HVec} {h : Heap α}
    (e : runHeap prog [] Heap.empty = .ok ((answers, st), h)) (l : List α) : ((Call.collect l).hrun st).steps h ≤ 4198 * l.length + 1 := by
  obtain ⟨ls, r⟩ := Ready.of_run hf e
  show (HVec.fromIter l >>= fun v => pure (Answer.none, st ++ [v])).steps h ≤ _
  rw [HM.steps_bind]
  have := r.collect_steps l
  split <;> exact this

/-- C61. As long as nothing was concatenated, a call takes a constant number of steps, however many items there are. -/
theorem C61_constant {prog : List (Call α)} (hf : ∀ c ∈ prog, c.Fits) (hj : ∀ c ∈ prog, c.Joinless) {answers : List (Answer α)}
    {st : List HVec} {h : Heap α} (e : runHeap prog [] Heap.empty = .ok ((answers, st), h)) (i k : Nat) (x : α) :
    (∀ c ∈ [Call.act i (.pushBack x), .act i (.pushFront x)], (c.hrun st).steps h ≤ 4198) ∧
    (∀ c ∈ [Call.act i .popBack, .act i .popFront], (c.hrun st).steps h ≤ 2413) ∧
    ((Call.act i (.get k)).hrun st).steps h ≤ 32 ∧ ((Call.act i (.set k x)).hrun st).steps h ≤ 791 ∧
    ((Call.clone i).hrun st).steps h ≤ 21 := by
  obtain ⟨-, hm⟩ := C60_dense hf hj e
  obtain ⟨-, -, h1, h2, h3, h4, h5, -⟩ := C57_linear_partial hf e hm i 0 k x
  exact ⟨h4, h5, h2, h3, h1⟩

theorem Act.stepBound_mono {a : Act α} {m k n : Nat} (h : m ≤ k) (hn : a.stepBound k = some n) : ∃ n', a.stepBound m = some n' ∧ n' ≤ n := by
  cases a <;> cases hn <;> refine ⟨_, rfl, ?_⟩ <;> first
    | omega
    | exact Nat.add_le_add (by omega) (Nat.mul_le_mul_left _ (by omega))

/-- One call of a program that concatenates nothing. -/
theorem Ready.brief {h : Heap α} {st : List HVec} {ls : List (List α)} (r : Ready h st ls) (hm : ∀ v ∈ st, v.height ≤ 10) (c : Call α)
    {n : Nat} (hn : c.weight = some n) : (c.hrun st).steps h ≤ n := by
  have hh : ∀ i : Nat, st[i]?.elim 0 HVec.height ≤ 10 := by
    intro i
    cases hi : st[i]? with
    | none => exact Nat.zero_le _
    | some v => exact hm v (List.mem_of_getElem? hi)
  cases c with
  | new => cases hn; exact r.steps .new rfl
  | singleton x => cases hn; exact r.steps (.singleton x) rfl
  | collect l =>
    cases hn
    show (HVec.fromIter l >>= fun v => pure (Answer.none, st ++ [v])).steps h ≤ _
    rw [HM.steps_bind]
    have := r.collect_steps l
    split <;> exact this
  | clone i => cases hn; have := hh i; exact (r.steps (.clone i) rfl).trans (by omega)
  | drop i => cases hn; have := hh i; exact (r.steps (.drop i) rfl).trans (by omega)
  | intoIter i script =>
    cases hn
    have := hh i
    have h1 := Nat.mul_le_mul_left script.length (show 219 * st[i]?.elim 0 HVec.height + 223 ≤ 2413 by omega)
    exact (r.steps (.intoIter i script) rfl).trans (by omega)
  | act i a =>
    have hi := hh i
    obtain ⟨n', hn', hle⟩ := a.stepBound_mono hi hn
    exact (r.steps (.act i a) hn').trans hle
  | append | prepend | compare | constant | dualSort => cases hn

theorem Mirrors.weight {prog : List (Call α)} (hf : ∀ c ∈ prog, c.Fits) (hj : ∀ c ∈ prog, c.Joinless) :
    ∀ {ns : List Nat}, prog.map Call.weight = ns.map some →
    ∀ {st : List HVec} {h : Heap α} {vs : List (RVec α)} {ls : List (List α)}, Mirrors h st vs → Holding vs ls → (∀ v ∈ vs, v.Snug) →
    (runHeap prog st).steps h ≤ ns.sum := by
  induction prog with
  | nil => intros; exact Nat.zero_le _
  | cons c cs ih =>
    intro ns hns st h vs ls m hv hs
    match ns, hns with
    | n :: ns, hns =>
      rw [List.map_cons, List.map_cons, List.cons.injEq] at hns
      have h1 := Ready.brief ⟨vs, m, hv⟩ (m.low hv.built hs) c hns.1
      simp only [runHeap, hrunAll]
      rw [HM.steps_bind, List.sum_cons]
      cases e : c.hrun st h with
      | error f => dsimp only; omega
      | ok q =>
        obtain ⟨⟨a, st'⟩, h'⟩ := q
        obtain ⟨vs', ls', m', hv', hs'⟩ := Mirrors.snug (prog := [c]) (fun c' hc => hf c' (by simp_all)) (fun c' hc => hj c' (by simp_all))
          m hv hs (as := [a]) (st' := st') (h' := h') (by simp only [runHeap, hrunAll]; rw [hm_bind e]; rfl)
        have h2 := ih (fun c hc => hf c (by simp [hc])) (fun c hc => hj c (by simp [hc])) hns.2 m' hv' hs'
        dsimp only
        rw [steps_pure]
        simp only [runHeap] at h2
        omega

/-- C61. A whole program that neither concatenates nor cuts takes at most as many steps as its calls weigh: a constant for each
push, pop, read, write and clone, and a constant times the number of accesses or items for an iterator, a focus and for
collecting. -/
theorem C61_program {prog : List (Call α)} (hf : ∀ c ∈ prog, c.Fits) (hj : ∀ c ∈ prog, c.Joinless) {ns : List Nat}
    (hn : prog.map Call.weight = ns.map some) : (runHeap prog []).steps (Heap.empty : Heap α) ≤ ns.sum := by
  obtain ⟨vs0, m0, hv0⟩ := Ready.empty (α := α)
  have h0 : vs0 = [] := List.eq_nil_of_length_eq_zero hv0.1
  exact Mirrors.weight hf hj hn m0 hv0 (by simp [h0])

/-- C61. The freeing of nodes along the way does not change that. -/
theorem C61_work {prog : List (Call α)} (hf : ∀ c ∈ prog, c.Fits) (hj : ∀ c ∈ prog, c.Joinless) {ns : List Nat}
    (hn : prog.map Call.weight = ns.map some) {answers : List (Answer α)} {st : List HVec} {h : Heap α}
    (e : runHeap prog [] Heap.empty = .ok ((answers, st), h)) : (runHeap prog []).work Heap.empty ≤ 2 * ns.sum :=
  (C57_freeing e).trans (Nat.mul_le_mul_left 2 (C61_program hf hj hn))

/-- A vector of 200 items, a copy, and pushes, pops and writes on both. -/
def brisk : List (Call Nat) := [.collect (List.range 200), .clone 0, .act 0 (.pushBack 7), .act 1 (.set 100 7), .act 0 .popFront,
  .act 1 (.get 100), .intoIter 1 [.front, .back], .drop 0]

/-- It meets the hypotheses; what its calls weigh, and how many steps it takes. -/
example : (∀ c ∈ brisk, c.Fits) ∧ (∀ c ∈ brisk, c.Joinless) ∧
    brisk.map Call.weight = [839601, 21, 4198, 791, 2413, 32, 4847, 21].map some ∧ (runHeap brisk []).steps Heap.empty = 1539 :=
  ⟨by simp [brisk, Call.Fits, Act.Fits], by simp [brisk, Call.Joinless, Act.Joinless], by decide +kernel, by decide +kernel⟩

end Librrb
