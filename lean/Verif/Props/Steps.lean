import Verif.Proof.StepsCalls
import Verif.Proof.StepsLow
import Verif.Proof.StepsWork
import Verif.Props.Allowance
import Verif.Props.Height

/-!
# How many steps a call takes
-/
namespace Librrb
open RVec

/-- A call takes no more steps than its bound. -/
theorem Ready.steps {h : Heap α} {st : List HVec} {ls : List (List α)} (r : Ready h st ls) (c : Call α) {n : Nat}
    (hn : c.stepBound st = some n) : (c.hrun st).steps h ≤ n := by
  have use : ∀ {γ : Type} {x : HM α γ} {K n : Nat}, Steps (zoneOf h K) K n x → x.steps h ≤ n := fun s => s.le _ (tame_zoneOf h _)
  cases c with
  | new => cases hn; exact use (K := 0) HVec.new_steps.and_pure
  | singleton x => cases hn; exact use (K := 0) (HVec.singleton_steps x).and_pure
  | collect l => cases hn
  | constant x n => cases hn
  | dualSort => cases hn
  | clone i =>
    cases hn
    cases hi : st[i]? with
    | none => simp only [Call.hrun, hi]; exact Nat.zero_le _
    | some v =>
      simp only [Call.hrun, hi, Option.elim]
      exact use (HVec.clone_steps (r.vecOk hi (Nat.le_refl _))).and_pure
  | act i b =>
    cases hi : st[i]? with
    | none => simp only [Call.hrun, hi]; exact Nat.zero_le _
    | some v =>
      simp only [Call.hrun, hi]
      simp only [Call.stepBound, hi, Option.elim] at hn
      exact use (b.hrun_steps (r.vecOk hi (Nat.le_refl _)) hn).and_pure
  | append i j =>
    cases hi : st[i]? with
    | none => simp only [Call.hrun, hi]; exact Nat.zero_le _
    | some v =>
      cases hj : st[j]? with
      | none => simp only [Call.hrun, hi, hj]; exact Nat.zero_le _
      | some w =>
        simp only [Call.hrun, hi, hj]
        simp only [Call.stepBound, hi, hj, Option.elim] at hn
        cases hn
        refine use (K := max v.height w.height) (Steps.bind HVec.new_steps (HVec.new_cost (L := max v.height w.height)) (by omega)
          fun x hx => ?_)
        refine (HVec.append_steps (L := max v.height w.height) ?_ (r.vecOk hj (by omega))).and_pure.mono (by omega)
        split
        · exact hx
        · exact r.vecOk hi (by omega)
  | prepend i j =>
    cases hi : st[i]? with
    | none => simp only [Call.hrun, hi]; exact Nat.zero_le _
    | some v =>
      cases hj : st[j]? with
      | none => simp only [Call.hrun, hi, hj]; exact Nat.zero_le _
      | some w =>
        simp only [Call.hrun, hi, hj]
        simp only [Call.stepBound, hi, hj, Option.elim] at hn
        cases hn
        refine use (K := max v.height w.height) (Steps.bind HVec.new_steps (HVec.new_cost (L := max v.height w.height)) (by omega)
          fun x hx => ?_)
        refine (HVec.append_steps (L := max v.height w.height) (r.vecOk hj (by omega)) ?_).and_pure.mono (by omega)
        split
        · exact hx
        · exact r.vecOk hi (by omega)
  | compare cmp i j =>
    cases hi : st[i]? with
    | none => simp only [Call.hrun, hi]; exact Nat.zero_le _
    | some v =>
      cases hj : st[j]? with
      | none => simp only [Call.hrun, hi, hj]; exact Nat.zero_le _
      | some w =>
        simp only [Call.hrun, hi, hj]
        simp only [Call.stepBound, hi, hj, Option.elim] at hn
        cases hn
        refine use (K := max v.height w.height) ((HVec.cmpVec_steps (L := max v.height w.height) cmp (r.vecOk hi (by omega))
          (r.vecOk hj (by omega))).and_pure.mono ?_)
        generalize max v.height w.height = m
        have e : (v.len + 1) * (24 * m + 32) = (v.len + 1) * (2 * (2 * m + 6 * m + 12)) + (v.len + 1) * (8 * m + 8) := by
          rw [← Nat.mul_add]; congr 1; omega
        have : 8 * m + 8 ≤ (v.len + 1) * (8 * m + 8) := Nat.le_mul_of_pos_left _ (by omega)
        omega
  | drop i =>
    cases hn
    cases hi : st[i]? with
    | none => simp only [Call.hrun, hi]; exact Nat.zero_le _
    | some v =>
      simp only [Call.hrun, hi, Option.elim]
      exact use (HVec.drop_steps (r.vecOk hi (Nat.le_refl _))).and_pure
  | intoIter i script =>
    cases hi : st[i]? with
    | none => simp only [Call.hrun, hi]; exact Nat.zero_le _
    | some v =>
      simp only [Call.hrun, hi]
      simp only [Call.stepBound, hi, Option.elim] at hn
      cases hn
      have hv := r.vecOk hi (Nat.le_refl _)
      refine use (Steps.bind (hrunAll_steps (P := VecOk _ v.height) (fun s w hw => HVec.intoIterStep_steps s hw)
        (fun s w hw => HVec.intoIterStep_cost s hw) script v hv) (hrunAll_cost (P := VecOk _ v.height)
          (fun s w hw => HVec.intoIterStep_cost s hw) script v hv) (by omega) fun q hq => ?_)
      exact (HVec.drop_steps hq).and_pure.mono (by omega)

/-! ### C57 -/

/-- C57. However many items there are, a call takes at most as many steps as its bound says: it reads, writes or makes a node
or touches a reference count at most that often. The bound is a constant times the height of the vectors that the call is
given, or that times the number of accesses if it makes several. This is so for all calls that do not cut and do not write all
items; the freeing of nodes is counted in `C57_freeing`. -/
theorem C57_steps_partial {prog : List (Call α)} (hf : ∀ c ∈ prog, c.Fits) {answers : List (Answer α)} {st : List HVec} {h : Heap α}
    (e : runHeap prog [] Heap.empty = .ok ((answers, st), h)) (c : Call α) {n : Nat} (hn : c.stepBound st = some n) :
    (c.hrun st).steps h ≤ n := by
  obtain ⟨ls, r⟩ := Ready.of_run hf e
  exact r.steps c hn

/-- C57. In particular `front`, `back`, `new` and `singleton` take a constant number of steps, and `clone`, `get`, writes, pushes, pops and
concatenation take a constant times the height; the table in the documentation says so (`src/vector.rs:210-227`). -/
theorem C57_linear_partial {prog : List (Call α)} (hf : ∀ c ∈ prog, c.Fits) {answers : List (Answer α)} {st : List HVec} {h : Heap α}
    (e : runHeap prog [] Heap.empty = .ok ((answers, st), h)) {m : Nat} (hm : ∀ v ∈ st, v.height ≤ m) (i j k : Nat) (x : α) :
    (∀ c ∈ [Call.act i .front, .act i .back, .act i .len, .act i .isEmpty, .new], (c.hrun st).steps h ≤ 1) ∧
    (∀ c ∈ [Call.act i (.setEnd .front x), .act i (.setEnd .back x), .singleton x], (c.hrun st).steps h ≤ 519) ∧
    ((Call.clone i).hrun st).steps h ≤ 2 * m + 1 ∧ ((Call.act i (.get k)).hrun st).steps h ≤ 3 * m + 2 ∧
    ((Call.act i (.set k x)).hrun st).steps h ≤ 72 * m + 71 ∧
    (∀ c ∈ [Call.act i (.pushBack x), .act i (.pushFront x)], (c.hrun st).steps h ≤ 368 * m + 518) ∧
    (∀ c ∈ [Call.act i .popBack, .act i .popFront], (c.hrun st).steps h ≤ 219 * m + 223) ∧
    (∀ c ∈ [Call.append i j, .prepend i j], (c.hrun st).steps h ≤ 56558 * m + 861) := by
  have hh : ∀ i : Nat, st[i]?.elim 0 HVec.height ≤ m := by
    intro i
    cases hi : st[i]? with
    | none => exact Nat.zero_le _
    | some v => exact hm v (List.mem_of_getElem? hi)
  have hi := hh i
  have hj := hh j
  have key : ∀ {c : Call α} {n b : Nat}, c.stepBound st = some n → n ≤ b → (c.hrun st).steps h ≤ b := fun hn hb =>
    (C57_steps_partial hf e _ hn).trans hb
  refine ⟨fun c hc => ?_, fun c hc => ?_, key rfl (by omega), key rfl (by omega), key rfl (by omega), fun c hc => ?_, fun c hc => ?_,
    fun c hc => ?_⟩ <;> simp only [List.mem_cons, List.not_mem_nil, or_false] at hc
  · rcases hc with rfl | rfl | rfl | rfl | rfl <;> exact key rfl (by omega)
  · rcases hc with rfl | rfl | rfl <;> exact key rfl (by omega)
  · rcases hc with rfl | rfl <;> exact key rfl (by omega)
  · rcases hc with rfl | rfl <;> exact key rfl (by omega)
  · rcases hc with rfl | rfl <;> exact key rfl (by omega)

/-- How many steps the call takes after `sharedProgram`. -/
def sharedSteps (c : Call Nat) : M Nat := do
  let r ← runHeap sharedProgram [] Heap.empty
  pure ((c.hrun r.1.2).steps r.2)

/-- Two hundred items in three vectors of height one that share their nodes. -/
example : (∀ c ∈ sharedProgram, c.Fits) ∧
    [Call.new, .singleton 7, .clone 0, .drop 0, .act 0 .front, .act 0 (.get 100), .act 0 (.set 100 7), .act 0 (.setEnd .back 7),
      .act 0 (.pushBack 7), .act 0 (.pushFront 7), .act 0 .popBack, .append 0 1].map
      (fun c => (sharedSteps c, c.stepBound [⟨[0], [0], 0, 200⟩, ⟨[0], [0], 0, 200⟩])) =
      [(.ok 1, some 1), (.ok 5, some 519), (.ok 3, some 3), (.ok 3, some 3), (.ok 1, some 1), (.ok 5, some 5), (.ok 17, some 143),
        (.ok 6, some 70), (.ok 9, some 886), (.ok 9, some 886), (.ok 9, some 442), (.ok 34, some 57419)] ∧
    [Call.act 0 (.iterate (List.replicate 20 .front)), .act 0 (.focusRead [100, 101, 3, 199]), .act 0 (.editFocus [.write 100 7, .read 3]),
      .intoIter 0 [.front, .back]].map sharedSteps = [.ok 27, .ok 19, .ok 30, .ok 21] := by
  refine ⟨?_, by decide +kernel⟩
  intro c hc
  simp only [sharedProgram, List.mem_cons, List.not_mem_nil, or_false] at hc
  rcases hc with rfl | rfl | rfl <;> trivial

/-- C57. Over a whole program that starts with no nodes, the freeing of nodes does not take more than the other steps: each
entry that is dropped along with a node was put there by a step before. -/
theorem C57_freeing {prog : List (Call α)} {answers : List (Answer α)} {st : List HVec} {h : Heap α}
    (e : runHeap prog [] Heap.empty = .ok ((answers, st), h)) :
    (runHeap prog []).work Heap.empty ≤ 2 * (runHeap prog []).steps Heap.empty := by
  have := (HM.work_le _ (fun a c e => by cases e) e).2
  have h0 : (Heap.empty : Heap α).total = 0 := rfl
  omega

/-- To drop the last of two vectors takes three steps, and one more to free the node below. -/
example : [1, 2].map (fun n => ((runHeap ([.collect (List.range 150), .clone 0] ++ List.replicate n (.drop 0)) []).steps (Heap.empty : Heap Nat),
      (runHeap ([.collect (List.range 150), .clone 0] ++ List.replicate n (.drop 0)) []).work (Heap.empty : Heap Nat),
      (runHeap ([.collect (List.range 150), .clone 0] ++ List.replicate n (.drop 0)) [] (Heap.empty : Heap Nat)).map fun r => r.1.2.length)) =
      [(1175, 1175, .ok 1), (1178, 1179, .ok 0)] := by
  decide +kernel

theorem Ready.splitOff {h : Heap α} {st : List HVec} {ls : List (List α)} (r : Ready h st ls) {i : Nat} {v : HVec}
    (hv : st[i]? = some v) (k : Nat) : ∃ q h', v.splitOff k h = .ok (q, h') := by
  obtain ⟨q, hq, s⟩ := r.call (.act i (.splitOff k)) trivial
  obtain ⟨hl, hh⟩ := r.holding
  obtain ⟨l, el, -⟩ := hh i v hv
  simp only [Call.Means, el] at hq
  obtain ⟨p, hp, rfl⟩ := hq
  simp only [Act.Means] at hp
  subst hp
  obtain ⟨st', h', e, -⟩ := s
  simp only [Call.hrun, hv] at e
  obtain ⟨a, h1, e1, -⟩ := hm_bind_inv e
  obtain ⟨b, h2, e2, -⟩ := hm_bind_inv e1
  exact ⟨b, h2, e2⟩

theorem Ready.slow {h : Heap α} {st : List HVec} {ls : List (List α)} (r : Ready h st ls) {i : Nat} {v : HVec}
    (hv : st[i]? = some v) : ∃ k, (0 < v.len → k < v.len) ∧ v.len ≤ 66 * (2 * v.height + 1) * (v.splitOff k : HM α _).steps h := by
  have ok := r.splitOff hv
  have pos : ∀ k, 1 ≤ (v.splitOff k : HM α _).steps h := fun k => by
    obtain ⟨q, h', e⟩ := ok k
    exact HVec.splitOff_pos e
  by_contra hno
  have hlt : ∀ k, k < v.len → 66 * (2 * v.height + 1) * (v.splitOff k : HM α _).steps h < v.len := fun k hk => by
    by_contra hge
    exact hno ⟨k, fun _ => hk, by omega⟩
  have h0 : 0 < v.len := by
    by_contra h0
    exact hno ⟨0, fun h => absurd h h0, by omega⟩
  have hM : 0 < 66 * (2 * v.height + 1) := by omega
  have hS : ∀ k, 0 < k → k < v.len → (v.splitOff k : HM α _).steps h ≤ (v.len - 1) / (66 * (2 * v.height + 1)) := fun k _ hk => by
    rw [Nat.le_div_iff_mul_le hM, Nat.mul_comm]
    have := hlt k hk
    omega
  have slow := HVec.splitOff_slow (r.vecOk hv (Nat.le_refl _)) (tame_zoneOf h v.height) (fun k _ _ => ok k) hS
  have hS1 : 1 ≤ (v.len - 1) / (66 * (2 * v.height + 1)) := by
    rw [Nat.le_div_iff_mul_le hM]
    have h1 := hlt 0 h0
    have h2 := Nat.mul_le_mul_left (66 * (2 * v.height + 1)) (pos 0)
    omega
  have hle := Nat.div_mul_le_self (v.len - 1) (66 * (2 * v.height + 1))
  generalize (v.len - 1) / (66 * (2 * v.height + 1)) = S at *
  have : (2 * v.height + 1) * (64 * S + 1) + 1 ≤ S * (66 * (2 * v.height + 1)) := by
    have e1 : S * (66 * (2 * v.height + 1)) = (2 * v.height + 1) * (66 * S) := by ring
    have e2 : (2 * v.height + 1) * (64 * S + 1) + (2 * v.height + 1) ≤ (2 * v.height + 1) * (66 * S) := by
      rw [← Nat.mul_succ]
      exact Nat.mul_le_mul_left _ (by omega)
    omega
  omega

/-- C57. The calls that cut do not keep to it. In every vector there is a place where `split_off`, the slices, `insert` and `remove` take a
number of steps that grows with the number of items: at least that number, divided by a constant times the height. -/
theorem C57_cuts_are_slow {prog : List (Call α)} (hf : ∀ c ∈ prog, c.Fits) {answers : List (Answer α)} {st : List HVec} {h : Heap α}
    (e : runHeap prog [] Heap.empty = .ok ((answers, st), h)) {i : Nat} {v : HVec} (hv : st[i]? = some v) :
    ∃ k ≤ v.len, ∀ x : α, ∀ c ∈ [Call.act i (.splitOff k), .act i (.sliceFromStart k), .act i (.sliceToEnd k), .act i (.insert k x),
      .act i (.remove k)], v.len ≤ 66 * (2 * v.height + 1) * (c.hrun st).steps h := by
  obtain ⟨ls, r⟩ := Ready.of_run hf e
  obtain ⟨k, hk, hs⟩ := r.slow hv
  by_cases h0 : v.len = 0
  · exact ⟨0, Nat.zero_le _, fun x c _ => by rw [h0]; exact Nat.zero_le _⟩
  refine ⟨k, Nat.le_of_lt (hk (by omega)), fun x c hc => ?_⟩
  have hk := hk (by omega)
  suffices (v.splitOff k : HM α _).steps h ≤ (c.hrun st).steps h from hs.trans (Nat.mul_le_mul_left _ this)
  simp only [List.mem_cons, List.not_mem_nil, or_false] at hc
  have two : ∀ {γ δ ε : Type} (x : HM α γ) (k : γ → HM α δ) (k' : δ → HM α ε), x.steps h ≤ ((x >>= k) >>= k').steps h := fun x k k' =>
    (steps_bind_le x k h).trans (steps_bind_le _ k' h)
  have three : ∀ {γ δ ε ζ : Type} (x : HM α γ) (k : γ → HM α δ) (k' : δ → HM α ε) (k'' : ε → HM α ζ),
      x.steps h ≤ (((x >>= k) >>= k') >>= k'').steps h := fun x k k' k'' => (two x k k').trans (steps_bind_le _ k'' h)
  rcases hc with rfl | rfl | rfl | rfl | rfl <;> simp only [Call.hrun, hv, Act.hrun]
  · exact two _ _ _
  · exact three _ _ _ _
  · exact three _ _ _ _
  · exact three _ _ _ _
  · unfold HVec.remove
    rw [if_pos hk]
    exact three _ _ _ _

/-- To cut a thousand items takes more steps than to cut five hundred, at the same height; to read one does not. -/
example : [500, 1000].map (fun n => (runHeap [Call.constant 7 n] [] Heap.empty).map fun r =>
    (r.1.2.map HVec.height, [Call.act 0 (.splitOff (n / 2)), .act 0 (.get (n / 2))].map fun c => (c.hrun r.1.2).steps r.2)) =
      [.ok ([1], [58, 5]), .ok ([1], [74, 5])] := by decide +kernel

/-- A collected vector has height at most ten. -/
theorem collect_heap {l : List α} (hl : l.length < USIZE_LIMIT) : ∃ v h, runHeap [.collect l] [] Heap.empty = .ok (([.none], [v]), h) ∧
    v.height ≤ 10 ∧ v.len = l.length := by
  have m : Mirrors (Heap.empty : Heap α) [] [] := by
    obtain ⟨vs, m, hh⟩ := Ready.empty (α := α)
    cases List.eq_nil_of_length_eq_zero hh.1
    exact m
  obtain ⟨q, hq, s⟩ := call_ok .nil (.collect l) trivial
  simp only [Call.Means, fitting, if_pos hl, List.nil_append] at hq
  subst hq
  obtain ⟨ws, e, hw⟩ := s
  obtain ⟨st', h', e', ps, rfl, rfl, w⟩ := call_mirrors m (by simp) (.collect l) e
  obtain ⟨u, eu, e⟩ := bind_ok e
  have ep : ps.map VecOf.nodes = [u] := (Prod.mk.inj (Except.ok.inj e)).2.symm
  match ps, ep with
  | [p], ep =>
    cases ep
    obtain ⟨b, l', el, sh⟩ := hw.2 0 p.nodes rfl
    cases el
    refine ⟨p.addrs, h', ?_, ?_, sh.1⟩
    · simp only [runHeap, hrunAll]
      rw [hm_bind e']
      rfl
    · obtain ⟨n, en, h10, -⟩ := C44_at_most_ten (Unjoined.collect eu)
      unfold RVec.height at en
      obtain ⟨_, -, en⟩ := bind_ok en
      cases en
      simpa [HVec.height, VecOf.addrs, VecOf.nodes] using h10

/-- C57. There is no constant that bounds the steps of a cut by the height: for any constant that is not absurdly large there
is a vector, of height at most ten, that has a cut beyond it. -/
theorem C57_cuts_unbounded (x : α) {C : Nat} (hC : C ≤ 2 ^ 49) : ∃ (l : List α) (v : HVec) (h : Heap α) (k : Nat),
    runHeap [.collect l] [] Heap.empty = .ok (([.none], [v]), h) ∧ v.height ≤ 10 ∧
      C * (v.height + 1) < (v.splitOff k : HM α _).steps h := by
  have hlt : (List.replicate (15246 * C + 1) x).length < USIZE_LIMIT := by
    rw [List.length_replicate]
    have : (USIZE_LIMIT : Nat) = 2 ^ 64 := rfl
    omega
  generalize hl : List.replicate (15246 * C + 1) x = l at hlt
  obtain ⟨v, h, e, hv⟩ := collect_heap hlt
  obtain ⟨ls, r⟩ := Ready.of_run (by simp [Call.Fits]) e
  obtain ⟨k, -, hk⟩ := r.slow (i := 0) rfl
  have hlen : v.len = l.length := hv.2
  rw [hlen, ← hl, List.length_replicate] at hk
  refine ⟨l, v, h, k, e, hv.1, ?_⟩
  by_contra hle
  have h10 := hv.1
  have h1 : (v.splitOff k : HM α _).steps h ≤ C * 11 := (Nat.le_of_not_lt hle).trans (Nat.mul_le_mul_left _ (by omega))
  have h2 : 66 * (2 * v.height + 1) * (v.splitOff k : HM α _).steps h ≤ 1386 * (C * 11) := Nat.mul_le_mul (by omega) h1
  omega

end Librrb
