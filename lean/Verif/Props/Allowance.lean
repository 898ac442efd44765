import Verif.Proof.HeapCostState
import Verif.Props.Clone

/-!
# How many nodes an update makes
-/
namespace Librrb
open RVec

theorem Ready.vecOk {h : Heap α} {st : List HVec} {ls : List (List α)} (r : Ready h st ls) {i : Nat} {v : HVec}
    (hv : st[i]? = some v) {K : Nat} (hK : v.height ≤ K) : VecOk (zoneOf h K) K v := by
  obtain ⟨vs, ⟨ps, rfl, rfl, w⟩, hl, hb⟩ := r
  rw [List.getElem?_map] at hv
  obtain ⟨p, ep, rfl⟩ := Option.map_eq_some_iff.1 hv
  obtain ⟨b, -⟩ := hb i p.nodes (by rw [List.getElem?_map, ep]; rfl)
  obtain ⟨n, hn⟩ := b.inv
  have hs : SameVec h p.addrs p.nodes := by
    refine w.sameVec ?_
    rw [(sum_at (f := VecOf.owned) ep).1]
    exact fun x hx => Multiset.mem_add.2 (.inl hx)
  have e := (hs.vecOk hn.toCore (Nat.le_refl n)).2
  exact (hs.vecOk hn.toCore (e ▸ hK)).1

/-- A call makes no more nodes than its allowance. -/
theorem Ready.makes {h : Heap α} {st : List HVec} {ls : List (List α)} (r : Ready h st ls) (c : Call α) {n : Nat}
    (hn : c.allowance st = some n) {a : Answer α} {st' : List HVec} {h' : Heap α} (e : c.hrun st h = .ok ((a, st'), h')) :
    h'.cells.length ≤ h.cells.length + n := by
  have use : ∀ {γ : Type} {x : HM α γ} {K K' n : Nat} {g : γ}, Cost (zoneOf h K) K n x K' (fun _ => True) → x h = .ok (g, h') →
      h'.cells.length ≤ h.cells.length + n := fun c e => (c.run _ _ _ (tame_zoneOf h _) e).2.1
  have same : ∀ {x : HM α (Answer α × List HVec)}, Still x → x h = .ok ((a, st'), h') → h'.cells.length ≤ h.cells.length + n :=
    fun c e => by rw [c.run _ _ _ e]; omega
  cases c with
  | new =>
    cases hn
    exact use (K := 0) (Cost.bind (HVec.new_cost (L := 0)) (Nat.le_refl _) fun _ _ => Cost.pure (Nat.le_refl _) trivial) e
  | singleton x =>
    cases hn
    exact use (K := 0) (Cost.bind (HVec.singleton_cost x) (Nat.le_refl _) fun _ _ => Cost.pure (Nat.le_refl _) trivial) e
  | collect l => cases hn
  | constant x n => cases hn
  | dualSort => cases hn
  | clone i =>
    cases hn
    cases hi : st[i]? with
    | none => simp only [Call.hrun, hi] at e; cases e; omega
    | some v =>
      simp only [Call.hrun, hi] at e
      exact use (Cost.bind (HVec.clone_cost (r.vecOk hi (Nat.le_refl _))) (Nat.le_refl _) fun _ _ => Cost.pure (Nat.le_refl _) trivial) e
  | act i b =>
    cases hi : st[i]? with
    | none => simp only [Call.hrun, hi] at e; cases e; omega
    | some v =>
      simp only [Call.hrun, hi] at e
      simp only [Call.allowance, hi, Option.elim] at hn
      obtain ⟨K', hc⟩ := b.hrun_cost (r.vecOk hi (Nat.le_refl _)) hn
      exact use (Cost.bind hc (Nat.le_refl _) fun _ _ => Cost.pure (Nat.le_refl _) trivial) e
  | append i j =>
    cases hi : st[i]? with
    | none => simp only [Call.hrun, hi] at e; cases e; omega
    | some v =>
      cases hj : st[j]? with
      | none => simp only [Call.hrun, hi, hj] at e; cases e; omega
      | some w =>
        simp only [Call.hrun, hi, hj] at e
        simp only [Call.allowance, hi, hj, Option.elim] at hn
        cases hn
        refine use (K := max v.height w.height) (K' := max v.height w.height + 2 * max v.height w.height + 1)
          (Cost.bind (HVec.new_cost (L := max v.height w.height)) (by omega) fun x hx => ?_) e
        refine Cost.bind (HVec.append_cost (L := max v.height w.height) ?_ (r.vecOk hj (by omega))) (by omega) fun _ _ =>
          Cost.pure (Nat.le_refl _) trivial
        split
        · exact hx
        · exact r.vecOk hi (by omega)
  | prepend i j =>
    cases hi : st[i]? with
    | none => simp only [Call.hrun, hi] at e; cases e; omega
    | some v =>
      cases hj : st[j]? with
      | none => simp only [Call.hrun, hi, hj] at e; cases e; omega
      | some w =>
        simp only [Call.hrun, hi, hj] at e
        simp only [Call.allowance, hi, hj, Option.elim] at hn
        cases hn
        refine use (K := max v.height w.height) (K' := max v.height w.height + 2 * max v.height w.height + 1)
          (Cost.bind (HVec.new_cost (L := max v.height w.height)) (by omega) fun x hx => ?_) e
        refine Cost.bind (HVec.prepend_cost (L := max v.height w.height) ?_ (r.vecOk hj (by omega))) (by omega) fun _ _ =>
          Cost.pure (Nat.le_refl _) trivial
        split
        · exact hx
        · exact r.vecOk hi (by omega)
  | compare cmp i j =>
    refine same ?_ e
    unfold Call.hrun
    dsimp only
    split
    · exact Still.bind (HVec.cmpVec_still _ _ _) fun _ => Still.pure _
    · exact Still.pure _
  | drop i =>
    cases hn
    cases hi : st[i]? with
    | none => simp only [Call.hrun, hi] at e; cases e; omega
    | some v =>
      simp only [Call.hrun, hi] at e
      exact use (K := 0) (Cost.bind (HVec.drop_cost v) (Nat.le_refl _) fun _ _ => Cost.pure (Nat.le_refl _) trivial) e
  | intoIter i script =>
    cases hi : st[i]? with
    | none => simp only [Call.hrun, hi] at e; cases e; omega
    | some v =>
      simp only [Call.hrun, hi] at e
      simp only [Call.allowance, hi, Option.elim] at hn
      cases hn
      refine use (K' := v.height) (Cost.bind (hrunAll_cost (P := VecOk _ v.height) (fun s w hw => HVec.intoIterStep_cost s hw) script v
        (r.vecOk hi (Nat.le_refl _))) (Nat.le_refl _) fun q hq => ?_) e
      exact Cost.bind (HVec.drop_cost _) (by omega) fun _ _ => Cost.pure (Nat.le_refl _) trivial

/-! ### C50 -/

/-- C50. However many items there are and however many vectors share them, a call makes at most as many nodes as its allowance
says, which is a constant times the height of the vectors that it is given: clones, drops and reads make none, `set` copies one
path, and to cut or to join touches a bounded number of nodes on each level. Nodes are never moved, so those made are the
cells that the heap has more. -/
theorem C50_nodes {prog : List (Call α)} (hf : ∀ c ∈ prog, c.Fits) {answers : List (Answer α)} {st : List HVec} {h : Heap α}
    (e : runHeap prog [] Heap.empty = .ok ((answers, st), h)) (c : Call α) {n : Nat} (hn : c.allowance st = some n)
    {a : Answer α} {st' : List HVec} {h' : Heap α} (e' : c.hrun st h = .ok ((a, st'), h')) :
    h'.cells.length ≤ h.cells.length + n := by
  obtain ⟨ls, r⟩ := Ready.of_run hf e
  exact r.makes c hn e'

/-- C50. In particular, a call that updates one place, or cuts or joins vectors of height at most `m`. -/
theorem C50_linear {prog : List (Call α)} (hf : ∀ c ∈ prog, c.Fits) {answers : List (Answer α)} {st : List HVec} {h : Heap α}
    (e : runHeap prog [] Heap.empty = .ok ((answers, st), h)) {m : Nat} (hm : ∀ v ∈ st, v.height ≤ m) (i j k : Nat) (x : α)
    (sb eb : Bound) {c : Call α}
    (hc : c ∈ [Call.new, .singleton x, .clone i, .drop i, .append i j, .prepend i j, .act i (.set k x), .act i (.setEnd .front x),
      .act i (.setEnd .back x), .act i (.pushBack x), .act i (.pushFront x), .act i .popBack, .act i .popFront,
      .act i (.splitOff k), .act i (.sliceFromStart k), .act i (.sliceToEnd k), .act i (.extractSlice sb eb), .act i (.insert k x),
      .act i (.remove k)])
    {a : Answer α} {st' : List HVec} {h' : Heap α} (e' : c.hrun st h = .ok ((a, st'), h')) :
    h'.cells.length ≤ h.cells.length + 2460 * (m + 1) := by
  have hh : ∀ i : Nat, st[i]?.elim 0 HVec.height ≤ m := by
    intro i
    cases hi : st[i]? with
    | none => exact Nat.zero_le _
    | some v => exact hm v (List.mem_of_getElem? hi)
  have hi := hh i
  have hj := hh j
  have key : ∀ n, c.allowance st = some n → n ≤ 2460 * (m + 1) → h'.cells.length ≤ h.cells.length + 2460 * (m + 1) := by
    intro n hn hle
    have := C50_nodes hf e c hn e'
    omega
  simp only [List.mem_cons, List.not_mem_nil, or_false] at hc
  rcases hc with rfl | rfl | rfl | rfl | rfl | rfl | rfl | rfl | rfl | rfl | rfl | rfl | rfl | rfl | rfl | rfl | rfl | rfl | rfl <;>
    exact key _ rfl (by omega)

/-- Two hundred items in a vector of height one that is cloned twice, so that all of its nodes are shared. -/
def sharedProgram : List (Call Nat) := [.collect (List.range 200), .clone 0, .clone 0]

/-- How many nodes the call makes after this program. -/
def sharedCost (c : Call Nat) : M Nat := do
  let r ← runHeap sharedProgram [] Heap.empty
  let q ← c.hrun r.1.2 r.2
  pure (q.2.cells.length - r.2.cells.length)

/-- All of its nodes but one leaf are shared by three vectors; an item is replaced at the cost of two nodes, the allowance,
and the other calls stay within theirs. To reverse all items copies all nodes. -/
example : (∀ c ∈ sharedProgram, c.Fits) ∧
    (runHeap sharedProgram [] Heap.empty).map (fun r => (r.1.2.map HVec.height, r.2.cells.map fun c => (c.map RcBox.count).getD 0)) =
      .ok ([1, 1, 1], [1, 3, 3, 1, 3]) ∧
    [Call.clone 0, .act 0 (.get 100), .act 1 (.set 100 7), .act 1 (.setEnd .back 7), .act 1 (.pushFront 7), .act 1 .popBack].map
      (fun c => (sharedCost c, c.allowance [⟨[0], [0], 0, 0⟩, ⟨[0], [0], 0, 0⟩])) =
      [(.ok 0, some 0), (.ok 0, some 0), (.ok 2, some 2), (.ok 1, some 1), (.ok 1, some 15), (.ok 1, some 6)] ∧
    [Call.act 1 (.splitOff 100), .act 1 (.insert 100 7), .act 1 (.remove 100), .append 0 1,
      .act 1 (.extractSlice (.included 30) (.excluded 170)), .act 1 (.editFocus [.write 100 7, .write 101 8, .write 20 1]),
      .intoIter 1 [.front, .back], .drop 1, .act 1 (.reverseRange .unbounded .unbounded)].map sharedCost =
      [.ok 6, .ok 6, .ok 6, .ok 3, .ok 9, .ok 4, .ok 2, .ok 0, .ok 5] := by
  refine ⟨?_, by decide +kernel⟩
  intro c hc
  simp only [sharedProgram, List.mem_cons, List.not_mem_nil, or_false] at hc
  rcases hc with rfl | rfl | rfl <;> trivial

end Librrb
