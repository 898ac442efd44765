import Verif.Proof.Space
import Verif.Proof.DenseCalls
import Verif.Props.Memory

/-!
# C60: how much memory vectors take
-/
namespace Librrb

theorem sum_map_le {f g : β → Nat} : ∀ (l : List β), (∀ x ∈ l, f x ≤ g x) → (l.map f).sum ≤ (l.map g).sum
  | [], _ => Nat.le_refl _
  | x :: l, h => by
    have h1 := h x (by simp)
    have h2 := sum_map_le l fun y hy => h y (by simp [hy])
    simp only [List.map_cons, List.sum_cons]
    omega

theorem mul_sum_map (k : Nat) (f : β → Nat) : ∀ l : List β, k * (l.map f).sum = (l.map fun x => k * f x).sum
  | [] => rfl
  | x :: l => by
    simp only [List.map_cons, List.sum_cons, Nat.mul_add, mul_sum_map k f l]

theorem Holding.built {vs : List (RVec α)} {ls : List (List α)} (h : Holding vs ls) : ∀ v ∈ vs, Built v := by
  intro v hv
  obtain ⟨i, hi, rfl⟩ := List.getElem_of_mem hv
  exact (h.2 i _ (List.getElem?_eq_getElem hi)).1

theorem RVec.InvH.at_most_ten {v : RVec α} {h : Nat} (i : RVec.InvH v h) (s : v.Snug) : h ≤ 10 := by
  apply Nat.le_of_not_lt
  intro h11
  obtain ⟨k, rfl⟩ : ∃ k, h = k + 11 := ⟨h - 11, by omega⟩
  have h1 := (RVec.InvH.height (h := k + 10) i (i.len ▸ s)).1
  have h2 : 64 ^ (k + 10) = 64 ^ 10 * 64 ^ k := by rw [Nat.pow_add, Nat.mul_comm]
  have h3 : 1 ≤ 64 ^ k := Nat.pow_pos (by omega)
  have h4 : 64 ^ 10 * 1 ≤ 64 ^ 10 * 64 ^ k := Nat.mul_le_mul_left _ h3
  have := i.lt
  omega

theorem Mirrors.nodes_le {h : Heap α} {st : List HVec} {vs : List (RVec α)} (m : Mirrors h st vs) (hb : ∀ v ∈ vs, Built v) {f : HVec → Nat}
    {k : Nat} (hf : ∀ p : VecOf (Addr × Node α), p.nodes ∈ vs → RVec.InvH p.nodes p.addrs.height → k * p.nodes.nodeCount ≤ f p.addrs) :
    k * h.nodes ≤ (st.map f).sum := by
  obtain ⟨ps, rfl, rfl, w⟩ := m
  have inv : ∀ p ∈ ps, (VecOf.nodes p : RVec α).Inv := fun p hp => (hb _ (List.mem_map_of_mem hp)).inv
  obtain ⟨-, hs⟩ := Ctx.owned_items inv
  have hle := (w.nodes_le _ hs rfl).1
  rw [Ctx.owned_count] at hle
  refine (Nat.mul_le_mul_left k hle).trans ?_
  rw [List.map_map, mul_sum_map]
  refine sum_map_le ps fun p hp => ?_
  obtain ⟨n, i⟩ := inv p hp
  have hl := i.length .front
  refine hf p (List.mem_map_of_mem hp) ?_
  have : p.addrs.height = n := by
    simpa [HVec.height, VecOf.addrs, VecOf.nodes, RVec.spine] using hl
  rw [this]
  exact i

theorem Mirrors.low {h : Heap α} {st : List HVec} {vs : List (RVec α)} (m : Mirrors h st vs) (hb : ∀ v ∈ vs, Built v)
    (hs : ∀ v ∈ vs, v.Snug) : ∀ v ∈ st, v.height ≤ 10 := by
  intro v hv
  obtain ⟨ps, rfl, rfl, -⟩ := m
  obtain ⟨p, hp, rfl⟩ := List.mem_map.1 hv
  obtain ⟨n, i⟩ := (hb _ (List.mem_map_of_mem hp)).inv
  have hn : p.addrs.height = n := by
    simpa [HVec.height, VecOf.addrs, VecOf.nodes, RVec.spine] using i.length .front
  rw [hn]
  exact i.at_most_ten (hs _ (List.mem_map_of_mem hp))

/-- What holds of the trees after a program without concatenations. -/
theorem Mirrors.snug {prog : List (Call α)} (hf : ∀ c ∈ prog, c.Fits) (hj : ∀ c ∈ prog, c.Joinless) :
    ∀ {st : List HVec} {h : Heap α} {vs : List (RVec α)} {ls : List (List α)}, Mirrors h st vs → Holding vs ls → (∀ v ∈ vs, v.Snug) →
    ∀ {as : List (Answer α)} {st' : List HVec} {h' : Heap α}, runHeap prog st h = .ok ((as, st'), h') →
    ∃ vs' ls', Mirrors h' st' vs' ∧ Holding vs' ls' ∧ ∀ v ∈ vs', v.Snug := by
  induction prog with
  | nil =>
    intro st h vs ls m hv hs as st' h' e
    cases e
    exact ⟨vs, ls, m, hv, hs⟩
  | cons c cs ih =>
    intro st h vs ls m hv hs as st' h' e
    obtain ⟨q, hq, s⟩ := call_ok hv c (hf c (by simp))
    have hfm : ∀ v ∈ vs, ∃ d, v.cells.focusMut = .ok d := fun v hm => (hv.built v hm).focusMut
    simp only [runHeap, hrunAll] at e
    cases q with
    | error f =>
      rw [hm_error (call_fails m hfm c s fun he => (Call.means_safe hq).1 (by rw [he]))] at e
      cases e
    | ok q =>
      obtain ⟨ws, e1, hw⟩ := s
      obtain ⟨st1, h1, e2, m'⟩ := call_mirrors m hfm c e1
      rw [hm_bind e2] at e
      obtain ⟨r, h2, e3, e⟩ := hm_bind_inv e
      cases e
      exact ih (fun c hc => hf c (by simp [hc])) (fun c hc => hj c (by simp [hc])) m' hw
        (Call.run_snug hv.built hs (hj c (by simp)) _ e1) e3

/-- C60. Whatever program ran: a vector has at most as many nodes on a level as it has items, apart from the two at its edges. -/
theorem C60_nodes {prog : List (Call α)} (hf : ∀ c ∈ prog, c.Fits) {as : List (Answer α)} {st : List HVec} {h : Heap α}
    (e : runHeap prog [] Heap.empty = .ok ((as, st), h)) :
    h.nodes ≤ (st.map fun v => v.height * v.len + 2 * v.height + 1).sum := by
  obtain ⟨ls, vs, m, hv⟩ := Ready.of_run hf e
  have := m.nodes_le hv.built (k := 1) (f := fun v => v.height * v.len + 2 * v.height + 1) fun p _ i => by
    have := i.count_le
    have hl : p.nodes.len = p.addrs.len := rfl
    rw [hl] at this
    omega
  omega

/-- C60. If nothing was concatenated, there is one node for 63 items, and a path of nodes at either end. The height is at most
ten, so these are at most 21 nodes. -/
theorem C60_dense {prog : List (Call α)} (hf : ∀ c ∈ prog, c.Fits) (hj : ∀ c ∈ prog, c.Joinless) {as : List (Answer α)}
    {st : List HVec} {h : Heap α} (e : runHeap prog [] Heap.empty = .ok ((as, st), h)) :
    63 * h.nodes ≤ (st.map fun v => v.len + 63 * (2 * v.height + 1)).sum ∧ ∀ v ∈ st, v.height ≤ 10 := by
  obtain ⟨vs0, m0, hv0⟩ := Ready.empty (α := α)
  have h0 : vs0 = [] := List.eq_nil_of_length_eq_zero hv0.1
  obtain ⟨vs, ls, m, hv, hs⟩ := Mirrors.snug hf hj m0 hv0 (by simp [h0]) e
  refine ⟨m.nodes_le hv.built fun p hp i => ?_, m.low hv.built hs⟩
  · have := i.count_dense (i.len ▸ hs _ hp)
    have hl : p.nodes.len = p.addrs.len := rfl
    rw [hl] at this
    omega

/-- C60. So the vectors take one node for 63 items and at most 21 more for each vector. -/
theorem C60_linear {prog : List (Call α)} (hf : ∀ c ∈ prog, c.Fits) (hj : ∀ c ∈ prog, c.Joinless) {as : List (Answer α)}
    {st : List HVec} {h : Heap α} (e : runHeap prog [] Heap.empty = .ok ((as, st), h)) :
    63 * h.nodes ≤ (st.map VecOf.len).sum + 1323 * st.length := by
  obtain ⟨h1, h2⟩ := C60_dense hf hj e
  refine h1.trans ?_
  clear h1 e
  induction st with
  | nil => simp
  | cons v st ih =>
    have := h2 v (by simp)
    have := ih fun w hw => h2 w (by simp [hw])
    simp only [List.map_cons, List.sum_cons, List.length_cons]
    omega

/-- The program of C49 concatenates: it leaves two vectors, of 200 items and of none, and ten nodes. -/
example : (∀ c ∈ busy, c.Fits) ∧
    (runHeap busy [] Heap.empty).map (fun r => (r.2.nodes, r.1.2.map fun v => (v.height, v.len))) = .ok (10, [(1, 200), (0, 0)]) :=
  ⟨by simp [busy, Call.Fits, Act.Fits], by decide +kernel⟩

/-- That of C51 does not: it leaves two vectors that share nodes, seven nodes in all. -/
example : (∀ c ∈ parting, c.Fits) ∧ (∀ c ∈ parting, c.Joinless) ∧
    (runHeap parting [] Heap.empty).map (fun r => (r.2.nodes, r.1.2.map fun v => (v.height, v.len))) = .ok (7, [(1, 200), (1, 198)]) :=
  ⟨by simp [parting, sharing, Call.Fits, Act.Fits], by simp [parting, sharing, Call.Joinless, Act.Joinless], by decide +kernel⟩

/-- Two items, and two more concatenated `n` times. -/
def joining (n : Nat) : List (Call Nat) :=
  .collect [0, 1] :: (List.replicate n [Call.collect [0, 1], .append 0 1, .drop 1]).flatten

/-- C60. With concatenations the bound of `C60_linear` fails: `concat` leaves leaves and nodes above them almost empty. Fifty
concatenations of two items make a vector of 102 items with 41 nodes. -/
theorem C60_joins : ∃ (prog : List (Call Nat)) (as : List (Answer Nat)) (st : List HVec) (h : Heap Nat),
    (∀ c ∈ prog, c.Fits) ∧ runHeap prog [] Heap.empty = .ok ((as, st), h) ∧
    (st.map VecOf.len).sum + 1323 * st.length < 63 * h.nodes := by
  have hd : (runHeap (joining 50) [] Heap.empty).map (fun r => (r.2.nodes, r.1.2.map VecOf.len)) = .ok (41, [102]) := by
    decide +kernel
  match e : runHeap (joining 50) [] Heap.empty with
  | .error f => rw [e] at hd; cases hd
  | .ok ((as, st), h) =>
    rw [e] at hd
    injection hd with hd
    injection hd with h1 h2
    refine ⟨_, as, st, h, ?_, e, ?_⟩
    · intro c hc
      simp only [joining, List.mem_cons, List.mem_flatten, List.mem_replicate] at hc
      obtain rfl | ⟨l, ⟨-, rfl⟩, hc⟩ := hc
      · simp [Call.Fits]
      · simp only [List.mem_cons, List.not_mem_nil, or_false] at hc
        obtain rfl | rfl | rfl := hc <;> simp [Call.Fits]
    · dsimp only at h1 h2
      have h3 : st.length = 1 := by rw [← List.length_map (f := VecOf.len), h2]; rfl
      rw [h1, h2, h3]
      decide

end Librrb
