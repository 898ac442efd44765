import Verif.Proof.HeapHistory

/-!
# Reading a vector on the heap, and what the heap holds
-/
namespace Librrb

open VecOf

/-! ### `get` -/

theorem HVec.findLoop_reads {h : Heap α} (index : Nat) : ∀ (l r : List (Addr × Node α)) (idx f b : Nat),
    (∀ p ∈ l, Den h p.1 p.2) → (∀ p ∈ r, Den h p.1 p.2) →
    Reads h (HVec.findLoop index (l.map Prod.fst) (r.map Prod.fst) idx f b)
      (RVec.findLoop index (l.map Prod.snd) (r.map Prod.snd) idx f b) Eq
  | p :: l, q :: r, idx, f, b, hl, hr => by
    simp only [List.map_cons, findLoop, RVec.findLoop]
    refine Reads.bind (Reads.len (hl p (by simp))) fun n _ hn => ?_
    subst hn
    refine Reads.ite (fun _ => Reads.same fun d _ => Reads.pure rfl) fun _ => ?_
    refine Reads.bind (Reads.len (hr q (by simp))) fun m _ hm => ?_
    subst hm
    refine Reads.same fun b' _ => ?_
    refine Reads.ite (fun _ => Reads.same fun d _ => Reads.pure rfl) fun _ => ?_
    exact findLoop_reads index l r _ _ _ (fun p hp => hl p (by simp [hp])) (fun p hp => hr p (by simp [hp]))
  | [], r, idx, f, b, hl, hr => by
    simp only [List.map_nil, findLoop, RVec.findLoop]
    exact Reads.same fun _ _ => Reads.same fun _ _ => Reads.pure rfl
  | p :: l, [], idx, f, b, hl, hr => by
    simp only [List.map_nil, List.map_cons, findLoop, RVec.findLoop]
    exact Reads.same fun _ _ => Reads.same fun _ _ => Reads.pure rfl

theorem HVec.get_reads {h : Heap α} {g : HVec} {d : RVec α} (hs : SameVec h g d) (i : Nat) :
    Reads h (g.get i) (d.get i) Eq := by
  obtain ⟨p, rfl, rfl, hp⟩ := hs
  unfold HVec.get RVec.get
  refine Reads.bind (Q := Eq) ?_ fun q _ hq => ?_
  · unfold findNodeInfoForIndex RVec.findNodeInfoForIndex
    refine Reads.ite (fun _ => Reads.pure rfl) fun _ => ?_
    refine Reads.bind (findLoop_reads i p.left p.right 0 0 _ (fun x hx => hp x (by simp [entries, hx]))
      fun x hx => hp x (by simp [entries, hx])) fun r _ hr => ?_
    subst hr
    exact Reads.pure rfl
  · subst hq
    rcases q with _ | ⟨pos, sub⟩
    · exact Reads.pure rfl
    · refine Reads.nat (nodeAt_nat p pos).1 (nodeAt_nat p pos).2 fun x hx => ?_
      have hx : x ∈ p.entries := by
        rcases pos with _ | ⟨s, j⟩
        · cases hx; simp [entries]
        · cases s
          · have := List.mem_of_getElem? (unwrap_inv hx); simp [entries, this]
          · have := List.mem_of_getElem? (unwrap_inv hx); simp [entries, this]
      refine Reads.bind (Entry.get_reads sub (hp x hx)) fun o _ ho => ?_
      subst ho
      exact Reads.same fun _ _ => Reads.pure rfl

/-! ### Garbage -/

/-- A chain of `n` entries leads down from the node. -/
def Deep (h : Heap α) : Nat → Addr → Prop
  | 0, _ => True
  | n + 1, a => ∃ m, h.node a = some m ∧ ∃ k ∈ m.kids, Deep h n k

theorem exists_bound {P : β → Nat → Prop} (mono : ∀ x n m, P x n → n ≤ m → P x m) : ∀ (l : List β),
    (∀ x ∈ l, ∃ n, P x n) → ∃ n, ∀ x ∈ l, P x n
  | [], _ => ⟨0, by simp⟩
  | x :: l, hl => by
    obtain ⟨n, hn⟩ := hl x (by simp)
    obtain ⟨m, hm⟩ := exists_bound mono l fun y hy => hl y (by simp [hy])
    refine ⟨n + m, fun y hy => ?_⟩
    rcases List.mem_cons.1 hy with rfl | hy
    · exact mono _ _ _ hn (by omega)
    · exact mono _ _ _ (hm y hy) (by omega)

theorem Den.depth {h : Heap α} {a : Addr} {nd : Node α} (d : Den h a nd) : ∃ N, ∀ n, Deep h n a → n ≤ N := by
  induction d with
  | mk P e _ ih =>
    obtain ⟨N, hN⟩ := exists_bound (P := fun (p : Addr × Node α) N => ∀ n, Deep h n p.1 → n ≤ N)
      (fun x n m hx hnm k hk => (hx k hk).trans hnm) P.kids ih
    refine ⟨N + 1, fun n hn => ?_⟩
    cases n with
    | zero => omega
    | succ n =>
      obtain ⟨m, em, k, hk, hd⟩ := hn
      rw [e] at em
      cases em
      rw [Body.kids_map] at hk
      obtain ⟨p, hp, rfl⟩ := List.mem_map.1 hk
      have := hN p hp n hd
      omega

/-- Every live node is below some owned entry. -/
theorem World.no_garbage {h : Heap α} {L : Ctx α} (w : World h L) {R : Addr → Prop} (hL : ∀ a, 1 ≤ L.refs a → R a)
    (hR : ∀ a n k, R a → h.node a = some n → k ∈ n.kids → R k) {a : Addr} {c : RcBox α} (e : h.cell a = some c) : R a := by
  by_contra hn
  -- there are unreachable nodes with chains of any length below them
  have climb : ∀ n, ∃ b c, h.cell b = some c ∧ ¬ R b ∧ Deep h n b := by
    intro n
    induction n with
    | zero => exact ⟨a, c, e, hn, trivial⟩
    | succ n ih =>
      obtain ⟨b, cb, eb, hb, db⟩ := ih
      have h1 := w.pos b cb eb
      have h2 := w.counts b
      rw [Heap.count_of_cell eb] at h2
      have h3 : L.refs b = 0 := by
        by_contra hne
        exact hb (hL b (by omega))
      have h4 : 1 ≤ h.uses b := by omega
      unfold Heap.uses at h4
      have : ∃ o ∈ h.cells, b ∈ Heap.kidsOf o := by
        by_contra hno
        have : (h.cells.map fun c => (Heap.kidsOf c).count b).sum = 0 := by
          refine List.sum_eq_zero fun x hx => ?_
          obtain ⟨o, ho, rfl⟩ := List.mem_map.1 hx
          exact List.count_eq_zero.2 fun hb => hno ⟨o, ho, hb⟩
        omega
      obtain ⟨o, ho, hbo⟩ := this
      obtain ⟨i, hi, rfl⟩ := List.getElem_of_mem ho
      cases ho : h.cells[i] with
      | none => rw [ho] at hbo; simp [Heap.kidsOf] at hbo
      | some o =>
        rw [ho] at hbo
        have hbo : b ∈ o.node.kids := by simpa [Heap.kidsOf] using hbo
        have ei : h.cell i = some o := by
          unfold Heap.cell
          rw [List.getElem?_eq_getElem hi, ho]; rfl
        refine ⟨i, o, ei, fun hr => hb (hR i _ b hr (Heap.node_of_cell ei) hbo), o.node, Heap.node_of_cell ei, b, hbo, db⟩
  -- but the chains are bounded
  obtain ⟨N, hN⟩ := exists_bound (P := fun (i : Nat) N => ∀ c, h.cell i = some c → ∀ n, Deep h n i → n ≤ N)
    (fun x n m hx hnm c hc k hk => (hx c hc k hk).trans hnm) (List.range h.cells.length) fun i _ => by
      cases hc : h.cell i with
      | none => exact ⟨0, by simp⟩
      | some c =>
        obtain ⟨nd, d⟩ := w.den i _ (Heap.node_of_cell hc)
        obtain ⟨N, hN⟩ := d.depth
        exact ⟨N, fun _ _ => hN⟩
  obtain ⟨b, cb, eb, -, db⟩ := climb (N + 1)
  have := hN b (List.mem_range.2 (Heap.cell_lt eb)) cb eb _ db
  omega

/-- Every entry inside of a node leads to a live node. -/
theorem World.kid_live {h : Heap α} {L : Ctx α} (w : World h L) {b : Addr} {n : Body α Addr} (e : h.node b = some n) {k : Addr}
    (hk : k ∈ n.kids) : ∃ c, h.cell k = some c := by
  have h1 := World.used_of_kid e hk
  have h2 := w.counts k
  cases hc : h.cell k with
  | none => rw [Heap.count, hc] at h2; simp at h2; omega
  | some c => exact ⟨c, rfl⟩

end Librrb
