import Verif.Model.DropUnwind
import Verif.Proof.HeapItems
import Verif.Props.Clone

/-!
# Dropping vectors whose items panic
-/
namespace Librrb
open RVec

variable {γ α : Type} {quits : γ → α → Bool × γ}

/-- From `s` to `s'` the items `d` were dropped, and `p` of them panicked; what is in `K` is not owned by anybody any more. -/
structure Sheds (F K : Ctx α) (m : Multiset α) (p : Nat) (s s' : DropState γ α) : Prop where
  world : World s'.heap (K + F)
  exact : p = 0 → K = 0
  total : s'.heap.total ≤ s.heap.total
  log : ∃ d, s'.dropped = s.dropped ++ d ∧ d.countP Prod.snd = p ∧
    ((d.map Prod.fst : List α) : Multiset α) + s'.heap.items ≤ s.heap.items ∧
    (p = 0 → ((d.map Prod.fst : List α) : Multiset α) + s'.heap.items = s.heap.items) ∧
    ((d.map Prod.fst : List α) : Multiset α) ≤ m

theorem Sheds.trans {F K K' : Ctx α} {m m' : Multiset α} {p p' : Nat} {s s' s'' : DropState γ α} {G : Ctx α}
    (a : Sheds G K m p s s') (b : Sheds F K' m' p' s' s'') (hK : p + p' = 0 → K' = 0) : Sheds F K' (m + m') (p + p') s s'' := by
  obtain ⟨d, e1, e2, e3, e4, e5⟩ := a.log
  obtain ⟨d', e1', e2', e3', e4', e5'⟩ := b.log
  refine ⟨b.world, hK, b.total.trans a.total, d ++ d', by rw [e1', e1, List.append_assoc], by rw [List.countP_append, e2, e2'], ?_, ?_, ?_⟩
  · rw [List.map_append, ← Multiset.coe_add, add_assoc]
    exact (add_le_add_right e3' _).trans e3
  · intro h
    rw [List.map_append, ← Multiset.coe_add, add_assoc, e4' (by omega), e4 (by omega)]
  · rw [List.map_append, ← Multiset.coe_add]
    exact add_le_add e5 e5'

theorem Sheds.refl {F : Ctx α} {s : DropState γ α} (w : World s.heap F) : Sheds F 0 0 0 s s :=
  ⟨by rwa [zero_add], fun _ => rfl, le_rfl, [], by simp, rfl, by simp, by simp, by simp⟩

theorem Sheds.mono {F K : Ctx α} {m m' : Multiset α} {p : Nat} {s s' : DropState γ α} (a : Sheds F K m p s s') (h : m ≤ m') :
    Sheds F K m' p s s' := by
  obtain ⟨d, e1, e2, e3, e4, e5⟩ := a.log
  exact ⟨a.world, a.exact, a.total, d, e1, e2, e3, e4, e5.trans h⟩

/-- Dropping the items of a leaf changes no heap. -/
theorem dropItems_ok : ∀ (l : List α) (s : DropState γ α), ∃ p s' d, untilPanic (dropItem quits) l s = .ok (p, s') ∧ s'.heap = s.heap ∧
    s'.dropped = s.dropped ++ d ∧ d.countP Prod.snd = p.toNat ∧ (d.map Prod.fst) <+: l ∧ (p = false → d.map Prod.fst = l)
  | [], s => ⟨false, s, [], rfl, rfl, by simp, rfl, by simp, by simp⟩
  | x :: l, s => by
    simp only [untilPanic, dropItem]
    cases hq : (quits s.env x).1 with
    | true =>
      refine ⟨true, _, [(x, true)], rfl, rfl, rfl, rfl, ?_, by simp⟩
      exact ⟨l, rfl⟩
    | false =>
      obtain ⟨p, s', d, e, e1, e2, e3, e4, e5⟩ := dropItems_ok l { s with env := (quits s.env x).2, dropped := s.dropped ++ [(x, false)] }
      refine ⟨p, s', (x, false) :: d, e, e1, by rw [e2]; simp, by rw [List.countP_cons_of_neg (by simp), e3], ?_, ?_⟩
      · exact List.prefix_cons_inj _ |>.2 e4
      · intro h
        rw [List.map_cons, e5 h]

/-- Dropping the entries of a node, if that of one entry is right. -/
theorem untilPanic_ok {f : Addr → DropState γ α → M (Bool × DropState γ α)} {n : Nat}
    (hf : ∀ {a : Addr} {nd : Node α} {F : Ctx α} {s : DropState γ α}, World s.heap (has (a, nd) + F) → (∃ k, nd.Wf k) → s.heap.total < n →
      ∃ p s' K, f a s = .ok (p, s') ∧ Sheds F K (nd.toList : Multiset α) p.toNat s s') :
    ∀ (ps : List (Addr × Node α)) {F : Ctx α} {s : DropState γ α}, World s.heap (own ps + F) → (∀ p ∈ ps, ∃ k, p.2.Wf k) →
      s.heap.total < n → ∃ p s' K, untilPanic f (ps.map Prod.fst) s = .ok (p, s') ∧ Sheds F K (Ctx.items (own ps)) p.toNat s s'
  | [], F, s, w, _, _ => ⟨false, s, 0, rfl, by simpa [Ctx.items] using Sheds.refl (by simpa using w)⟩
  | (a, nd) :: ps, F, s, w, hw, hn => by
    rw [own_cons, add_assoc] at w
    obtain ⟨p, s', K, e, sh⟩ := hf w (hw _ (List.mem_cons_self ..)) hn
    rw [own_cons, Ctx.items_add, Ctx.items_has, List.map_cons, untilPanic]
    cases p with
    | true =>
      refine ⟨true, s', K + own ps, by simp [e, bind, Except.bind], ?_⟩
      obtain ⟨d, e1, e2, e3, e4, e5⟩ := sh.log
      refine ⟨by rw [add_assoc]; exact sh.world, by simp, sh.total, d, e1, e2, e3, e4, e5.trans (Multiset.le_add_right _ _)⟩
    | false =>
      have hK : K = 0 := sh.exact rfl
      subst hK
      obtain ⟨p, s2, K, e', sh'⟩ := untilPanic_ok hf ps (s := s') (by have := sh.world; rwa [zero_add] at this)
        (fun q hq => hw q (List.mem_cons_of_mem _ hq)) (lt_of_le_of_lt sh.total hn)
      refine ⟨p, s2, K, by simp [e, bind, Except.bind, e'], ?_⟩
      have := sh.trans sh' (fun h => sh'.exact (by simpa using h))
      simpa using this

theorem dropEntryU_ok : ∀ (n : Nat) {a : Addr} {nd : Node α} {F : Ctx α} {s : DropState γ α}, World s.heap (has (a, nd) + F) →
    (∃ k, nd.Wf k) → s.heap.total < n →
    ∃ p s' K, dropEntryU quits n a s = .ok (p, s') ∧ Sheds F K (nd.toList : Multiset α) p.toNat s s'
  | 0, _, _, _, _, _, _, h => absurd h (by omega)
  | n + 1, a, nd, F, s, w, hw, hn => by
    obtain ⟨c, hc⟩ := w.cell_of_refs (a := a) (by rw [refs_add, refs_has, if_pos rfl]; omega)
    have hpos := w.pos a c hc
    rw [dropEntryU, hc]
    dsimp only
    by_cases h1 : c.count = 1
    · obtain ⟨P, eP, rfl, hP⟩ := (w.mem a nd (by simp)).inv
      obtain ⟨count, node⟩ := c
      cases h1
      rw [Heap.node_of_cell hc] at eP
      obtain rfl : node = P.map Prod.fst := Option.some.inj eP
      have w' := w.free_ok hP hc
      obtain ⟨k, hw⟩ := hw
      obtain ⟨hi, hk⟩ := items_of_body hw
      have ht := Heap.total_put hc none
      have hit := Heap.items_put hc none
      simp only [Option.map_none, Option.getD_none, Multiset.coe_nil, add_zero] at ht hit
      rw [if_pos (by simp)]
      rw [hi]
      cases P with
      | leaf b =>
        obtain ⟨p, s', d, e, e1, e2, e3, e4, e5⟩ := dropItems_ok (quits := quits) (b.data.filterMap id) { s with heap := s.heap.put a none }
        refine ⟨p, s', 0, e, ?_⟩
        have hle : ((d.map Prod.fst : List α) : Multiset α) ≤ ((b.data.filterMap id : List α) : Multiset α) :=
          Multiset.coe_le.2 e4.sublist.subperm
        refine ⟨by rw [e1, zero_add]; simpa [Body.kids] using w', fun _ => rfl, by rw [e1]; dsimp only; omega, d, e2, e3, ?_, ?_, ?_⟩
        · rw [e1, ← hit, add_comm]
          exact add_le_add_right hle _
        · intro hp
          rw [e1, ← hit, add_comm, e5 (by cases p <;> simp_all)]
          rfl
        · exact hle.trans (Multiset.le_add_right _ _)
      | internal z t r =>
        have hkids : (r.map Prod.fst).data.filterMap id = (Body.internal z t r : Body α (Addr × Node α)).kids.map Prod.fst :=
          Body.kids_map Prod.fst (Body.internal z t r : Body α (Addr × Node α))
        obtain ⟨p, s', K, e, sh⟩ := untilPanic_ok (f := dropEntryU quits n) (dropEntryU_ok n)
          (Body.internal z t r : Body α (Addr × Node α)).kids (s := { s with heap := s.heap.put a none }) w'
          (fun q hq => by
            obtain ⟨nd, k, e, hw⟩ := hk (q.1, some q.2) (mem_own.2 hq)
            cases e
            exact ⟨k, hw⟩) (by dsimp only; omega)
        refine ⟨p, s', K, by rw [← e, ← hkids]; rfl, ?_⟩
        obtain ⟨d, e1, e2, e3, e4, e5⟩ := sh.log
        have hit' : ((s.heap.put a none).items : Multiset α) = s.heap.items := by
          rw [← hit]
          simp [Body.map, Body.items]
        refine ⟨sh.world, sh.exact, sh.total.trans (by dsimp only; omega), d, e1, e2, by rw [← hit']; exact e3, by rw [← hit']; exact e4, ?_⟩
        exact e5.trans (Multiset.le_add_left _ _)
    · have w' := w.decr_ok hc (by omega)
      have ht := Heap.total_put hc (some { c with count := c.count - 1 })
      have hit := Heap.items_put hc (some { c with count := c.count - 1 })
      simp only [Option.map_some, Option.getD_some, add_left_inj] at ht hit
      rw [if_neg (by omega)]
      refine ⟨false, _, 0, rfl, by rw [zero_add]; exact w', fun _ => rfl, by dsimp only; omega, [], by simp, rfl, ?_, ?_, by simpa using Multiset.zero_le _⟩
      · rw [hit]; simp
      · rw [hit]; simp

/-- How many items have panicked, if `r` is what came of the drop of a vector. -/
def panics : Option Bool → Nat
  | none => 2
  | some p => p.toNat

theorem dropFields_ok : ∀ (ps : List (Addr × Node α)) (late : Bool) {F : Ctx α} {s : DropState γ α}, World s.heap (own ps + F) →
    (∀ p ∈ ps, ∃ k, p.2.Wf k) → ∃ r s' K, dropFields quits late (ps.map Prod.fst) s = .ok (r, s') ∧ late.toNat ≤ panics r ∧
      Sheds F K (Ctx.items (own ps)) (panics r - late.toNat) s s'
  | [], late, F, s, w, _ => ⟨some late, s, 0, rfl, le_rfl, by
      simpa [panics, Ctx.items] using Sheds.refl (by simpa using w)⟩
  | (a, nd) :: ps, late, F, s, w, hw => by
    rw [own_cons, add_assoc] at w
    obtain ⟨p, s', K, e, sh⟩ := dropEntryU_ok (quits := quits) (s.heap.total + 1) w (hw _ (List.mem_cons_self ..)) (by omega)
    rw [own_cons, Ctx.items_add, Ctx.items_has, List.map_cons, dropFields]
    by_cases hab : (p && late) = true
    · obtain ⟨rfl, rfl⟩ := by simpa using hab
      obtain ⟨d, e1, e2, e3, e4, e5⟩ := sh.log
      exact ⟨none, s', K + own ps, by simp [e, bind, Except.bind], by simp [panics],
        by rw [add_assoc]; exact sh.world, by simp [panics], sh.total, d, e1, e2, e3, e4, e5.trans (Multiset.le_add_right _ _)⟩
    · obtain ⟨r, s2, K', e', hl, sh'⟩ := dropFields_ok ps (p || late) (F := K + F) (s := s')
        (by have := sh.world; rwa [add_left_comm] at this) (fun q hq => hw q (List.mem_cons_of_mem _ hq))
      have hsum : p.toNat + (panics r - (p || late).toNat) = panics r - late.toNat ∧ late.toNat ≤ panics r := by
        cases p <;> cases late <;> simp at hab hl ⊢ <;> omega
      refine ⟨r, s2, K' + K, by simp [e, bind, Except.bind, hab, e'], hsum.2, ?_⟩
      rw [← hsum.1]
      obtain ⟨d, e1, e2, e3, e4, e5⟩ := (sh.trans sh' (fun h => sh'.exact (by omega))).log
      refine ⟨by rw [add_assoc]; exact sh'.world, fun h => ?_, sh'.total.trans sh.total, d, e1, e2, e3, e4, e5⟩
      rw [sh'.exact (by omega), sh.exact (by omega), add_zero]

/-! ### Programs -/

/-- The heap holds vectors of the API that present the given sequences, and `K`, which nobody owns. -/
def Littered (K : Ctx α) (h : Heap α) (st : List HVec) (ls : List (List α)) : Prop :=
  ∃ ps : List (VecOf (Addr × Node α)), st = ps.map VecOf.addrs ∧ World h ((ps.map VecOf.owned).sum + K) ∧ Holding (ps.map VecOf.nodes) ls

theorem Littered.holding {K : Ctx α} {h : Heap α} {st : List HVec} {ls : List (List α)} (r : Littered K h st ls) : HHolding h st ls := by
  obtain ⟨ps, rfl, w, hl, hv⟩ := r
  refine ⟨by simpa using hl, fun i v e => ?_⟩
  rw [List.getElem?_map] at e
  obtain ⟨p, ep, rfl⟩ := Option.map_eq_some_iff.1 e
  obtain ⟨-, l, el, s⟩ := hv i p.nodes (by rw [List.getElem?_map, ep]; rfl)
  have hs : SameVec h p.addrs p.nodes := by
    refine w.sameVec ?_
    rw [(sum_at (f := VecOf.owned) ep).1]
    exact fun x hx => Multiset.mem_add.2 (.inl (Multiset.mem_add.2 (.inl hx)))
  refine ⟨l, el, s.1, fun j => ?_⟩
  obtain ⟨g, eg, rfl⟩ := (HVec.get_reads hs j).ok _ (s.2 j)
  exact eg

theorem Littered.ready {h : Heap α} {st : List HVec} {ls : List (List α)} (r : Littered 0 h st ls) : Ready h st ls := by
  obtain ⟨ps, rfl, w, hv⟩ := r
  exact ⟨_, ⟨ps, rfl, rfl, by rwa [add_zero] at w⟩, hv⟩

theorem Littered.call {K : Ctx α} {h : Heap α} {st : List HVec} {ls : List (List α)} (r : Littered K h st ls) (c : Call α) (hf : c.Fits) :
    ∃ q, c.Means ls q ∧
      match q with
      | .error e => c.hrun st h = .error e
      | .ok (a, ls') => ∃ st' h', c.hrun st h = .ok ((a, st'), h') ∧ Littered K h' st' ls' := by
  obtain ⟨ps, rfl, w, hv⟩ := r
  obtain ⟨q, hq, s⟩ := call_ok hv c hf
  have hfm : ∀ p ∈ ps, ∃ d, p.nodes.cells.focusMut = .ok d := by
    intro p hm
    obtain ⟨i, hi, e⟩ := List.getElem_of_mem hm
    exact (hv.2 i p.nodes (by rw [List.getElem?_map, List.getElem?_eq_getElem hi, e]; rfl)).1.focusMut
  refine ⟨q, hq, ?_⟩
  cases q with
  | error e => exact ((call_sim ps hfm c).err e s fun he => (Call.means_safe hq).1 (by rw [he])).seq h K w
  | ok q =>
    obtain ⟨ws, e, hw⟩ := s
    obtain ⟨⟨g1, g2⟩, h', L', k, ⟨rfl, qs, rfl, q2, rfl⟩, w'⟩ := ((call_sim ps hfm c).ok _ e).seq h K w
    cases q2
    exact ⟨_, h', k, qs, rfl, w', hw⟩

/-- The drop of a variable. -/
theorem Littered.drop {K : Ctx α} {s : DropState γ α} {st : List HVec} {ls : List (List α)} (r : Littered K s.heap st ls) {i : Nat}
    {v : HVec} (hv : st[i]? = some v) : ∃ q s' K' l, dropFields quits false v.entries s = .ok (q, s') ∧ ls[i]? = some l ∧
      (∃ F, Sheds F K' (l : Multiset α) (panics q) s s') ∧ Littered (K' + K) s'.heap (st.eraseIdx i) (ls.eraseIdx i) := by
  obtain ⟨ps, rfl, w, hh⟩ := r
  rw [List.getElem?_map] at hv
  obtain ⟨p, ep, rfl⟩ := Option.map_eq_some_iff.1 hv
  obtain ⟨b, l, el, s1⟩ := hh.2 i p.nodes (by rw [List.getElem?_map, ep]; rfl)
  obtain ⟨k, inv⟩ := b.inv
  obtain ⟨hit, hso⟩ := Ctx.owned_items (ps := [p]) (fun q hq => by rw [List.mem_singleton.1 hq]; exact ⟨k, inv⟩)
  simp only [List.map_singleton, List.sum_singleton, List.flatMap_singleton] at hit hso
  have hl : p.nodes.toList = l := (shows_iff inv).1 s1
  obtain ⟨h1, -⟩ := sum_at (f := VecOf.owned) ep
  rw [h1, ← VecOf.own_entries, add_assoc] at w
  obtain ⟨q, s', K', e, -, sh⟩ := dropFields_ok (quits := quits) p.entries false w (fun x hx => by
    obtain ⟨nd, n, e, hw⟩ := hso (x.1, some x.2) (by rw [← VecOf.own_entries]; exact mem_own.2 hx)
    cases e
    exact ⟨n, hw⟩)
  rw [VecOf.own_entries, hit, hl] at sh
  refine ⟨q, s', K', l, by rw [VecOf.entries_addrs]; exact e, el, ⟨_, sh⟩, ps.eraseIdx i, (List.eraseIdx_map ..), ?_, ?_⟩
  · have := sh.world
    rwa [add_left_comm] at this
  · have := hh.eraseIdx i
    rwa [List.eraseIdx_map] at this

/-- Two vectors are exchanged. -/
theorem Littered.swap {K : Ctx α} {h : Heap α} {st : List HVec} {ls : List (List α)} {i : Nat} {a b : HVec} {la lb : List α}
    (r : Littered K h (st.set i a ++ [b]) (ls.set i la ++ [lb])) (hi : i < st.length) :
    Littered K h (st.set i b ++ [a]) (ls.set i lb ++ [la]) := by
  obtain ⟨ps, e, w, hv⟩ := r
  obtain ⟨ps0, ps1, rfl, e0, e1⟩ := List.append_eq_map_iff.1 e
  obtain ⟨pb, rfl, rfl⟩ : ∃ pb, ps1 = [pb] ∧ pb.addrs = b := by
    obtain ⟨pb, l, rfl, e2, e3⟩ := List.map_eq_cons_iff.1 e1
    exact ⟨pb, by rw [List.map_eq_nil_iff.1 e3], e2⟩
  have hla := hv.1
  simp only [List.map_append, List.length_append, List.length_map, List.length_set, List.length_singleton, List.map_singleton] at hla
  have hl0 : ps0.length = st.length := by simpa using congrArg List.length e0
  have ha : (ps0.map VecOf.addrs)[i]? = some a := by rw [e0, List.getElem?_set_self hi]
  rw [List.getElem?_map] at ha
  obtain ⟨pa, ea, rfl⟩ := Option.map_eq_some_iff.1 ha
  obtain ⟨ba, l1, f1, s1⟩ := hv.2 i pa.nodes (by rw [List.map_append, List.getElem?_append_left (by simpa [hl0] using hi), List.getElem?_map, ea]; rfl)
  rw [List.getElem?_append_left (by simp; omega), List.getElem?_set_self (by omega)] at f1
  cases f1
  obtain ⟨bb, l2, f2, s2⟩ := hv.2 st.length pb.nodes (by
    rw [List.map_append, List.getElem?_append_right (by simp [hl0])]; simp [hl0])
  rw [List.getElem?_append_right (by simp; omega)] at f2
  obtain rfl : lb = l2 := by
    rw [show st.length - (ls.set i la).length = 0 by simp; omega] at f2
    exact Option.some.inj f2
  refine ⟨ps0.set i pb ++ [pa], ?_, ?_, ?_⟩
  · rw [List.map_append, List.map_set, e0, List.set_set]
    rfl
  · obtain ⟨h1, h2⟩ := sum_at (f := VecOf.owned) ea
    rw [List.map_append, List.sum_append, h1] at w
    rw [List.map_append, List.sum_append, h2]
    simp only [List.map_singleton, List.sum_singleton] at w ⊢
    have : pb.owned + ((ps0.eraseIdx i).map VecOf.owned).sum + pa.owned = pa.owned + ((ps0.eraseIdx i).map VecOf.owned).sum + pb.owned := by
      abel
    rw [this]
    exact w
  · rw [List.map_append]
    have v1 : Holding (ps0.map VecOf.nodes) (ls.set i la) := by
      refine ⟨by simp; omega, fun j x ex => ?_⟩
      have hj : j < ps0.length := by simpa using (List.getElem?_eq_some_iff.1 ex).1
      obtain ⟨b1, l1, e3, s3⟩ := hv.2 j x (by rw [List.map_append, List.getElem?_append_left (by simpa using hj)]; exact ex)
      rw [List.getElem?_append_left (by simp; omega)] at e3
      exact ⟨b1, l1, e3, s3⟩
    refine Holding.append ?_ (Holding.one ba s1)
    have := v1.set i bb s2
    rw [List.set_set] at this
    rw [List.map_set]
    exact this

/-- Cutting a vector; which part is kept does not matter. -/
theorem Littered.cut {K : Ctx α} {h : Heap α} {st : List HVec} {ls : List (List α)} (r : Littered K h st ls) {i : Nat} {v : HVec}
    (hv : st[i]? = some v) (kept : Side) (n : Nat) : ∃ l p h', ls[i]? = some l ∧ (v.splitOff n).run h = .ok (p, h') ∧
      Littered K h' (st.set i (keeping kept p).1 ++ [(keeping kept p).2])
        (ls.set i (keeping kept (l.take n, l.drop n)).1 ++ [(keeping kept (l.take n, l.drop n)).2]) := by
  obtain ⟨l, el, -⟩ := r.holding.2 i v hv
  obtain ⟨q, m, k⟩ := r.call (.act i (.splitOff n)) trivial
  simp only [Call.Means, el] at m
  obtain ⟨q', m', rfl⟩ := m
  obtain rfl : q' = .ok (.none, l.take n, [l.drop n]) := m'
  simp only [bind, Except.bind] at k
  obtain ⟨st', h', e, k⟩ := k
  simp only [Call.hrun, hv] at e
  obtain ⟨g, h1, e1, e2⟩ := hm_bind_inv e
  simp only [Act.hrun] at e1
  obtain ⟨p, h2, e3, e4⟩ := hm_bind_inv e1
  cases e4
  cases e2
  refine ⟨l, p, h', el, e3, ?_⟩
  cases kept with
  | front => exact k
  | back => exact k.swap (List.getElem?_eq_some_iff.1 hv).1

/-- A slice. -/
theorem Littered.slice {K : Ctx α} {s : DropState γ α} {st : List HVec} {ls : List (List α)} (r : Littered K s.heap st ls) {i : Nat}
    {v : HVec} (hv : st[i]? = some v) (kept : Side) (n : Nat) : ∃ l p h' q s' K', ls[i]? = some l ∧ (v.splitOff n).run s.heap = .ok (p, h') ∧
      dropFields quits false (keeping kept p).2.entries { s with heap := h' } = .ok (q, s') ∧
      (∃ F, Sheds F K' ((keeping kept (l.take n, l.drop n)).2 : Multiset α) (panics q) { s with heap := h' } s') ∧
      Littered (K' + K) s'.heap (st.set i (keeping kept p).1) (ls.set i (keeping kept (l.take n, l.drop n)).1) := by
  obtain ⟨l, p, h', el, e, k⟩ := r.cut hv kept n
  have k' : Littered K ({ s with heap := h' } : DropState γ α).heap _ _ := k
  obtain ⟨q, s', K', l', e1, el', sh, k1⟩ := k'.drop (quits := quits) (i := st.length) (v := (keeping kept p).2)
    (by rw [List.getElem?_append_right (by simp)]; simp)
  have hl := r.holding.1
  rw [List.getElem?_append_right (by simp [hl])] at el'
  obtain rfl : (keeping kept (l.take n, l.drop n)).2 = l' := by simpa [hl] using el'
  refine ⟨l, p, h', q, s', K', el, e, e1, sh, ?_⟩
  rw [List.eraseIdx_append_of_length_le (by simp), List.eraseIdx_append_of_length_le (by simp [hl])] at k1
  simpa [hl] using k1

/-- Taking items off the ends. -/
theorem Littered.drain {K : Ctx α} {i : Nat} : ∀ (script : List Side) {h : Heap α} {st : List HVec} {ls : List (List α)} {v : HVec} {l : List α},
    Littered K h st ls → st[i]? = some v → ls[i]? = some l → ∃ v' h', (hrunAll HVec.intoIterStep script v).run h = .ok (((drain script l).1, v'), h') ∧
      Littered K h' (st.set i v') (ls.set i (drain script l).2)
  | [], h, st, ls, v, l, r, hv, hl => ⟨v, h, rfl, by
      obtain ⟨_, rfl⟩ := List.getElem?_eq_some_iff.1 hv
      obtain ⟨_, rfl⟩ := List.getElem?_eq_some_iff.1 hl
      simpa [Librrb.drain] using r⟩
  | s :: script, h, st, ls, v, l, r, hv, hl => by
    obtain ⟨x, l1, e0, ⟨v1, h1, e1, r1⟩⟩ : ∃ x l1, Librrb.drain (s :: script) l = (x :: (Librrb.drain script l1).1, (Librrb.drain script l1).2) ∧
        ∃ v1 h1, (HVec.intoIterStep s v).run h = .ok ((x, v1), h1) ∧ Littered K h1 (st.set i v1) (ls.set i l1) := by
      cases s with
      | front =>
        refine ⟨l.head?, l.tail, rfl, ?_⟩
        obtain ⟨q, m, k⟩ := r.call (.act i .popFront) trivial
        simp only [Call.Means, hl] at m
        obtain ⟨q', m', rfl⟩ := m
        obtain rfl : q' = .ok (.item l.head?, l.tail, []) := m'
        simp only [bind, Except.bind, List.append_nil] at k
        obtain ⟨st', h', e, k⟩ := k
        simp only [Call.hrun, hv] at e
        obtain ⟨g, h1, e1, e2⟩ := hm_bind_inv e
        simp only [Act.hrun] at e1
        obtain ⟨p, h2, e3, e4⟩ := hm_bind_inv e1
        cases e4
        injection e2 with e2
        injection e2 with e2 e6
        injection e2 with e5 e7
        injection e5 with e5
        subst e6 e7
        exact ⟨p.2, _, by rw [← e5]; exact e3, by simpa using k⟩
      | back =>
        refine ⟨l.getLast?, l.dropLast, rfl, ?_⟩
        obtain ⟨q, m, k⟩ := r.call (.act i .popBack) trivial
        simp only [Call.Means, hl] at m
        obtain ⟨q', m', rfl⟩ := m
        obtain rfl : q' = .ok (.item l.getLast?, l.dropLast, []) := m'
        simp only [bind, Except.bind, List.append_nil] at k
        obtain ⟨st', h', e, k⟩ := k
        simp only [Call.hrun, hv] at e
        obtain ⟨g, h1, e1, e2⟩ := hm_bind_inv e
        simp only [Act.hrun] at e1
        obtain ⟨p, h2, e3, e4⟩ := hm_bind_inv e1
        cases e4
        injection e2 with e2
        injection e2 with e2 e6
        injection e2 with e5 e7
        injection e5 with e5
        subst e6 e7
        exact ⟨p.2, _, by rw [← e5]; exact e3, by simpa using k⟩
    obtain ⟨v2, h2, e2, r2⟩ := Littered.drain script r1 (List.getElem?_set_self (List.getElem?_eq_some_iff.1 hv).1)
      (List.getElem?_set_self (List.getElem?_eq_some_iff.1 hl).1)
    refine ⟨v2, h2, ?_, ?_⟩
    · rw [e0]
      simp only [hrunAll]
      rw [hm_bind e1, hm_bind e2]
      rfl
    · rw [List.set_set, List.set_set] at r2
      rw [e0]
      exact r2

theorem runDrops_ok (quits : γ → α → Bool × γ) : ∀ (prog : List (DCall α)) {K : Ctx α} {s : DropState γ α} {st : List HVec} {ls : List (List α)},
    Littered K s.heap st ls → (∀ c ∈ prog, c.plain.Fits) → ∃ q, ProgramMeans (prog.map DCall.plain) ls q ∧
      match runDrops quits prog st s with
      | .error e => q = .error e
      | .ok (some (as, st'), s') => ∃ ls' K' d, q = .ok (as, ls') ∧ Littered K' s'.heap st' ls' ∧ s'.dropped = s.dropped ++ d ∧
          (d.countP Prod.snd = 0 → K' = K)
      | .ok (none, s') => ∃ d, s'.dropped = s.dropped ++ d ∧ 2 ≤ d.countP Prod.snd
  | [], K, s, st, ls, r, _ => ⟨_, rfl, ls, K, [], rfl, r, by simp, fun _ => rfl⟩
  | c :: cs, K, s, st, ls, r, hf => by
    have hcs : ∀ c ∈ cs, c.plain.Fits := fun x hx => hf x (List.mem_cons_of_mem _ hx)
    have key : ∀ {a : Answer α} {ls1 : List (List α)} {st1 : List HVec} {s1 : DropState γ α} {K1 : Ctx α} {d1 : List (α × Bool)},
        c.plain.Means ls (.ok (a, ls1)) → c.exec quits st s = .ok (some (a, st1), s1) → Littered K1 s1.heap st1 ls1 →
        s1.dropped = s.dropped ++ d1 → (d1.countP Prod.snd = 0 → K1 = K) →
        ∃ q, ProgramMeans ((c :: cs).map DCall.plain) ls q ∧
      match runDrops quits (c :: cs) st s with
      | .error e => q = .error e
      | .ok (some (as, st'), s') => ∃ ls' K' d, q = .ok (as, ls') ∧ Littered K' s'.heap st' ls' ∧ s'.dropped = s.dropped ++ d ∧
          (d.countP Prod.snd = 0 → K' = K)
      | .ok (none, s') => ∃ d, s'.dropped = s.dropped ++ d ∧ 2 ≤ d.countP Prod.snd := by
      intro a ls1 st1 s1 K1 d1 hm he hr hd hK
      obtain ⟨q, m, k⟩ := runDrops_ok quits cs hr hcs
      refine ⟨_, ⟨_, hm, q, m, rfl⟩, ?_⟩
      simp only [runDrops, he, bind, Except.bind]
      cases hq : runDrops quits cs st1 s1 with
      | error e => rw [hq] at k; dsimp only at k ⊢; rw [k]; rfl
      | ok x =>
        obtain ⟨o, s2⟩ := x
        rw [hq] at k
        cases o with
        | none =>
          obtain ⟨d, e, h2⟩ := k
          exact ⟨d1 ++ d, by rw [e, hd, List.append_assoc], by rw [List.countP_append]; omega⟩
        | some o =>
          obtain ⟨ls', K', d, e, l, e', k'⟩ := k
          refine ⟨ls', K', d1 ++ d, by rw [e]; rfl, l, by rw [e', hd, List.append_assoc], fun h => ?_⟩
          rw [List.countP_append] at h
          rw [k' (by omega), hK (by omega)]
    cases c with
    | call c =>
      obtain ⟨q, m, k⟩ := r.call c (hf _ (List.mem_cons_self ..))
      cases q with
      | error e =>
        refine ⟨.error e, ⟨_, m, rfl⟩, ?_⟩
        simp only [runDrops, DCall.exec, k, bind, Except.bind]
      | ok q =>
        obtain ⟨st1, h1, e, l⟩ := k
        exact key (s1 := { s with heap := h1 }) (d1 := []) m (by simp only [DCall.exec, e, bind, Except.bind]) l (by simp) (fun _ => rfl)
    | drop i =>
      cases hv : st[i]? with
      | none =>
        refine key (s1 := s) (d1 := []) (a := .none) (ls1 := ls) (st1 := st) ?_ (by simp only [DCall.exec, hv]) r (by simp) (fun _ => rfl)
        have : ls.eraseIdx i = ls := List.eraseIdx_of_length_le (by rw [← r.holding.1]; simpa using hv)
        show _ = _
        rw [this]
      | some v =>
        obtain ⟨q, s', K', l, e, -, ⟨F, sh⟩, l1⟩ := r.drop (quits := quits) hv
        obtain ⟨d, e1, e2, -⟩ := sh.log
        cases q with
        | some p =>
          refine key (s1 := s') (d1 := d) (a := .none) rfl (by simp only [DCall.exec, hv, e, bind, Except.bind, Option.map_some]) l1 e1 ?_
          intro h
          rw [sh.exact (by omega), zero_add]
        | none =>
          obtain ⟨q, m, -⟩ := runDrops_ok quits cs l1 hcs
          refine ⟨_, ⟨_, rfl, q, m, rfl⟩, ?_⟩
          simp only [runDrops, DCall.exec, hv, e, bind, Except.bind, Option.map_none]
          exact ⟨d, e1, e2.ge⟩
    | intoIter i script =>
      cases hv : st[i]? with
      | none =>
        refine key (s1 := s) (d1 := []) (a := .none) (ls1 := ls) (st1 := st) ?_ (by simp only [DCall.exec, hv]) r (by simp) (fun _ => rfl)
        have : ls[i]? = none := by
          rw [List.getElem?_eq_none_iff] at hv ⊢
          rwa [← r.holding.1]
        simp only [DCall.plain, Call.Means, this]
      | some v =>
        obtain ⟨l, hl, -⟩ := r.holding.2 i v hv
        obtain ⟨v1, h1, e0, r1⟩ := r.drain script hv hl
        have r1' : Littered K ({ s with heap := h1 } : DropState γ α).heap _ _ := r1
        obtain ⟨q, s', K', l', e, -, ⟨F, sh⟩, l1⟩ := r1'.drop (quits := quits) (List.getElem?_set_self (List.getElem?_eq_some_iff.1 hv).1)
        obtain ⟨d, e1, e2, -⟩ := sh.log
        rw [List.eraseIdx_set_eq, List.eraseIdx_set_eq] at l1
        have hm : (DCall.intoIter i script : DCall α).plain.Means ls (.ok (.items (drain script l).1, ls.eraseIdx i)) := by
          simp only [DCall.plain, Call.Means, hl]
        cases q with
        | some p =>
          refine key (s1 := s') (d1 := d) hm (by simp only [DCall.exec, hv, e0, e, bind, Except.bind, Option.map_some]) l1 e1 ?_
          intro h
          rw [sh.exact (by omega), zero_add]
        | none =>
          obtain ⟨q, m, -⟩ := runDrops_ok quits cs l1 hcs
          refine ⟨_, ⟨_, hm, q, m, rfl⟩, ?_⟩
          simp only [runDrops, DCall.exec, hv, e0, e, bind, Except.bind, Option.map_none]
          exact ⟨d, e1, e2.ge⟩
    | slice kept i n =>
      cases hv : st[i]? with
      | none =>
        refine key (s1 := s) (d1 := []) (a := .none) (ls1 := ls) (st1 := st) ?_ (by simp only [DCall.exec, hv]) r (by simp) (fun _ => rfl)
        have : ls[i]? = none := by
          rw [List.getElem?_eq_none_iff] at hv ⊢
          rwa [← r.holding.1]
        cases kept <;> simp only [DCall.plain, Call.Means, this]
      | some v =>
        obtain ⟨l, p, h', q, s', K', el, e, e', ⟨F, sh⟩, l1⟩ := r.slice (quits := quits) hv kept n
        obtain ⟨d, e1, e2, -⟩ := sh.log
        have hm : (DCall.slice kept i n : DCall α).plain.Means ls (.ok (.none, ls.set i (keeping kept (l.take n, l.drop n)).1)) := by
          cases kept <;> simp only [DCall.plain, Call.Means, el] <;> exact ⟨_, rfl, by simp [bind, Except.bind, keeping]⟩
        cases q with
        | some b =>
          refine key (s1 := s') (d1 := d) hm (by simp only [DCall.exec, hv, e, e', bind, Except.bind, Option.map_some]) l1 e1 ?_
          intro h
          rw [sh.exact (by omega), zero_add]
        | none =>
          obtain ⟨q, m, -⟩ := runDrops_ok quits cs l1 hcs
          refine ⟨_, ⟨_, hm, q, m, rfl⟩, ?_⟩
          simp only [runDrops, DCall.exec, hv, e, e', bind, Except.bind, Option.map_none]
          exact ⟨d, e1, e2.ge⟩

end Librrb
