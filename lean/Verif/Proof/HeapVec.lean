import Verif.Model.HeapVec
import Verif.Proof.HeapNode

/-!
# What the calls on vectors do on the heap

A vector whose entries are known together with the nodes they stand for is a `VecOf (Addr × Node α)`.
-/
namespace Librrb

namespace VecOf

/-- The vector in memory. -/
def addrs (p : VecOf (Addr × Node α)) : HVec :=
  { left := p.left.map Prod.fst, right := p.right.map Prod.fst, root := p.root.1, len := p.len }

/-- The vector of nodes it stands for. -/
def nodes (p : VecOf (Addr × Node α)) : RVec α :=
  { left := p.left.map Prod.snd, right := p.right.map Prod.snd, root := p.root.2, len := p.len }

/-- What it owns. -/
def owned (p : VecOf (Addr × Node α)) : Ctx α := own p.left + own p.right + has p.root

theorem own_entries (p : VecOf (Addr × Node α)) : own p.entries = p.owned := by
  unfold entries owned
  rw [own_append, own_append, own_cons, own_nil, add_zero]

theorem entries_addrs (p : VecOf (Addr × Node α)) : p.addrs.entries = p.entries.map Prod.fst := by
  unfold entries addrs
  simp

theorem addrs_spine (p : VecOf (Addr × Node α)) (s : Side) : p.addrs.spine s = (p.spine s).map Prod.fst := by
  cases s <;> rfl

theorem nodes_spine (p : VecOf (Addr × Node α)) (s : Side) : p.nodes.spine s = (p.spine s).map Prod.snd := by
  cases s <;> rfl

theorem addrs_withSpine (p : VecOf (Addr × Node α)) (s : Side) (l : List (Addr × Node α)) :
    p.addrs.withSpine s (l.map Prod.fst) = (p.withSpine s l).addrs := by cases s <;> rfl

theorem nodes_withSpine (p : VecOf (Addr × Node α)) (s : Side) (l : List (Addr × Node α)) :
    p.nodes.withSpine s (l.map Prod.snd) = (p.withSpine s l).nodes := by cases s <;> rfl

theorem head_getD (f : β → γ) (l : List β) (r : β) : (l.map f).head?.getD (f r) = f (l.head?.getD r) := by
  cases l <;> rfl

theorem addrs_leafNode (p : VecOf (Addr × Node α)) (s : Side) : p.addrs.leafNode s = (p.leafNode s).1 := by
  unfold leafNode
  rw [addrs_spine]
  exact head_getD Prod.fst _ _

theorem nodes_leafNode (p : VecOf (Addr × Node α)) (s : Side) : p.nodes.leafNode s = (p.leafNode s).2 := by
  unfold RVec.leafNode leafNode
  rw [nodes_spine]
  exact head_getD Prod.snd _ _

theorem addrs_withLeafNode (p : VecOf (Addr × Node α)) (s : Side) (x : Addr × Node α) :
    p.addrs.withLeafNode s x.1 = (p.withLeafNode s x).addrs := by
  obtain ⟨l, r, t, n⟩ := p
  cases s
  · cases l <;> rfl
  · cases r <;> rfl

theorem nodes_withLeafNode (p : VecOf (Addr × Node α)) (s : Side) (x : Addr × Node α) :
    p.nodes.withLeafNode s x.2 = (p.withLeafNode s x).nodes := by
  obtain ⟨l, r, t, n⟩ := p
  cases s
  · cases l <;> rfl
  · cases r <;> rfl

/-- What is owned, with one spine in front. -/
theorem owned_spine (p : VecOf (Addr × Node α)) (s : Side) :
    p.owned = own (p.spine s) + own (p.spine s.negate) + has p.root := by
  cases s
  · rfl
  · show own p.left + own p.right + has p.root = own p.right + own p.left + has p.root
    abel

theorem spine_withSpine (p : VecOf κ) (s : Side) (l : List κ) : (p.withSpine s l).spine s = l := by cases s <;> rfl

theorem spine_withSpine_neg (p : VecOf κ) (s : Side) (l : List κ) :
    (p.withSpine s l).spine s.negate = p.spine s.negate := by cases s <;> rfl

theorem root_withSpine (p : VecOf κ) (s : Side) (l : List κ) : (p.withSpine s l).root = p.root := by cases s <;> rfl

/-- The leaf of a side can be replaced. -/
theorem owned_leaf (p : VecOf (Addr × Node α)) (s : Side) :
    ∃ R, p.owned = has (p.leafNode s) + R ∧ ∀ x, (p.withLeafNode s x).owned = has x + R := by
  obtain ⟨l, r, t, n⟩ := p
  cases s
  · cases l with
    | nil => exact ⟨own r, by show own [] + own r + has t = has t + own r; rw [own_nil]; abel,
        fun x => by show own [] + own r + has x = has x + own r; rw [own_nil]; abel⟩
    | cons a l => exact ⟨own l + own r + has t, by show own (a :: l) + own r + has t = has a + _; rw [own_cons]; abel,
        fun x => by show own (x :: l) + own r + has t = _; rw [own_cons]; abel⟩
  · cases r with
    | nil => exact ⟨own l, by show own l + own [] + has t = has t + own l; rw [own_nil]; abel,
        fun x => by show own l + own [] + has x = has x + own l; rw [own_nil]; abel⟩
    | cons a r => exact ⟨own l + own r + has t, by show own l + own (a :: r) + has t = has a + _; rw [own_cons]; abel,
        fun x => by show own l + own (x :: r) + has t = _; rw [own_cons]; abel⟩

end VecOf

open VecOf

/-- Both sides have the same vector, and it is what is owned. -/
def Both (g : HVec) (d : RVec α) (L : Ctx α) : Prop :=
  ∃ p : VecOf (Addr × Node α), g = p.addrs ∧ d = p.nodes ∧ L = p.owned

/-- Both sides have the same spine and root, and they are what is owned. -/
def BothSp (g : List Addr × Addr) (d : List (Node α) × Node α) (L : Ctx α) : Prop :=
  ∃ (sp : List (Addr × Node α)) (r : Addr × Node α), g = (sp.map Prod.fst, r.1) ∧ d = (sp.map Prod.snd, r.2) ∧
    L = own sp + has r

theorem unwrap_nat (f : β → γ) (o : Option β) : unwrap (o.map f) = (unwrap o).map f := by cases o <;> rfl

theorem unwrap_last (f : β → γ) (l : List β) : unwrap (l.map f).getLast? = (unwrap l.getLast?).map f := by
  rw [List.getLast?_map, unwrap_nat]

theorem unwrap_first (f : β → γ) (l : List β) : unwrap (l.map f).head? = (unwrap l.head?).map f := by
  rw [List.head?_map, unwrap_nat]

theorem unwrap_at (f : β → γ) (l : List β) (i : Nat) : unwrap (l.map f)[i]? = (unwrap l[i]?).map f := by
  rw [List.getElem?_map, unwrap_nat]

theorem unwrap_inv {o : Option β} {x : β} (e : unwrap o = .ok x) : o = some x := by
  cases o <;> cases e; rfl

theorem last_split {l : List β} {x : β} (e : unwrap l.getLast? = .ok x) : l = l.dropLast ++ [x] := by
  have := unwrap_inv e
  exact (List.dropLast_append_getLast? _ (by rw [this]; rfl)).symm

theorem own_last {l : List (Addr × Node α)} {x : Addr × Node α} (e : unwrap l.getLast? = .ok x) :
    own l = own l.dropLast + has x := by
  conv => lhs; rw [last_split e]
  rw [own_append, own_cons, own_nil, add_zero]

theorem mem_last {l : List (Addr × Node α)} {x : Addr × Node α} (e : unwrap l.getLast? = .ok x) : (x.1, x.2) ∈ l :=
  List.mem_of_getLast? (unwrap_inv e)

theorem map_dropLast_snoc (f : β → γ) (l : List β) (x : β) :
    (l.map f).dropLast ++ [f x] = (l.dropLast ++ [x]).map f := by simp [List.map_dropLast]

namespace HVec

theorem new_sim : Spec (new : HM α HVec) 0 fun g L' => Both g (RVec.new : RVec α) L' := by
  unfold new
  have := alloc_spec (Body.emptyLeaf : Body α (Addr × Node α))
  refine (show (0 : Ctx α) = 0 + 0 by rw [add_zero]) ▸ this.bind fun a A' q h F w => ?_
  exact .ret fun _ _ _ _ => ⟨_, rfl, ⟨[], [], (a, Node.emptyLeaf), 0⟩, rfl, rfl, by
    subst q
    simp [VecOf.owned]
    rfl⟩

theorem clone_sim (p : VecOf (Addr × Node α)) :
    Spec (clone p.addrs) p.owned fun g L' => g = p.addrs ∧ L' = p.owned + p.owned := by
  unfold clone
  rw [entries_addrs, ← own_entries]
  have := cloneEntries_spec p.entries
  rw [← add_zero (own p.entries)]
  refine this.bind fun a A' q h F w => .ret fun _ _ _ _ => ⟨_, rfl, rfl, ?_⟩
  rw [q, add_zero, add_zero]

theorem drop_spec (p : VecOf (Addr × Node α)) : Spec (drop p.addrs) p.owned fun _ L' => L' = 0 := by
  unfold drop
  rw [entries_addrs, ← own_entries]
  exact dropEntries_spec p.entries

theorem fixupStep_sim (p : VecOf (Addr × Node α)) :
    Sim (fixupStep p.addrs) p.nodes.fixupStep p.owned fun g d L' => g.2 = d.2 ∧ Both g.1 d.1 L' := by
  unfold fixupStep RVec.fixupStep
  refine Sim.nat (unwrap_last Prod.fst p.left) (unwrap_last Prod.snd p.left) fun l hl => ?_
  refine Sim.nat (unwrap_last Prod.fst p.right) (unwrap_last Prod.snd p.right) fun r hr => ?_
  refine Sim.slots (nd := l.2) (Multiset.mem_add.2 (.inl (Multiset.mem_add.2 (.inl (mem_own.2 (mem_last hl)))))) ?_
  refine Sim.slots (nd := r.2) (Multiset.mem_add.2 (.inl (Multiset.mem_add.2 (.inr (mem_own.2 (mem_last hr)))))) ?_
  refine Sim.level (nd := p.root.2) (Multiset.mem_add.2 (.inr (by simp [addrs]))) ?_
  have hL : p.owned = has l + has r + (own p.left.dropLast + own p.right.dropLast + has p.root) := by
    unfold owned
    rw [own_last hl, own_last hr]; abel
  refine Sim.ite (fun _ => ?_) fun _ => Sim.ite (fun _ => Sim.ite (fun _ => ?_) fun _ => ?_) fun _ => ?_
  · refine Sim.ctx hL (Sim.bind (Entry.share_sim l r .back _) fun g d A' q => ?_)
    refine Sim.ctx (L' := has p.root + (has (g.2.1, d.2.1) + (own p.left.dropLast + own p.right.dropLast +
      has (g.2.2, d.2.2)))) (by rw [q.2]; abel) (Sim.drop (Sim.drop (p := (g.2.1, d.2.1)) ?_))
    refine Sim.pure ⟨rfl, ?_⟩
    exact ⟨⟨p.left.dropLast, p.right.dropLast, (g.2.2, d.2.2), p.len⟩, by simp [addrs, List.map_dropLast],
      by simp [nodes, List.map_dropLast], rfl⟩
  · refine Sim.ctx hL (Sim.bind (Entry.share_sim l r .back _) fun g d A' q => Sim.pure ⟨rfl, ?_⟩)
    exact ⟨⟨p.left.dropLast ++ [(g.2.1, d.2.1)], p.right.dropLast ++ [(g.2.2, d.2.2)], p.root, p.len⟩,
      by simp [addrs, List.map_dropLast], by simp [nodes, List.map_dropLast],
      by rw [q.2]; simp only [owned, own_append, own_cons, own_nil, add_zero]; abel⟩
  · refine Sim.ctx (hL.trans (congrArg (· + _) (add_comm _ _)))
      (Sim.bind (Entry.share_sim r l .front _) fun g d A' q => Sim.pure ⟨rfl, ?_⟩)
    exact ⟨⟨p.left.dropLast ++ [(g.2.2, d.2.2)], p.right.dropLast ++ [(g.2.1, d.2.1)], p.root, p.len⟩,
      by simp [addrs, List.map_dropLast], by simp [nodes, List.map_dropLast],
      by rw [q.2]; simp only [owned, own_append, own_cons, own_nil, add_zero]; abel⟩
  · exact Sim.pure ⟨rfl, p, rfl, rfl, rfl⟩

theorem mem_root (p : VecOf (Addr × Node α)) : (p.addrs.root, some p.root.2) ∈ p.owned :=
  Multiset.mem_add.2 (.inr (by simp [addrs]))

theorem fixupLoop_sim : ∀ (fuel : Nat) (p : VecOf (Addr × Node α)),
    Sim (fixupLoop fuel p.addrs) (RVec.fixupLoop fuel p.nodes) p.owned Both
  | 0, p => by
    unfold fixupLoop RVec.fixupLoop
    refine Sim.slots (mem_root p) (Sim.isLeaf (mem_root p) (Sim.ite (fun _ => Sim.error) fun _ => Sim.pure ⟨p, rfl, rfl, rfl⟩))
  | fuel + 1, p => by
    unfold fixupLoop RVec.fixupLoop
    refine Sim.slots (mem_root p) (Sim.isLeaf (mem_root p) (Sim.ite (fun _ => ?_) fun _ => Sim.pure ⟨p, rfl, rfl, rfl⟩))
    refine Sim.ctx (add_zero _).symm (Sim.bind (fixupStep_sim p) fun g d A' q => ?_)
    obtain ⟨g, b⟩ := g
    obtain ⟨d, b'⟩ := d
    obtain ⟨hb, p', h1, h2, h3⟩ := q
    simp only at hb h1 h2
    subst hb h1 h2 h3
    rw [add_zero]
    exact Sim.ite (fun _ => fixupLoop_sim fuel p') fun _ => Sim.pure ⟨p', rfl, rfl, rfl⟩

theorem fixupSpineTops_sim (p : VecOf (Addr × Node α)) :
    Sim (fixupSpineTops p.addrs) p.nodes.fixupSpineTops p.owned Both := by
  unfold fixupSpineTops RVec.fixupSpineTops
  have : p.addrs.left.length = p.nodes.left.length := by simp [addrs, nodes]
  rw [this]
  exact fixupLoop_sim _ p

theorem completeLoop_sim (s : Side) : ∀ (n : Nat) (sp : List (Addr × Node α)) (r : Addr × Node α),
    Sim (completeLoop s n (sp.map Prod.fst) r.1) (RVec.completeLoop s n (sp.map Prod.snd) r.2) (own sp + has r) BothSp
  | 0, sp, r => by
    unfold completeLoop RVec.completeLoop
    exact Sim.pure ⟨sp, r, rfl, rfl, rfl⟩
  | n + 1, [], r => Sim.pure ⟨[], r, rfl, rfl, rfl⟩
  | n + 1, [x], r => by
    simp only [List.map_cons, List.map_nil, completeLoop, RVec.completeLoop]
    refine Sim.freeSlots (nd := x.2) (by simp) fun free _ => Sim.ite (fun _ => Sim.pure ⟨[x], r, rfl, rfl, rfl⟩) fun _ => ?_
    refine Sim.newEmpty (nd := x.2) (by simp) fun b => ?_
    refine Sim.ctx (L' := has r + has x + has (b, x.2.newEmpty)) (by simp only [own_cons, own_nil]; abel)
      (Sim.bind (Entry.pushChild_sim r x s) fun g d A' q => Sim.pure ?_)
    exact ⟨[(b, x.2.newEmpty)], (g, d), rfl, rfl, by rw [q]; simp only [own_cons, own_nil]; abel⟩
  | n + 1, x :: p :: rest, r => by
    simp only [List.map_cons, completeLoop, RVec.completeLoop]
    refine Sim.freeSlots (nd := x.2) (by simp) fun free _ =>
      Sim.ite (fun _ => Sim.pure ⟨x :: p :: rest, r, rfl, rfl, rfl⟩) fun _ => ?_
    refine Sim.newEmpty (nd := x.2) (by simp) fun b => ?_
    refine Sim.ctx (L' := has p + has x + (has (b, x.2.newEmpty) + own rest + has r)) (by simp only [own_cons]; abel)
      (Sim.bind (Entry.pushChild_sim p x s) fun g d A' q => ?_)
    refine Sim.ctx (L' := own ((g, d) :: rest) + has r + has (b, x.2.newEmpty)) (by rw [q]; simp only [own_cons]; abel)
      (Sim.bind (completeLoop_sim s n ((g, d) :: rest) r) fun g' d' A' q' => Sim.pure ?_)
    obtain ⟨sp, t, rfl, rfl, rfl⟩ := q'
    exact ⟨(b, x.2.newEmpty) :: sp, t, rfl, rfl, by simp only [own_cons]; abel⟩

theorem mem_leaf (p : VecOf (Addr × Node α)) (s : Side) : ((p.leafNode s).1, some (p.leafNode s).2) ∈ p.owned := by
  obtain ⟨R, h, -⟩ := p.owned_leaf s
  rw [h]; simp

theorem completeLeaf_sim (p : VecOf (Addr × Node α)) (s : Side) :
    Sim (completeLeaf p.addrs s) (p.nodes.completeLeaf s) p.owned Both := by
  unfold completeLeaf RVec.completeLeaf
  rw [addrs_leafNode, nodes_leafNode, addrs_spine, nodes_spine, addrs_spine, nodes_spine]
  simp only [List.length_map]
  have hl : (p.addrs.left.length == p.addrs.right.length) = (p.nodes.left.length == p.nodes.right.length) := by
    simp [addrs, nodes]
  rw [hl]
  refine Sim.same fun _ _ => Sim.leafFreeSpace (mem_leaf p s) fun _ _ => Sim.same fun _ _ => ?_
  refine Sim.ctx (L' := own (p.spine s) + has p.root + own (p.spine s.negate)) (by rw [owned_spine p s]; abel)
    (Sim.bind (completeLoop_sim s _ (p.spine s) p.root) fun g d A' q => ?_)
  obtain ⟨sp, r, rfl, rfl, rfl⟩ := q
  refine Sim.slots (nd := r.2) (by simp) (Sim.ite (fun _ => ?_) fun _ => Sim.ite (fun _ => ?_) fun _ => ?_)
  · refine Sim.level (nd := r.2) (by simp) ?_
    refine Sim.ctx (zero_add _).symm (Sim.bind (Entry.emptyInternal_sim _) fun g d A' q => ?_)
    subst q
    refine Sim.newEmpty (nd := r.2) (by simp) fun b => ?_
    refine Sim.ctx (L' := has r + has (b, r.2.newEmpty) + (own sp + own (p.spine s.negate) + has (g, d))) (by abel)
      (Sim.bind (Entry.share_sim r (b, r.2.newEmpty) s.negate _) fun g' d' A' q => Sim.pure ?_)
    obtain ⟨-, rfl⟩ := q
    refine ⟨(({ p with root := (g, d) } : VecOf (Addr × Node α)).withSpine s (sp ++ [(g'.2.1, d'.2.1)])).withSpine s.negate
      (p.spine s.negate ++ [(g'.2.2, d'.2.2)]), ?_, ?_, ?_⟩
    · rw [← addrs_withSpine, ← addrs_withSpine]; simp; rfl
    · rw [← nodes_withSpine, ← nodes_withSpine]; simp; rfl
    · rw [owned_spine _ s.negate, spine_withSpine, spine_withSpine_neg, root_withSpine, root_withSpine, Side.negate_negate,
        spine_withSpine]
      simp only [own_append, own_cons, own_nil, add_zero]
      abel
  · have := fixupSpineTops_sim (({ p with root := r } : VecOf (Addr × Node α)).withSpine s sp)
    rw [← addrs_withSpine, ← nodes_withSpine] at this
    refine Sim.ctx ?_ this
    rw [owned_spine _ s, spine_withSpine, spine_withSpine_neg, root_withSpine]
    show _ = own sp + own (p.spine s.negate) + has r
    abel
  · refine Sim.pure ⟨(({ p with root := r } : VecOf (Addr × Node α)).withSpine s sp), ?_, ?_, ?_⟩
    · rw [← addrs_withSpine]; rfl
    · rw [← nodes_withSpine]; rfl
    · rw [owned_spine _ s, spine_withSpine, spine_withSpine_neg, root_withSpine]
      show _ = own sp + own (p.spine s.negate) + has r
      abel

theorem spine_len (p : VecOf (Addr × Node α)) (s : Side) : (p.addrs.spine s).length = (p.nodes.spine s).length := by
  rw [addrs_spine, nodes_spine]; simp

theorem lens_eq (p : VecOf (Addr × Node α)) :
    (p.addrs.left.length == p.addrs.right.length) = (p.nodes.left.length == p.nodes.right.length) := by
  simp [addrs, nodes]

theorem pushSide_sim (p : VecOf (Addr × Node α)) (s : Side) (x : α) :
    Sim (pushSide p.addrs s x) (p.nodes.pushSide s x) p.owned Both := by
  unfold pushSide RVec.pushSide
  rw [addrs_leafNode, nodes_leafNode]
  refine Sim.leafFreeSpace (mem_leaf p s) fun free _ => ?_
  refine Sim.ctx (add_zero _).symm (Sim.bind (Q := Both)
    (Sim.ite (fun _ => completeLeaf_sim p s) fun _ => Sim.pure ⟨p, rfl, rfl, rfl⟩) fun g d A' q => ?_)
  obtain ⟨p, rfl, rfl, rfl⟩ := q
  rw [addrs_leafNode, nodes_leafNode]
  obtain ⟨R, h1, h2⟩ := p.owned_leaf s
  refine Sim.ctx ((add_zero _).trans h1) (Sim.bind (Entry.leafPush_sim _ s x) fun g d A' q => ?_)
  subst q
  have e1 := addrs_withLeafNode p s (g, d)
  have e2 := nodes_withLeafNode p s (g, d)
  have e3 := h2 (g, d)
  simp only at e1 e2
  rw [e1, e2, ← e3]
  generalize p.withLeafNode s (g, d) = p'
  refine Sim.same fun len _ => ?_
  have key : ∀ p : VecOf (Addr × Node α), Sim (if (p.addrs.spine s).length == 1 then fixupSpineTops p.addrs else Pure.pure p.addrs)
      (if (p.nodes.spine s).length == 1 then p.nodes.fixupSpineTops else .ok p.nodes) p.owned Both := by
    intro p
    rw [spine_len p s]
    exact Sim.ite (fun _ => fixupSpineTops_sim p) fun _ => Sim.pure ⟨p, rfl, rfl, rfl⟩
  exact key { p' with len := len }

theorem pushBack_sim (p : VecOf (Addr × Node α)) (x : α) :
    Sim (pushBack p.addrs x) (p.nodes.pushBack x) p.owned Both := pushSide_sim p .back x

theorem pushFront_sim (p : VecOf (Addr × Node α)) (x : α) :
    Sim (pushFront p.addrs x) (p.nodes.pushFront x) p.owned Both := pushSide_sim p .front x

theorem pushAll_sim : ∀ (l : List α) (p : VecOf (Addr × Node α)), Sim (pushAll p.addrs l) (p.nodes.pushAll l) p.owned Both
  | [], p => Sim.pure ⟨p, rfl, rfl, rfl⟩
  | x :: l, p => by
    unfold pushAll RVec.pushAll
    refine Sim.ctx (add_zero _).symm (Sim.bind (pushBack_sim p x) fun g d A' q => ?_)
    obtain ⟨p, rfl, rfl, rfl⟩ := q
    exact Sim.ctx (add_zero _) (pushAll_sim l p)

/-- Code that starts with an empty vector. -/
theorem new_bind {k : HVec → HM α γ} {y : RVec α → M δ} {R : Ctx α} {Q : γ → δ → Ctx α → Prop}
    (h : ∀ p : VecOf (Addr × Node α), p.nodes = RVec.new → Sim (k p.addrs) (y p.nodes) (p.owned + R) Q) :
    Sim (new >>= k) (y RVec.new) R Q := by
  refine Sim.ctx (zero_add _).symm (Sim.step new_sim fun g A' q => ?_)
  obtain ⟨p, rfl, e, rfl⟩ := q
  rw [e]
  exact h p e.symm

theorem singleton_sim (x : α) : Sim (singleton x) (RVec.singleton x) 0 Both := by
  unfold singleton
  exact new_bind (y := fun v => v.pushBack x) fun p _ => Sim.ctx (add_zero _) (pushBack_sim p x)

theorem fromIter_sim (l : List α) : Sim (fromIter l) (RVec.fromIter l) 0 Both := by
  unfold fromIter
  exact new_bind (y := fun v => v.pushAll l) fun p _ => Sim.ctx (add_zero _) (pushAll_sim l p)

theorem lastEmpty_sim {L : Ctx α} {k : Nat → HM α ζ} {y : Nat → M η} {Q : ζ → η → Ctx α → Prop} :
    ∀ (l : List (Addr × Node α)) (i dflt : Nat), (∀ p ∈ l, (p.1, some p.2) ∈ L) → (∀ n, Sim (k n) (y n) L Q) →
    Sim (lastEmpty (l.map Prod.fst) i dflt >>= k) (y (RVec.lastEmpty (l.map Prod.snd) i dflt)) L Q
  | [], i, dflt, _, h => by
    simp only [List.map_nil, lastEmpty, RVec.lastEmpty, pure_bind]
    exact h _
  | p :: l, i, dflt, hm, h => by
    simp only [List.map_cons, lastEmpty, RVec.lastEmpty]
    rw [bind_assoc]
    refine Sim.slots (hm p (by simp)) ?_
    by_cases hs : (p.2.slots != 0) = true
    · rw [if_pos hs, if_pos hs, pure_bind]
      exact h _
    · rw [if_neg hs, if_neg hs]
      exact lastEmpty_sim l (i + 1) dflt (fun q hq => hm q (by simp [hq])) h

/-- One entry of a list can be replaced. -/
theorem own_set {l : List (Addr × Node α)} {i : Nat} {x : Addr × Node α} (e : l[i]? = some x) :
    ∃ R, own l = has x + R ∧ ∀ y, own (l.set i y) = has y + R := by
  refine ⟨own (l.take i) + own (l.drop (i + 1)), ?_, fun y => ?_⟩
  · have hi := (List.getElem?_eq_some_iff.1 e).1
    conv => lhs; rw [← List.take_append_drop i l, List.drop_eq_getElem_cons hi]
    rw [own_append, own_cons, (List.getElem?_eq_some_iff.1 e).2]; abel
  · have hi := (List.getElem?_eq_some_iff.1 e).1
    rw [List.set_eq_take_append_cons_drop, if_pos hi, own_append, own_cons]; abel

theorem emptyLeafLoop_sim (s : Side) : ∀ (n : Nat) (sp : List (Addr × Node α)) (r : Addr × Node α),
    Sim (emptyLeafLoop s n (sp.map Prod.fst) r.1) (RVec.emptyLeafLoop s n (sp.map Prod.snd) r.2) (own sp + has r) BothSp
  | 0, sp, r => Sim.pure ⟨sp, r, rfl, rfl, rfl⟩
  | n + 1, sp, r => by
    unfold emptyLeafLoop RVec.emptyLeafLoop
    by_cases hn : n < sp.length
    swap
    · rw [show massert (decide (n < (sp.map Prod.snd).length)) = .error .panic by simp [massert, hn]]
      refine Sim.error ?_
      rw [List.getElem?_eq_none (by simpa using hn)]
      rfl
    rw [show massert (decide (n < (sp.map Prod.snd).length)) = .ok () by simp [massert, hn]]
    simp only [ok_bind]
    have hold : sp[n]? = some sp[n] := by simp [hn]
    refine Sim.lift (a := sp[n].1) (by simp [hn]) ?_
    obtain ⟨R, h1, h2⟩ := own_set hold
    rw [List.getElem?_map, List.getElem?_map]
    cases hp : sp[n + 1]? with
    | none =>
      simp only [Option.map_none]
      refine Sim.ctx (add_comm _ _) (Sim.bind (Entry.popChild_sim r s) fun g d A' q => ?_)
      subst q
      refine Sim.ctx (L' := has sp[n] + (has (g.1, d.1) + R + has (g.2, d.2))) (by rw [h1]; abel) (Sim.drop ?_)
      have := emptyLeafLoop_sim s n (sp.set n (g.1, d.1)) (g.2, d.2)
      simp only [List.map_set] at this
      exact Sim.ctx (by rw [h2]) this
    | some q =>
      simp only [Option.map_some]
      obtain ⟨R', h3, h4⟩ := own_set (l := sp) hp
      refine Sim.ctx (L' := has q + (R' + has r)) (by rw [h3]; abel) (Sim.bind (Entry.popChild_sim q s) fun g d A' qq => ?_)
      subst qq
      obtain ⟨R'', h5, h6⟩ := own_set (l := sp.set (n + 1) (g.2, d.2)) (i := n) (x := sp[n]) (by
        rw [List.getElem?_set_ne (by omega)]; exact hold)
      refine Sim.ctx (L' := has sp[n] + (has (g.1, d.1) + R'' + has r)) ?_ (Sim.drop ?_)
      · have := h4 (g.2, d.2)
        calc has (g.1, d.1) + has (g.2, d.2) + (R' + has r) = has (g.1, d.1) + (has (g.2, d.2) + R') + has r := by abel
          _ = _ := by rw [← this, h5]; abel
      have := emptyLeafLoop_sim s n ((sp.set (n + 1) (g.2, d.2)).set n (g.1, d.1)) r
      simp only [List.map_set] at this
      exact Sim.ctx (by rw [h6]) this

theorem mem_spine {p : VecOf (Addr × Node α)} {s : Side} {x : Addr × Node α} (h : x ∈ p.spine s) :
    (x.1, some x.2) ∈ p.owned := by
  rw [owned_spine p s]
  exact Multiset.mem_add.2 (.inl (Multiset.mem_add.2 (.inl (mem_own.2 h))))

theorem withRoot_spine (p : VecOf (Addr × Node α)) (s : Side) (sp : List (Addr × Node α)) (r : Addr × Node α) :
    (({ p with root := r } : VecOf (Addr × Node α)).withSpine s sp).owned = own sp + has r + own (p.spine s.negate) := by
  rw [owned_spine _ s, spine_withSpine, spine_withSpine_neg, root_withSpine]
  show own sp + own (p.spine s.negate) + has r = _
  abel

theorem emptyLeaf_sim (p : VecOf (Addr × Node α)) (s : Side) :
    Sim (emptyLeaf p.addrs s) (p.nodes.emptyLeaf s) p.owned Both := by
  unfold emptyLeaf RVec.emptyLeaf
  rw [lens_eq, addrs_spine, nodes_spine]
  refine Sim.same fun _ _ => ?_
  refine Sim.nat (unwrap_first Prod.fst (p.spine s)) (unwrap_first Prod.snd (p.spine s)) fun a ha => ?_
  refine Sim.slots (nd := a.2) (mem_spine (List.mem_of_head? (unwrap_inv ha))) (Sim.same fun _ _ => ?_)
  refine Sim.nat (unwrap_last Prod.fst (p.spine s)) (unwrap_last Prod.snd (p.spine s)) fun b hb => ?_
  refine Sim.slots (mem_root p) (Sim.slots (nd := b.2) (mem_spine (mem_last hb)) (Sim.same fun _ _ => ?_))
  simp only [List.length_map]
  refine Sim.same fun dflt _ => ?_
  rw [List.map_tail.symm, List.map_tail.symm]
  refine lastEmpty_sim (y := fun n => RVec.emptyLeafLoop s (n + 1) ((p.spine s).map Prod.snd) p.nodes.root >>= _) (p.spine s).tail 1 dflt
    (fun q hq => mem_spine (List.mem_of_mem_tail hq)) fun n => ?_
  refine Sim.ctx (L' := own (p.spine s) + has p.root + own (p.spine s.negate)) (by rw [owned_spine p s]; abel)
    (Sim.bind (emptyLeafLoop_sim s _ (p.spine s) p.root) fun g d A' q => ?_)
  obtain ⟨sp, r, rfl, rfl, rfl⟩ := q
  have := fixupSpineTops_sim (({ p with root := r } : VecOf (Addr × Node α)).withSpine s sp)
  rw [← addrs_withSpine, ← nodes_withSpine, withRoot_spine] at this
  exact this

theorem popSide_sim (p : VecOf (Addr × Node α)) (s : Side) :
    Sim (popSide p.addrs s) (p.nodes.popSide s) p.owned fun g d L' => g.1 = d.1 ∧ Both g.2 d.2 L' := by
  unfold popSide RVec.popSide
  rw [lens_eq, addrs_leafNode, nodes_leafNode]
  refine Sim.same fun _ _ => ?_
  have he : (p.addrs.spine s).isEmpty = (p.nodes.spine s).isEmpty := by rw [addrs_spine, nodes_spine]; simp
  rw [he]
  refine Sim.ite (fun _ => ?_) fun _ => ?_
  · refine Sim.isEmpty (mem_root p) fun e _ => Sim.ite (fun _ => ?_) fun _ => Sim.pure ⟨rfl, p, rfl, rfl, rfl⟩
    refine Sim.same fun len _ => ?_
    refine Sim.ctx (add_comm _ _) (Sim.bind (Entry.leafPop_sim p.root s) fun g d A' q => Sim.pure ⟨by simp [q.1], ?_⟩)
    exact ⟨{ p with root := (g.2, d.2), len := len }, rfl, rfl, by rw [q.2]; exact add_comm _ _⟩
  · obtain ⟨R, h1, h2⟩ := p.owned_leaf s
    refine Sim.ctx h1 (Sim.bind (Entry.leafPop_sim _ s) fun g d A' q => ?_)
    obtain ⟨q1, rfl⟩ := q
    have e1 := addrs_withLeafNode p s (g.2, d.2)
    have e2 := nodes_withLeafNode p s (g.2, d.2)
    have e3 := h2 (g.2, d.2)
    simp only at e1 e2
    refine Sim.isEmpty (nd := d.2) (by simp) fun e _ => ?_
    rw [e1, e2, ← e3]
    generalize p.withLeafNode s (g.2, d.2) = p'
    rw [spine_len]
    refine Sim.ctx (add_zero _).symm (Sim.bind (Q := Both)
      (Sim.ite (fun _ => emptyLeaf_sim p' s) fun _ => Sim.ite (fun _ => fixupSpineTops_sim p')
        fun _ => Sim.pure ⟨p', rfl, rfl, rfl⟩) fun g' d' A' q => ?_)
    obtain ⟨p2, rfl, rfl, rfl⟩ := q
    refine Sim.same fun len _ => Sim.pure ⟨by rw [q1], { p2 with len := len }, rfl, rfl, add_zero _⟩

/-! ### Reading and writing items -/

theorem findLoop_sim {L : Ctx α} {k : Option (Side × Nat) × Nat → HM α ζ} {y : Option (Side × Nat) × Nat → M η}
    {Q : ζ → η → Ctx α → Prop} (index : Nat) : ∀ (l r : List (Addr × Node α)) (idx f b : Nat),
    (∀ p ∈ l, (p.1, some p.2) ∈ L) → (∀ p ∈ r, (p.1, some p.2) ∈ L) →
    (∀ q, RVec.findLoop index (l.map Prod.snd) (r.map Prod.snd) idx f b = .ok q → Sim (k q) (y q) L Q) →
    Sim (findLoop index (l.map Prod.fst) (r.map Prod.fst) idx f b >>= k)
      (RVec.findLoop index (l.map Prod.snd) (r.map Prod.snd) idx f b >>= y) L Q
  | p :: l, q :: r, idx, f, b, hl, hr, h => by
    simp only [List.map_cons, findLoop, RVec.findLoop, bind_assoc] at h ⊢
    refine Sim.len (hl p (by simp)) fun n hn => ?_
    by_cases hi : index < f + n
    · rw [if_pos hi, if_pos hi]
      simp only [bind_assoc, pure_bind]
      refine Sim.same fun d hd => ?_
      refine h (some (.front, idx), d) ?_
      rw [hn, ok_bind, if_pos hi, hd, ok_bind]
    · rw [if_neg hi, if_neg hi]
      simp only [bind_assoc]
      refine Sim.len (hr q (by simp)) fun m hm => Sim.same fun b' hb' => ?_
      by_cases hb : index ≥ b'
      · rw [if_pos hb, if_pos hb]
        simp only [bind_assoc, pure_bind]
        refine Sim.same fun d hd => ?_
        refine h (some (.back, idx), d) ?_
        rw [hn, ok_bind, if_neg hi, hm, ok_bind, hb', ok_bind, if_pos hb, hd, ok_bind]
      · rw [if_neg hb, if_neg hb]
        refine findLoop_sim index l r _ _ _ (fun p hp => hl p (by simp [hp])) (fun p hp => hr p (by simp [hp])) fun q' hq' => ?_
        refine h q' ?_
        rw [hn, ok_bind, if_neg hi, hm, ok_bind, hb', ok_bind, if_neg hb, hq']
  | [], r, idx, f, b, hl, hr, h => by
    simp only [List.map_nil, findLoop, RVec.findLoop, bind_assoc, pure_bind] at h ⊢
    refine Sim.same fun _ e1 => Sim.same fun d e2 => ?_
    refine h _ ?_
    rw [e1, ok_bind, e2, ok_bind]
  | p :: l, [], idx, f, b, hl, hr, h => by
    simp only [List.map_nil, List.map_cons, findLoop, RVec.findLoop, bind_assoc, pure_bind] at h ⊢
    refine Sim.same fun _ e1 => Sim.same fun d e2 => ?_
    refine h _ ?_
    rw [e1, ok_bind, e2, ok_bind]

theorem find_sim {L : Ctx α} {k : Option (Option (Side × Nat) × Nat) → HM α ζ} {y : Option (Option (Side × Nat) × Nat) → M η}
    {Q : ζ → η → Ctx α → Prop} (p : VecOf (Addr × Node α)) (hL : ∀ x ∈ p.owned, x ∈ L) (i : Nat)
    (h : ∀ q, p.nodes.findNodeInfoForIndex i = .ok q → Sim (k q) (y q) L Q) :
    Sim (findNodeInfoForIndex p.addrs i >>= k) (p.nodes.findNodeInfoForIndex i >>= y) L Q := by
  unfold findNodeInfoForIndex
  unfold RVec.findNodeInfoForIndex at h ⊢
  have e : p.addrs.len = p.nodes.len := rfl
  rw [e]
  by_cases hi : i ≥ p.nodes.len
  · rw [if_pos hi] at h ⊢
    rw [if_pos hi, pure_bind]
    exact h _ rfl
  · rw [if_neg hi] at h ⊢
    rw [if_neg hi]
    simp only [bind_assoc, pure_bind]
    refine findLoop_sim i p.left p.right 0 0 _ (fun q hq => hL _ (mem_spine (s := .front) hq))
      (fun q hq => hL _ (mem_spine (s := .back) hq)) fun q hq => ?_
    refine h (some q) ?_
    show RVec.findLoop i _ _ 0 0 _ >>= _ = _
    have : RVec.findLoop i p.nodes.left p.nodes.right 0 0 p.nodes.len = .ok q := hq
    rw [this, ok_bind]

theorem nodeAt_nat (p : VecOf (Addr × Node α)) (pos : Option (Side × Nat)) :
    p.addrs.nodeAt pos = (p.nodeAt pos).map Prod.fst ∧ p.nodes.nodeAt pos = (p.nodeAt pos).map Prod.snd := by
  rcases pos with _ | ⟨s, i⟩
  · exact ⟨rfl, rfl⟩
  · cases s
    · exact ⟨unwrap_at _ _ _, unwrap_at _ _ _⟩
    · exact ⟨unwrap_at _ _ _, unwrap_at _ _ _⟩

/-- The entry found can be replaced. -/
theorem owned_at {p : VecOf (Addr × Node α)} {pos : Option (Side × Nat)} {x : Addr × Node α} (e : p.nodeAt pos = .ok x) :
    ∃ R, p.owned = has x + R ∧ ∀ y, (p.withNodeAt pos y).owned = has y + R := by
  rcases pos with _ | ⟨s, i⟩
  · cases e
    exact ⟨own p.left + own p.right, add_comm _ _, fun y => add_comm _ _⟩
  · cases s
    · obtain ⟨R, h1, h2⟩ := own_set (unwrap_inv e)
      exact ⟨R + own p.right + has p.root, by unfold owned; rw [h1]; abel,
        fun y => by show own (p.left.set i y) + own p.right + has p.root = _; rw [h2]; abel⟩
    · obtain ⟨R, h1, h2⟩ := own_set (unwrap_inv e)
      exact ⟨R + own p.left + has p.root, by unfold owned; rw [h1]; abel,
        fun y => by show own p.left + own (p.right.set i y) + has p.root = _; rw [h2]; abel⟩

theorem addrs_withNodeAt (p : VecOf (Addr × Node α)) (pos : Option (Side × Nat)) (x : Addr × Node α) :
    p.addrs.withNodeAt pos x.1 = (p.withNodeAt pos x).addrs := by
  rcases pos with _ | ⟨s, i⟩
  · rfl
  · cases s <;> simp [withNodeAt, addrs]

theorem nodes_withNodeAt (p : VecOf (Addr × Node α)) (pos : Option (Side × Nat)) (x : Addr × Node α) :
    p.nodes.withNodeAt pos x.2 = (p.withNodeAt pos x).nodes := by
  rcases pos with _ | ⟨s, i⟩
  · rfl
  · cases s <;> simp [withNodeAt, RVec.withNodeAt, nodes]

theorem _root_.Librrb.Sim.get {a : Addr} {nd : Node α} {i : Nat} {L : Ctx α} {k : Option α → HM α ζ} {k' : Option α → M η}
    {Q : ζ → η → Ctx α → Prop} (hm : (a, some nd) ∈ L) (hk : ∀ o, nd.get i = .ok o → Sim (k o) (k' o) L Q) :
    Sim (Entry.get a i >>= k) (nd.get i >>= k') L Q :=
  Sim.read hm (fun _ hd => Entry.get_reads i hd) hk

theorem get_sim (p : VecOf (Addr × Node α)) (i : Nat) :
    Sim (get p.addrs i) (p.nodes.get i) p.owned fun g d L' => g = d ∧ L' = p.owned := by
  unfold get RVec.get
  refine find_sim p (fun _ h => h) i fun q _ => ?_
  rcases q with _ | ⟨pos, sub⟩
  · exact Sim.pure ⟨rfl, rfl⟩
  · refine Sim.nat (nodeAt_nat p pos).1 (nodeAt_nat p pos).2 fun x hx => ?_
    obtain ⟨R, h1, -⟩ := owned_at hx
    refine Sim.get (nd := x.2) (by rw [h1]; simp) fun o _ => Sim.same fun a _ => Sim.pure ⟨rfl, rfl⟩

theorem set_sim (p : VecOf (Addr × Node α)) (i : Nat) (x : α) :
    Sim (set p.addrs i x) (p.nodes.set i x) p.owned fun g d L' => g.1 = d.isSome ∧ Both g.2 (d.getD p.nodes) L' := by
  unfold set RVec.set
  refine find_sim p (fun _ h => h) i fun q _ => ?_
  rcases q with _ | ⟨pos, sub⟩
  · exact Sim.pure ⟨rfl, p, rfl, rfl, rfl⟩
  · refine Sim.nat (nodeAt_nat p pos).1 (nodeAt_nat p pos).2 fun y hy => ?_
    obtain ⟨R, h1, h2⟩ := owned_at hy
    refine Sim.ctx h1 (Sim.bind (Entry.set_sim y sub x) fun g d A' q => ?_)
    obtain ⟨q1, rfl⟩ := q
    cases d with
    | none =>
      rw [show g.1 = false from q1]
      exact Sim.error
    | some nd =>
      simp only [Option.isSome_some] at q1
      rw [q1]
      refine Sim.lift (a := ()) rfl (Sim.pure ⟨rfl, p.withNodeAt pos (g.2, nd), ?_, ?_, ?_⟩)
      · exact addrs_withNodeAt p pos (g.2, nd)
      · exact nodes_withNodeAt p pos (g.2, nd)
      · rw [h2]; rfl

theorem map_ident (z : M β) : z = z.map id := by cases z <;> rfl

theorem frontBack_sim (p : VecOf (Addr × Node α)) (s : Side) :
    Sim (frontBack p.addrs s) (p.nodes.frontBack s) p.owned fun g d L' => g = d ∧ L' = p.owned := by
  unfold frontBack RVec.frontBack
  rw [addrs_leafNode, nodes_leafNode]
  refine Sim.load (mem_leaf p s) fun P hP => ?_
  rw [hP]
  cases P with
  | leaf b =>
    cases s
    · exact Sim.natLast (z := b.get 0) (f := id) (f' := id) (map_ident _) (map_ident _) fun b _ => ⟨rfl, rfl⟩
    · exact Sim.natLast (z := b.get (b.len - 1)) (f := id) (f' := id) (map_ident _) (map_ident _) fun b _ => ⟨rfl, rfl⟩
  | internal t g c => exact Sim.error

theorem setFrontBack_sim (p : VecOf (Addr × Node α)) (s : Side) (x : α) :
    Sim (setFrontBack p.addrs s x) (p.nodes.setFrontBack s x) p.owned fun g d L' =>
      g.1 = d.isSome ∧ Both g.2 (d.getD p.nodes) L' := by
  unfold setFrontBack RVec.setFrontBack
  rw [addrs_leafNode, nodes_leafNode]
  obtain ⟨R, h1, h2⟩ := p.owned_leaf s
  refine Sim.ctx h1 (Sim.borrow fun a P hP => ?_)
  rw [hP]
  cases P with
  | internal t g c => exact Sim.error
  | leaf b =>
    refine Sim.nat (z := match s with
      | .front => b.set 0 x
      | .back => b.set (b.len - 1) x) (f := fun r => r.map Body.leaf) (f' := fun r => r.map Node.leaf) ?_ ?_ fun r hr => ?_
    · cases s
      · show (b.set 0 x >>= _) = _
        cases b.set 0 x <;> rfl
      · show (b.set (b.len - 1) x >>= _) = _
        cases b.set (b.len - 1) x <;> rfl
    · cases s
      · show (b.set 0 x >>= _) = _
        cases b.set 0 x <;> rfl
      · show (b.set (b.len - 1) x >>= _) = _
        cases b.set (b.len - 1) x <;> rfl
    cases r with
    | none =>
      refine Sim.giveBack (P := .leaf b) (Sim.pure ⟨rfl, p.withLeafNode s (a, .leaf b), ?_, ?_, ?_⟩)
      · exact addrs_withLeafNode p s (a, .leaf b)
      · show p.nodes = _
        rw [← nodes_withLeafNode]
        have : (p.leafNode s).2 = .leaf b := hP
        simp only
        rw [← this, ← nodes_leafNode]
        obtain ⟨l, r, t, n⟩ := p
        cases s
        · cases l <;> rfl
        · cases r <;> rfl
      · rw [h2]; rfl
    | some b' =>
      refine Sim.ctx (L' := hole a + own (Body.leaf b' : Body α (Addr × Node α)).kids + R) rfl
        (Sim.giveBack (P := .leaf b') (Sim.pure ⟨rfl, p.withLeafNode s (a, .leaf b'), ?_, ?_, ?_⟩))
      · exact addrs_withLeafNode p s (a, .leaf b')
      · exact nodes_withLeafNode p s (a, .leaf b')
      · rw [h2]; rfl

end HVec
end Librrb
