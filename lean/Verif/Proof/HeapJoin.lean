import Verif.Proof.HeapVec

/-!
# What concatenation and splitting do on the heap
-/
namespace Librrb

open VecOf

theorem loadMut_spec (p : Addr × Node α) : Spec (loadMut p.1) (has p) fun g L' => L' = has (g, p.2) := by
  intro h F w
  exact (loadMut_runs p.1 p.2 h F w).mono fun r L h ⟨b, e, q, _⟩ => ⟨b, e, q⟩

theorem Sim.loadMut {p : Addr × Node α} {R : Ctx α} {y : M δ} {k : Addr → HM α ζ} {Q : ζ → δ → Ctx α → Prop}
    (hk : ∀ a, Sim (k a) y (has (a, p.2) + R) Q) : Sim (Librrb.loadMut p.1 >>= k) y (has p + R) Q := by
  refine Sim.step (loadMut_spec p) fun g A' q => ?_
  subst q
  exact hk g

namespace HVec

theorem raiseSelf_sim : ∀ (fuel t : Nat) (p : VecOf (Addr × Node α)),
    Sim (raiseSelf fuel t p.addrs) (RVec.raiseSelf fuel t p.nodes) p.owned Both
  | 0, t, p => by
    unfold raiseSelf RVec.raiseSelf
    have e : p.addrs.right.length = p.nodes.right.length := spine_len p .back
    rw [e]
    exact Sim.ite (fun _ => Sim.error) fun _ => Sim.pure ⟨p, rfl, rfl, rfl⟩
  | fuel + 1, t, p => by
    unfold raiseSelf RVec.raiseSelf
    have e : p.addrs.right.length = p.nodes.right.length := spine_len p .back
    rw [e]
    refine Sim.ite (fun _ => ?_) fun _ => Sim.pure ⟨p, rfl, rfl, rfl⟩
    refine Sim.level (mem_root p) (Sim.ctx (zero_add _).symm (Sim.bind (Entry.emptyInternal_sim _) fun g d A' q => ?_))
    subst q
    refine Sim.newEmpty (nd := p.root.2) (by simp [owned, addrs]) fun b => ?_
    refine Sim.slots (nd := p.root.2) (by simp [owned, addrs]) ?_
    refine Sim.ctx (L' := has p.root + has (b, p.root.2.newEmpty) + (own p.left + own p.right + has (g, d)))
      (by unfold owned; abel) (Sim.bind (Entry.share_sim p.root (b, p.root.2.newEmpty) .back _) fun g' d' A' q => ?_)
    obtain ⟨-, rfl⟩ := q
    have := raiseSelf_sim fuel t ⟨p.left ++ [(g'.2.1, d'.2.1)], p.right ++ [(g'.2.2, d'.2.2)], (g, d), p.len⟩
    simp only [addrs, nodes, List.map_append, List.map_cons, List.map_nil] at this
    refine Sim.ctx ?_ this
    simp only [owned, own_append, own_cons, own_nil, add_zero]
    abel

theorem raiseOther_sim : ∀ (fuel t : Nat) (p : VecOf (Addr × Node α)),
    Sim (raiseOther fuel t p.addrs) (RVec.raiseOther fuel t p.nodes) p.owned Both
  | 0, t, p => by
    unfold raiseOther RVec.raiseOther
    have e : p.addrs.left.length = p.nodes.left.length := spine_len p .front
    rw [e]
    exact Sim.ite (fun _ => Sim.error) fun _ => Sim.pure ⟨p, rfl, rfl, rfl⟩
  | fuel + 1, t, p => by
    unfold raiseOther RVec.raiseOther
    have e : p.addrs.left.length = p.nodes.left.length := spine_len p .front
    rw [e]
    refine Sim.ite (fun _ => ?_) fun _ => Sim.pure ⟨p, rfl, rfl, rfl⟩
    refine Sim.level (mem_root p) (Sim.ctx (zero_add _).symm (Sim.bind (Entry.emptyInternal_sim _) fun g d A' q => ?_))
    subst q
    refine Sim.newEmpty (nd := p.root.2) (by simp [owned, addrs]) fun b => ?_
    refine Sim.slots (nd := p.root.2) (by simp [owned, addrs]) ?_
    refine Sim.ctx (L' := has p.root + has (b, p.root.2.newEmpty) + (own p.left + own p.right + has (g, d)))
      (by unfold owned; abel) (Sim.bind (Entry.share_sim p.root (b, p.root.2.newEmpty) .front _) fun g' d' A' q => ?_)
    obtain ⟨-, rfl⟩ := q
    have := raiseOther_sim fuel t ⟨p.left ++ [(g'.2.2, d'.2.2)], p.right ++ [(g'.2.1, d'.2.1)], (g, d), p.len⟩
    simp only [addrs, nodes, List.map_append, List.map_cons, List.map_nil] at this
    refine Sim.ctx ?_ this
    simp only [owned, own_append, own_cons, own_nil, add_zero]
    abel

theorem pushUp_sim (s : Side) (c : Addr × Node α) (sp : List (Addr × Node α)) (r : Addr × Node α) :
    Sim (pushUp s c.1 (sp.map Prod.fst) r.1) (RVec.pushUp s c.2 (sp.map Prod.snd) r.2) (has c + own sp + has r) BothSp := by
  unfold pushUp RVec.pushUp
  refine Sim.isEmpty (nd := c.2) (by simp) fun e _ => Sim.ite (fun _ => ?_) fun _ => ?_
  · refine Sim.ctx (add_assoc _ _ _) (Sim.drop (Sim.pure ⟨sp, r, rfl, rfl, rfl⟩))
  · cases sp with
    | nil =>
      refine Sim.ctx (L' := has r + has c + 0) (by rw [own_nil]; abel) (Sim.bind (Entry.pushChild_sim r c s) fun g d A' q => Sim.pure ?_)
      exact ⟨[], (g, d), rfl, rfl, by rw [q, own_nil]; abel⟩
    | cons p sp =>
      refine Sim.ctx (L' := has p + has c + (own sp + has r)) (by rw [own_cons]; abel)
        (Sim.bind (Entry.pushChild_sim p c s) fun g d A' q => Sim.pure ?_)
      exact ⟨(g, d) :: sp, r, rfl, rfl, by rw [q, own_cons]; abel⟩

theorem stealLoop_sim : ∀ (fuel : Nat) (l r : Addr × Node α),
    Sim (stealLoop fuel l.1 r.1) (RVec.stealLoop fuel l.2 r.2) (has l + has r) fun g d L' =>
      L' = has (g.1, d.1) + has (g.2, d.2)
  | 0, l, r => by
    unfold stealLoop RVec.stealLoop
    exact Sim.isFull (nd := l.2) (by simp) fun _ _ => Sim.isEmpty (nd := r.2) (by simp) fun _ _ =>
      Sim.ite (fun _ => Sim.error) fun _ => Sim.pure rfl
  | fuel + 1, l, r => by
    unfold stealLoop RVec.stealLoop
    refine Sim.isFull (nd := l.2) (by simp) fun _ _ => Sim.isEmpty (nd := r.2) (by simp) fun _ _ =>
      Sim.ite (fun _ => ?_) fun _ => Sim.pure rfl
    refine Sim.ctx (add_comm _ _) (Sim.bind (Entry.popChild_sim r .front) fun g d A' q => ?_)
    subst q
    refine Sim.slots (nd := d.1) (by simp) ?_
    refine Sim.ctx (L' := has (g.1, d.1) + has l + has (g.2, d.2)) (by abel)
      (Sim.bind (Entry.share_sim (g.1, d.1) l .front _) fun g' d' A' q => ?_)
    obtain ⟨-, rfl⟩ := q
    refine Sim.isEmpty (nd := d'.2.1) (by simp) fun e _ => ?_
    by_cases he : (!e) = true
    · rw [if_pos he, if_pos he]
      refine Sim.ctx (L' := has (g.2, d.2) + has (g'.2.1, d'.2.1) + has (g'.2.2, d'.2.2)) (by abel)
        (Sim.bind (Entry.pushChild_sim (g.2, d.2) (g'.2.1, d'.2.1) .front) fun g3 d3 A' q => ?_)
      subst q
      exact Sim.ctx (add_comm _ _) (stealLoop_sim fuel (g'.2.2, d'.2.2) (g3, d3))
    · rw [if_neg he, if_neg he, ok_bind]
      refine Sim.ctx (add_assoc _ _ _) (Sim.drop (p := (g'.2.1, d'.2.1)) ?_)
      exact stealLoop_sim fuel (g'.2.2, d'.2.2) (g.2, d.2)

theorem joinLevel_sim (l r : Addr × Node α) :
    Sim (joinLevel l.1 r.1) (RVec.joinLevel l.2 r.2) (has l + has r) fun g d L' => L' = has (g.1, d.1) + has (g.2, d.2) := by
  unfold joinLevel RVec.joinLevel
  refine Sim.loadMut fun a => Sim.ctx (add_comm _ _) (Sim.loadMut fun b => ?_)
  refine Sim.ctx (add_comm _ _) (Sim.bind (Entry.packChildren_sim (a, l.2)) fun g d A' q => ?_)
  subst q
  refine Sim.bind (Entry.popChild_sim (g, d) .back) fun g2 d2 A' q => ?_
  subst q
  refine Sim.slots (nd := r.2) (by simp) ?_
  refine Sim.ctx (L' := has (g2.1, d2.1) + has (b, r.2) + has (g2.2, d2.2)) (by abel)
    (Sim.bind (stealLoop_sim _ (g2.1, d2.1) (b, r.2)) fun g3 d3 A' q => ?_)
  subst q
  refine Sim.ctx (L' := has (g2.2, d2.2) + has (g3.1, d3.1) + has (g3.2, d3.2)) (by abel)
    (Sim.bind (Entry.pushChild_sim (g2.2, d2.2) (g3.1, d3.1) .back) fun g4 d4 A' q => ?_)
  subst q
  refine Sim.ctx (add_comm _ _) (Sim.bind (Entry.packChildren_sim (g3.2, d3.2)) fun g5 d5 A' q => ?_)
  subst q
  refine Sim.slots (nd := d5) (by simp) ?_
  refine Sim.ctx (add_zero _).symm (Sim.bind (Entry.share_sim (g5, d5) (g4, d4) .front _) fun g6 d6 A' q => Sim.pure ?_)
  obtain ⟨-, rfl⟩ := q
  rw [add_zero, add_comm]

theorem appendLoop_sim : ∀ (n : Nat) (l o : List (Addr × Node α)) (r t : Addr × Node α),
    Sim (appendLoop n (l.map Prod.fst) (o.map Prod.fst) r.1 t.1) (RVec.appendLoop n (l.map Prod.snd) (o.map Prod.snd) r.2 t.2)
      (own l + own o + has r + has t) fun g d L' => L' = has (g.1, d.1) + has (g.2, d.2)
  | n, [], o, r, t => by
    simp only [List.map_nil, appendLoop, RVec.appendLoop, List.isEmpty_map]
    refine Sim.same fun _ e => Sim.pure ?_
    have : o = [] := by simpa using massert_inv e
    subst this
    simp
  | 0, _ :: _, o, r, t => Sim.error
  | n + 1, x :: l, [], r, t => Sim.error
  | n + 1, x :: l, y :: o, r, t => by
    simp only [List.map_cons, appendLoop, RVec.appendLoop, List.head?_cons, List.tail_cons]
    refine Sim.lift (a := y.1) rfl ?_
    have : unwrap (some y.2) = .ok y.2 := rfl
    rw [this, ok_bind]
    refine Sim.ctx (L' := has x + has y + (own l + own o + has r + has t)) (by simp only [own_cons]; abel)
      (Sim.bind (joinLevel_sim x y) fun g d A' q => ?_)
    subst q
    refine Sim.ctx (L' := has (g.1, d.1) + own l + has r + (has (g.2, d.2) + own o + has t)) (by abel)
      (Sim.bind (pushUp_sim .back (g.1, d.1) l r) fun g1 d1 A' q => ?_)
    obtain ⟨l', r', rfl, rfl, rfl⟩ := q
    refine Sim.ctx (L' := has (g.2, d.2) + own o + has t + (own l' + has r')) (by abel)
      (Sim.bind (pushUp_sim .front (g.2, d.2) o t) fun g1 d1 A' q => ?_)
    obtain ⟨o', t', rfl, rfl, rfl⟩ := q
    exact Sim.ctx (by abel) (appendLoop_sim n l' o' r' t')

theorem firstUp_sim (s : Side) (sp : List (Addr × Node α)) (r : Addr × Node α) :
    Sim (firstUp s (sp.map Prod.fst) r.1) (RVec.firstUp s (sp.map Prod.snd) r.2) (own sp + has r) BothSp := by
  match sp with
  | [] => exact Sim.pure ⟨[], r, rfl, rfl, rfl⟩
  | [c] =>
    show Sim (loadMut r.1 >>= _) (RVec.pushUp s c.2 [] r.2) _ _
    refine Sim.ctx (add_comm _ _) (Sim.loadMut fun a => ?_)
    exact Sim.ctx (by simp only [own_cons, own_nil]; abel) (pushUp_sim s c [] (a, r.2))
  | c :: p :: sp =>
    show Sim (loadMut p.1 >>= _) (RVec.pushUp s c.2 _ r.2) _ _
    refine Sim.ctx (L' := has p + (has c + own sp + has r)) (by simp only [own_cons]; abel) (Sim.loadMut fun a => ?_)
    exact Sim.ctx (by simp only [own_cons]; abel) (pushUp_sim s c ((a, p.2) :: sp) r)

theorem appendMain_sim (p o : VecOf (Addr × Node α)) :
    Sim (appendMain p.addrs o.addrs) (RVec.appendMain p.nodes o.nodes) (p.owned + o.owned) Both := by
  unfold appendMain RVec.appendMain
  refine Sim.same fun newLen _ => ?_
  have e : o.addrs.left.length = o.nodes.left.length := spine_len o .front
  rw [e]
  refine Sim.bind (raiseSelf_sim _ _ p) fun g d A' q => ?_
  obtain ⟨p, rfl, rfl, rfl⟩ := q
  have e : p.addrs.right.length = p.nodes.right.length := spine_len p .back
  rw [e]
  refine Sim.ctx (add_comm _ _) (Sim.bind (raiseOther_sim _ _ o) fun g d A' q => ?_)
  obtain ⟨o, rfl, rfl, rfl⟩ := q
  rw [lens_eq, show o.addrs.left.length = o.nodes.left.length from spine_len o .front]
  refine Sim.same fun _ _ => Sim.same fun _ _ => ?_
  refine Sim.ctx (L' := own p.right + has p.root + (own p.left + o.owned)) (by unfold owned; abel)
    (Sim.bind (firstUp_sim .back p.right p.root) fun g d A' q => ?_)
  obtain ⟨l, r, rfl, rfl, rfl⟩ := q
  refine Sim.ctx (L' := own o.left + has o.root + (own l + has r + own p.left + own o.right)) (by unfold owned; abel)
    (Sim.bind (firstUp_sim .front o.left o.root) fun g d A' q => ?_)
  obtain ⟨m, t, rfl, rfl, rfl⟩ := q
  simp only [List.length_map]
  refine Sim.ctx (L' := own l + own m + has r + has t + (own p.left + own o.right)) (by abel)
    (Sim.bind (appendLoop_sim _ l m r t) fun g d A' q => ?_)
  subst q
  refine Sim.ctx (L' := has (g.2, d.2) + has (g.1, d.1) + (own p.left + own o.right)) (by abel)
    (Sim.bind (Entry.share_sim (g.2, d.2) (g.1, d.1) .front _) fun g2 d2 A' q => ?_)
  obtain ⟨-, rfl⟩ := q
  refine Sim.freeSlots (nd := d2.2.2) (by simp) fun free _ => ?_
  refine Sim.bind (Q := fun g d L' => L' = has (g.1, d.1) + has (g.2, d.2)) (Sim.ite (fun _ => ?_) fun _ => Sim.pure (add_comm _ _))
    fun g3 d3 A' q => ?_
  · refine Sim.ctx (L' := has (g2.2.2, d2.2.2) + has (g2.2.1, d2.2.1) + 0) (by abel)
      (Sim.bind (Entry.share_sim (g2.2.2, d2.2.2) (g2.2.1, d2.2.1) .back _) fun g4 d4 A' q => Sim.pure ?_)
    rw [q.2, add_zero]
  subst q
  refine Sim.isEmpty (nd := d3.2) (by simp) fun e _ => ?_
  by_cases he : (!e) = true
  · rw [if_pos he, if_pos he]
    refine Sim.level (nd := d3.1) (by simp) ?_
    simp only [bind_assoc]
    refine Sim.ctx (zero_add _).symm (Sim.bind (Entry.emptyInternal_sim _) fun g4 d4 A' q => ?_)
    subst q
    rw [ok_bind]
    have := fixupSpineTops_sim ⟨p.left ++ [(g3.1, d3.1)], o.right ++ [(g3.2, d3.2)], (g4, d4), newLen⟩
    simp only [addrs, nodes, List.map_append, List.map_cons, List.map_nil] at this
    refine Sim.ctx ?_ this
    simp only [owned, own_append, own_cons, own_nil, add_zero]
    abel
  · rw [if_neg he, if_neg he, ok_bind]
    apply Sim.ret
    simp only [bind_assoc]
    refine Sim.ctx (L' := (⟨p.left, o.right, (g3.1, d3.1), newLen⟩ : VecOf (Addr × Node α)).owned + has (g3.2, d3.2))
      (by simp only [owned]; abel) (Sim.bind (fixupSpineTops_sim ⟨p.left, o.right, (g3.1, d3.1), newLen⟩) fun g4 d4 A' q => ?_)
    exact Sim.ctx (add_comm _ _) (Sim.drop (p := (g3.2, d3.2)) (by rw [pure_bind]; exact Sim.pure q))

theorem drop_bind {p : VecOf (Addr × Node α)} {R : Ctx α} {y : M δ} {k : Unit → HM α ζ} {Q : ζ → δ → Ctx α → Prop}
    (hk : Sim (k ()) y R Q) : Sim (drop p.addrs >>= k) y (p.owned + R) Q := by
  refine Sim.step (drop_spec p) fun g A' q => ?_
  subst q
  rw [zero_add]
  exact hk

theorem append_sim (p o : VecOf (Addr × Node α)) :
    Sim (append p.addrs o.addrs) (p.nodes.append o.nodes) (p.owned + o.owned) Both := by
  unfold append RVec.append RVec.isEmpty
  refine Sim.ite (fun _ => ?_) fun _ => Sim.ite (fun _ => ?_) fun _ => Sim.ite (fun _ => ?_) fun _ => Sim.ite (fun _ => ?_) fun _ =>
    appendMain_sim p o
  · exact drop_bind (Sim.pure ⟨o, rfl, rfl, rfl⟩)
  · exact Sim.ctx (add_comm _ _) (drop_bind (Sim.pure ⟨p, rfl, rfl, rfl⟩))
  · refine Sim.bind (popSide_sim p .back) fun g d A' q => ?_
    obtain ⟨e, p, h1, h2, rfl⟩ := q
    rw [e]
    refine Sim.same fun x _ => ?_
    apply Sim.ret
    simp only [bind_assoc]
    refine Sim.ctx (add_comm _ _) (Sim.bind (pushFront_sim o x) fun g' d' A' q => ?_)
    rw [h1]
    exact Sim.ctx (add_comm _ _) (drop_bind (by rw [pure_bind]; exact Sim.pure q))
  · refine Sim.ctx (add_comm _ _) (Sim.bind (popSide_sim o .back) fun g d A' q => ?_)
    obtain ⟨e, o, h1, h2, rfl⟩ := q
    rw [e]
    refine Sim.same fun x _ => ?_
    apply Sim.ret
    simp only [bind_assoc]
    refine Sim.ctx (add_comm _ _) (Sim.bind (pushBack_sim p x) fun g' d' A' q => ?_)
    rw [h1]
    exact Sim.ctx (add_comm _ _) (drop_bind (by rw [pure_bind]; exact Sim.pure q))

/-! ### Splitting -/

theorem dropEmpty_sim : ∀ (l : List (Addr × Node α)),
    Sim (dropEmpty (l.map Prod.fst)) (RVec.dropEmpty (l.map Prod.snd)) (own l) fun g d L' =>
      ∃ m : List (Addr × Node α), g = m.map Prod.fst ∧ d = m.map Prod.snd ∧ L' = own m
  | [] => Sim.pure ⟨[], rfl, rfl, rfl⟩
  | x :: l => by
    simp only [List.map_cons, dropEmpty, RVec.dropEmpty]
    refine Sim.isEmpty (nd := x.2) (by simp) fun e _ => Sim.ite (fun _ => ?_) fun _ => Sim.pure ⟨x :: l, rfl, rfl, rfl⟩
    rw [own_cons]
    exact Sim.drop (dropEmpty_sim l)

theorem popTops_sim : ∀ (fuel : Nat) (p : VecOf (Addr × Node α)),
    Sim (popTops fuel p.addrs) (RVec.popTops fuel p.nodes) p.owned Both
  | 0, p => by
    unfold popTops RVec.popTops
    have e1 : p.addrs.left.isEmpty = p.nodes.left.isEmpty := by simp [addrs, nodes]
    have e2 : p.addrs.right.isEmpty = p.nodes.right.isEmpty := by simp [addrs, nodes]
    rw [e1, e2]
    exact Sim.isEmpty (mem_root p) fun e _ => Sim.ite (fun _ => Sim.error) fun _ => Sim.pure ⟨p, rfl, rfl, rfl⟩
  | fuel + 1, p => by
    unfold popTops RVec.popTops
    have e1 : p.addrs.left.isEmpty = p.nodes.left.isEmpty := by simp [addrs, nodes]
    have e2 : p.addrs.right.isEmpty = p.nodes.right.isEmpty := by simp [addrs, nodes]
    rw [e1, e2]
    refine Sim.isEmpty (mem_root p) fun e _ => Sim.ite (fun _ => Sim.ite (fun _ => ?_) fun _ => ?_)
      fun _ => Sim.pure ⟨p, rfl, rfl, rfl⟩
    · refine Sim.nat (unwrap_last Prod.fst p.right) (unwrap_last Prod.snd p.right) fun x hx => ?_
      refine Sim.ctx (L' := has p.root + (own p.left + own p.right.dropLast + has x))
        (by unfold owned; rw [own_last hx]; abel) (Sim.drop ?_)
      have := popTops_sim fuel ⟨p.left, p.right.dropLast, x, p.len⟩
      simp only [addrs, nodes, List.map_dropLast] at this
      exact this
    · refine Sim.nat (unwrap_last Prod.fst p.left) (unwrap_last Prod.snd p.left) fun x hx => ?_
      refine Sim.ctx (L' := has p.root + (own p.left.dropLast + own p.right + has x))
        (by unfold owned; rw [own_last hx]; abel) (Sim.drop ?_)
      have := popTops_sim fuel ⟨p.left.dropLast, p.right, x, p.len⟩
      simp only [addrs, nodes, List.map_dropLast] at this
      exact this

theorem fillLoop_sim (s : Side) : ∀ (fuel : Nat) (sp : List (Addr × Node α)) (r : Addr × Node α),
    Sim (fillLoop s fuel (sp.map Prod.fst) r.1) (RVec.fillLoop s fuel (sp.map Prod.snd) r.2) (own sp + has r) fun g d L' =>
      g.1 = d.1 ∧ BothSp g.2 d.2 L'
  | 0, sp, r => Sim.error
  | fuel + 1, sp, r => by
    unfold fillLoop RVec.fillLoop
    rw [head_getD, head_getD]
    refine Sim.load (nd := (sp.head?.getD r).2) ?_ fun P hP => ?_
    · cases sp <;> simp
    have hP' := hP
    rw [hP]
    cases P with
    | leaf b => exact Sim.pure ⟨rfl, sp, r, rfl, rfl, rfl⟩
    | internal t g c =>
      simp only [Body.map, Body.node]
      simp only [Body.map, Body.node] at hP'
      rw [← hP']
      cases sp with
      | nil =>
        simp only [List.map_nil, List.head?_nil, Option.getD_none]
        refine Sim.ctx (L' := has r + 0) (by rw [own_nil]; abel) (Sim.bind (Entry.popChild_sim r s) fun g d A' q => ?_)
        subst q
        exact Sim.ctx (by simp only [own_cons, own_nil]; abel) (fillLoop_sim s fuel [(g.1, d.1)] (g.2, d.2))
      | cons p sp =>
        simp only [List.map_cons, List.head?_cons, Option.getD_some]
        refine Sim.ctx (L' := has p + (own sp + has r)) (by rw [own_cons]; abel) (Sim.bind (Entry.popChild_sim p s) fun g d A' q => ?_)
        subst q
        exact Sim.ctx (by simp only [own_cons]; abel) (fillLoop_sim s fuel ((g.1, d.1) :: (g.2, d.2) :: sp) r)

theorem fillSpine_sim (p : VecOf (Addr × Node α)) (s : Side) :
    Sim (fillSpine p.addrs s) (p.nodes.fillSpine s) p.owned fun g d L' => g.1 = d.1 ∧ Both g.2 d.2 L' := by
  unfold fillSpine RVec.fillSpine
  have e1 : (p.addrs.spine s).head?.getD p.addrs.root = (p.leafNode s).1 := addrs_leafNode p s
  have e2 : (p.nodes.spine s).head?.getD p.nodes.root = (p.leafNode s).2 := nodes_leafNode p s
  rw [e1, e2]
  refine Sim.level (mem_leaf p s) ?_
  rw [addrs_spine, nodes_spine]
  refine Sim.ctx (L' := own (p.spine s) + has p.root + own (p.spine s.negate)) (by rw [owned_spine p s]; abel)
    (Sim.bind (fillLoop_sim s _ (p.spine s) p.root) fun g d A' q => Sim.pure ?_)
  obtain ⟨e, sp, r, h1, h2, rfl⟩ := q
  rw [h1, h2, e]
  refine ⟨by simp, ({ p with root := r } : VecOf (Addr × Node α)).withSpine s sp, ?_, ?_, ?_⟩
  · rw [← addrs_withSpine]; rfl
  · rw [← nodes_withSpine]; rfl
  · rw [withRoot_spine]

theorem repair_sim (p : VecOf (Addr × Node α)) (s : Side) : Sim (repair p.addrs s) (p.nodes.repair s) p.owned Both := by
  unfold repair RVec.repair
  rw [addrs_spine, nodes_spine]
  refine Sim.ctx (L' := own (p.spine s) + (own (p.spine s.negate) + has p.root)) (by rw [owned_spine p s]; abel)
    (Sim.bind (dropEmpty_sim (p.spine s)) fun g d A' q => ?_)
  obtain ⟨m, rfl, rfl, rfl⟩ := q
  rw [addrs_withSpine, nodes_withSpine]
  have hL : own m + (own (p.spine s.negate) + has p.root) = (p.withSpine s m).owned + 0 := by
    rw [owned_spine _ s, spine_withSpine, spine_withSpine_neg, root_withSpine]; abel
  rw [hL]
  generalize p.withSpine s m = p
  simp only
  rw [show p.addrs.left.length = p.nodes.left.length from spine_len p .front,
    show p.addrs.right.length = p.nodes.right.length from spine_len p .back]
  refine Sim.bind (popTops_sim _ p) fun g d A' q => ?_
  obtain ⟨p, rfl, rfl, rfl⟩ := q
  refine Sim.bind (fillSpine_sim p s) fun g d A' q => ?_
  obtain ⟨e, p, h1, h2, rfl⟩ := q
  rw [h1, h2, e]
  refine Sim.bind (Q := Both) (Sim.ite (fun _ => ?_) fun _ => Sim.pure ⟨p, rfl, rfl, rfl⟩) fun g d A' q => ?_
  · refine Sim.ctx (add_zero _).symm (Sim.bind (fixupSpineTops_sim p) fun g d A' q => ?_)
    obtain ⟨p, rfl, rfl, rfl⟩ := q
    exact Sim.ctx (add_zero _) (emptyLeaf_sim p s)
  · obtain ⟨p, rfl, rfl, rfl⟩ := q
    exact Sim.ctx (add_zero _) (fixupSpineTops_sim p)

theorem own_at {l : List (Addr × Node α)} {i : Nat} {x : Addr × Node α} (e : unwrap l[i]? = .ok x) :
    own l = own (l.take i) + has x + own (l.drop (i + 1)) := by
  have e := unwrap_inv e
  have hi := (List.getElem?_eq_some_iff.1 e).1
  conv => lhs; rw [← List.take_append_drop i l, List.drop_eq_getElem_cons hi]
  rw [own_append, own_cons, (List.getElem?_eq_some_iff.1 e).2]; abel

theorem cut_sim (p : VecOf (Addr × Node α)) (pos : Option (Side × Nat)) (sub at' : Nat) :
    Sim (cut p.addrs pos sub at') (p.nodes.cut pos sub at') p.owned fun g d L' =>
      ∃ a b : VecOf (Addr × Node α), g = (a.addrs, b.addrs) ∧ d = (a.nodes, b.nodes) ∧ L' = a.owned + b.owned := by
  unfold cut RVec.cut
  refine Sim.same fun rest _ => ?_
  refine Sim.ctx (L' := own (Body.emptyLeaf : Body α (Addr × Node α)).kids + p.owned) (by
    show _ = own [] + p.owned
    rw [own_nil, zero_add]) (Sim.alloc (P := Body.emptyLeaf) fun fresh => ?_)
  have hf : has (fresh, ((Body.emptyLeaf : Body α (Addr × Node α)).map Prod.snd).node) = has (fresh, Node.emptyLeaf) := rfl
  rw [hf]
  rcases pos with _ | ⟨s, i⟩
  · refine Sim.ctx (L' := has p.root + (own p.left + own p.right + has (fresh, Node.emptyLeaf))) (by unfold owned; abel)
      (Sim.bind (Entry.splitAtPosition_sim p.root sub) fun g d A' q => ?_)
    subst q
    refine Sim.ctx (L' := has (fresh, Node.emptyLeaf) + (own p.left + own p.right + has (g.1, d.1) + has (g.2, d.2))) (by abel)
      (Sim.drop (p := (fresh, Node.emptyLeaf)) (Sim.pure ?_))
    exact ⟨⟨p.left, [], (g.1, d.1), at'⟩, ⟨[], p.right, (g.2, d.2), rest⟩, rfl, rfl, by
      simp only [owned, own_nil]; abel⟩
  · cases s
    · refine Sim.nat (unwrap_at Prod.fst p.left i) (unwrap_at Prod.snd p.left i) fun x hx => ?_
      refine Sim.ctx (L' := has x + (own (p.left.take i) + own (p.left.drop (i + 1)) + own p.right + has p.root +
        has (fresh, Node.emptyLeaf))) (by unfold owned; rw [own_at hx]; abel)
        (Sim.bind (Entry.splitAtPosition_sim x sub) fun g d A' q => ?_)
      subst q
      refine Sim.ctx (L' := has (fresh, Node.emptyLeaf) + (own (p.left.take i) + own (p.left.drop (i + 1)) + own p.right + has p.root +
        has (g.1, d.1) + has (g.2, d.2))) (by abel) (Sim.drop (p := (fresh, Node.emptyLeaf)) (Sim.pure ?_))
      exact ⟨⟨p.left.take i, [], (g.1, d.1), at'⟩, ⟨(g.2, d.2) :: p.left.drop (i + 1), p.right, p.root, rest⟩,
        by simp [addrs], by simp [nodes], by simp only [owned, own_cons, own_nil]; abel⟩
    · refine Sim.nat (unwrap_at Prod.fst p.right i) (unwrap_at Prod.snd p.right i) fun x hx => ?_
      refine Sim.ctx (L' := has x + (own (p.right.take i) + own (p.right.drop (i + 1)) + own p.left + has p.root +
        has (fresh, Node.emptyLeaf))) (by unfold owned; rw [own_at hx]; abel)
        (Sim.bind (Entry.splitAtPosition_sim x sub) fun g d A' q => Sim.pure ?_)
      subst q
      exact ⟨⟨p.left, (g.1, d.1) :: p.right.drop (i + 1), p.root, at'⟩, ⟨[], p.right.take i ++ [(g.2, d.2)], (fresh, Node.emptyLeaf), rest⟩,
        by simp [addrs], by simp [nodes], by simp only [owned, own_append, own_cons, own_nil]; abel⟩

/-- Both sides have the same two vectors. -/
def Both2 (g : HVec × HVec) (d : RVec α × RVec α) (L : Ctx α) : Prop :=
  ∃ a b : VecOf (Addr × Node α), g = (a.addrs, b.addrs) ∧ d = (a.nodes, b.nodes) ∧ L = a.owned + b.owned

theorem splitOff_sim (p : VecOf (Addr × Node α)) (at' : Nat) :
    Sim (splitOff p.addrs at') (p.nodes.splitOff at') p.owned Both2 := by
  unfold splitOff RVec.splitOff
  refine Sim.ite (fun _ => ?_) fun _ => Sim.ite (fun _ => ?_) fun _ => ?_
  · exact new_bind (y := fun v => .ok (v, p.nodes)) fun q _ => Sim.pure ⟨q, p, rfl, rfl, rfl⟩
  · exact new_bind (y := fun v => .ok (p.nodes, v)) fun q _ => Sim.pure ⟨p, q, rfl, rfl, add_comm _ _⟩
  · refine find_sim p (fun _ h => h) at' fun q _ => Sim.same fun q _ => ?_
    refine Sim.ctx (add_zero _).symm (Sim.bind (cut_sim p q.1 q.2 at') fun g d A' q => ?_)
    obtain ⟨a, b, rfl, rfl, rfl⟩ := q
    refine Sim.ctx (add_zero _) (Sim.bind (repair_sim a .back) fun g d A' q => ?_)
    obtain ⟨a, rfl, rfl, rfl⟩ := q
    refine Sim.ctx (add_comm _ _) (Sim.bind (repair_sim b .front) fun g d A' q => Sim.pure ?_)
    obtain ⟨b, rfl, rfl, rfl⟩ := q
    exact ⟨a, b, rfl, rfl, add_comm _ _⟩

theorem sliceFromStart_sim (p : VecOf (Addr × Node α)) (len : Nat) :
    Sim (sliceFromStart p.addrs len) (p.nodes.sliceFromStart len) p.owned Both := by
  unfold sliceFromStart RVec.sliceFromStart
  refine Sim.ctx (add_zero _).symm (Sim.bind (splitOff_sim p len) fun g d A' q => ?_)
  obtain ⟨a, b, rfl, rfl, rfl⟩ := q
  exact Sim.ctx (by abel) (drop_bind (p := b) (Sim.pure ⟨a, rfl, rfl, rfl⟩))

theorem sliceToEnd_sim (p : VecOf (Addr × Node α)) (start : Nat) :
    Sim (sliceToEnd p.addrs start) (p.nodes.sliceToEnd start) p.owned Both := by
  unfold sliceToEnd RVec.sliceToEnd
  refine Sim.ctx (add_zero _).symm (Sim.bind (splitOff_sim p start) fun g d A' q => ?_)
  obtain ⟨a, b, rfl, rfl, rfl⟩ := q
  exact Sim.ctx (by abel) (drop_bind (p := a) (Sim.pure ⟨b, rfl, rfl, rfl⟩))

theorem extractSlice_sim (p : VecOf (Addr × Node α)) (lo hi : Bound) :
    Sim (extractSlice p.addrs lo hi) (p.nodes.extractSlice lo hi) p.owned Both2 := by
  unfold extractSlice RVec.extractSlice
  refine Sim.same fun start _ => Sim.same fun stop _ => ?_
  refine Sim.ctx (add_zero _).symm (Sim.bind (splitOff_sim p stop) fun g d A' q => ?_)
  obtain ⟨a, b, rfl, rfl, rfl⟩ := q
  refine Sim.ctx (L' := a.owned + b.owned) (add_zero _) (Sim.bind (splitOff_sim a start) fun g d A' q => ?_)
  obtain ⟨c, e, rfl, rfl, rfl⟩ := q
  refine Sim.ctx (L' := c.owned + b.owned + e.owned) (by abel) (Sim.bind (append_sim c b) fun g d A' q => Sim.pure ?_)
  obtain ⟨v, rfl, rfl, rfl⟩ := q
  exact ⟨v, e, rfl, rfl, rfl⟩

theorem insert_sim (p : VecOf (Addr × Node α)) (i : Nat) (x : α) :
    Sim (insert p.addrs i x) (p.nodes.insert i x) p.owned Both := by
  unfold insert RVec.insert
  refine Sim.ctx (add_zero _).symm (Sim.bind (splitOff_sim p i) fun g d A' q => ?_)
  obtain ⟨a, b, rfl, rfl, rfl⟩ := q
  refine Sim.ctx (L' := a.owned + b.owned) (add_zero _) (Sim.bind (pushBack_sim a x) fun g d A' q => ?_)
  obtain ⟨a, rfl, rfl, rfl⟩ := q
  exact append_sim a b

theorem remove_sim (p : VecOf (Addr × Node α)) (i : Nat) :
    Sim (remove p.addrs i) (p.nodes.remove i) p.owned fun g d L' => g.1 = d.1 ∧ Both g.2 d.2 L' := by
  unfold remove RVec.remove
  refine Sim.ite (fun _ => ?_) fun _ => Sim.pure ⟨rfl, p, rfl, rfl, rfl⟩
  refine Sim.ctx (add_zero _).symm (Sim.bind (splitOff_sim p i) fun g d A' q => ?_)
  obtain ⟨a, b, rfl, rfl, rfl⟩ := q
  refine Sim.ctx (L' := b.owned + a.owned) (by abel) (Sim.bind (popSide_sim b .front) fun g d A' q => ?_)
  obtain ⟨e, b, h1, h2, rfl⟩ := q
  rw [h1, h2]
  refine Sim.ctx (L' := a.owned + b.owned + 0) (by abel) (Sim.bind (append_sim a b) fun g d A' q => Sim.pure ⟨e, ?_⟩)
  rw [add_zero]
  exact q

theorem clone_bind {p : VecOf (Addr × Node α)} {R : Ctx α} {y : M δ} {k : HVec → HM α ζ} {Q : ζ → δ → Ctx α → Prop}
    (hk : Sim (k p.addrs) y (p.owned + p.owned + R) Q) : Sim (clone p.addrs >>= k) y (p.owned + R) Q := by
  refine Sim.step (clone_sim p) fun g A' q => ?_
  obtain ⟨rfl, rfl⟩ := q
  exact hk

theorem constantLoop_sim : ∀ (fuel len : Nat) (p a : VecOf (Addr × Node α)),
    Sim (constantLoop fuel len p.addrs a.addrs) (RVec.constantLoop fuel len p.nodes a.nodes) (p.owned + a.owned) Both
  | 0, len, p, a => by
    unfold constantLoop RVec.constantLoop
    exact Sim.ite (fun _ => Sim.error) fun _ => Sim.ctx (add_comm _ _) (drop_bind (Sim.pure ⟨p, rfl, rfl, rfl⟩))
  | fuel + 1, len, p, a => by
    unfold constantLoop RVec.constantLoop
    refine Sim.ite (fun _ => ?_) fun _ => Sim.ctx (add_comm _ _) (drop_bind (Sim.pure ⟨p, rfl, rfl, rfl⟩))
    have he : a.addrs.len = a.nodes.len := rfl
    rw [he]
    by_cases hb : (len &&& a.nodes.len != 0) = true
    · rw [if_pos hb, if_pos hb]
      refine Sim.ctx (add_comm _ _) (clone_bind ?_)
      refine Sim.ctx (L' := p.owned + a.owned + a.owned) (by abel) (Sim.bind (append_sim p a) fun g d A' q => ?_)
      obtain ⟨p, rfl, rfl, rfl⟩ := q
      refine Sim.ctx (add_comm _ _) (clone_bind ?_)
      refine Sim.bind (append_sim a a) fun g d A' q => ?_
      obtain ⟨a, rfl, rfl, rfl⟩ := q
      exact Sim.ctx (add_comm _ _) (constantLoop_sim fuel len p a)
    · rw [if_neg hb, if_neg hb, ok_bind]
      refine Sim.ctx (add_comm _ _) (clone_bind ?_)
      refine Sim.bind (append_sim a a) fun g d A' q => ?_
      obtain ⟨a, rfl, rfl, rfl⟩ := q
      exact Sim.ctx (add_comm _ _) (constantLoop_sim fuel len p a)

theorem constantVec_sim (x : α) (len : Nat) : Sim (constantVecOfLength x len) (RVec.constantVecOfLength x len) 0 Both := by
  unfold constantVecOfLength RVec.constantVecOfLength
  refine new_bind (y := fun v => RVec.singleton x >>= fun acc => RVec.constantLoop 64 len v acc) fun p _ => ?_
  refine Sim.ctx (L' := 0 + p.owned) (by abel) (Sim.bind (singleton_sim x) fun g d A' q => ?_)
  obtain ⟨a, rfl, rfl, rfl⟩ := q
  exact Sim.ctx (add_comm _ _) (constantLoop_sim 64 len p a)

end HVec
end Librrb
