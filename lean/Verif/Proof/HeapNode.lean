import Verif.Proof.HeapSim

/-!
# What the calls on entries do
-/
namespace Librrb
namespace Sim

variable {k : γ → HM α ζ} {y : M δ} {A R L L' : Ctx α} {a : Addr} {nd : Node α}

theorem len {k : Nat → HM α ζ} {k' : Nat → M η} {Q : ζ → η → Ctx α → Prop} (hm : (a, some nd) ∈ L)
    (hk : ∀ n, nd.len = .ok n → Sim (k n) (k' n) L Q) : Sim (Entry.len a >>= k) (nd.len >>= k') L Q := by
  unfold Entry.len
  rw [bind_assoc]
  refine load hm fun P hP => ?_
  subst hP
  rw [Body.node_len, Body.len_nat, Body.len_nat]
  refine same fun n e => hk n ?_
  rw [Body.node_len, Body.len_nat, e]

theorem isEmpty {k : Bool → HM α ζ} {k' : Bool → M η} {Q : ζ → η → Ctx α → Prop} (hm : (a, some nd) ∈ L)
    (hk : ∀ n, nd.isEmpty = .ok n → Sim (k n) (k' n) L Q) : Sim (Entry.isEmpty a >>= k) (nd.isEmpty >>= k') L Q := by
  unfold Entry.isEmpty Node.isEmpty
  rw [bind_assoc, bind_assoc]
  refine len hm fun n e => hk (n == 0) ?_
  rw [Node.isEmpty, e]; rfl

theorem freeSlots {k : Nat → HM α ζ} {k' : Nat → M η} {Q : ζ → η → Ctx α → Prop} (hm : (a, some nd) ∈ L)
    (hk : ∀ n, nd.freeSlots = .ok n → Sim (k n) (k' n) L Q) :
    Sim (Entry.freeSlots a >>= k) (nd.freeSlots >>= k') L Q := by
  unfold Entry.freeSlots
  rw [bind_assoc]
  refine load hm fun P hP => ?_
  subst hP
  rw [Body.node_freeSlots, Body.freeSlots_nat, Body.freeSlots_nat]
  refine same fun n e => hk n ?_
  rw [Body.node_freeSlots, Body.freeSlots_nat, e]

theorem isFull {k : Bool → HM α ζ} {k' : Bool → M η} {Q : ζ → η → Ctx α → Prop} (hm : (a, some nd) ∈ L)
    (hk : ∀ n, nd.isFull = .ok n → Sim (k n) (k' n) L Q) : Sim (Entry.isFull a >>= k) (nd.isFull >>= k') L Q := by
  unfold Entry.isFull Node.isFull
  rw [bind_assoc, bind_assoc]
  refine freeSlots hm fun n e => hk (n == 0) ?_
  rw [Node.isFull, e]; rfl

theorem leafFreeSpace {k : Nat → HM α ζ} {k' : Nat → M η} {Q : ζ → η → Ctx α → Prop} (hm : (a, some nd) ∈ L)
    (hk : ∀ n, RVec.leafFreeSpace nd = .ok n → Sim (k n) (k' n) L Q) :
    Sim (Entry.leafFreeSpace a >>= k) (RVec.leafFreeSpace nd >>= k') L Q := by
  unfold Entry.leafFreeSpace
  rw [bind_assoc]
  refine load hm fun P hP => ?_
  subst hP
  rw [Body.node_leafFreeSpace, Body.leafFreeSpace_nat, Body.leafFreeSpace_nat]
  refine same fun n e => hk n ?_
  rw [Body.node_leafFreeSpace, Body.leafFreeSpace_nat, e]

theorem slots {k : Nat → HM α ζ} {Q : ζ → δ → Ctx α → Prop} (hm : (a, some nd) ∈ L)
    (hk : Sim (k nd.slots) y L Q) : Sim (Entry.slots a >>= k) y L Q := by
  unfold Entry.slots
  rw [bind_assoc]
  refine load hm fun P hP => ?_
  subst hP
  rw [Body.node_slots, Body.slots_nat] at hk
  rw [Body.slots_nat]
  exact hk

theorem level {k : Nat → HM α ζ} {Q : ζ → δ → Ctx α → Prop} (hm : (a, some nd) ∈ L)
    (hk : Sim (k nd.level) y L Q) : Sim (Entry.level a >>= k) y L Q := by
  unfold Entry.level
  rw [bind_assoc]
  refine load hm fun P hP => ?_
  subst hP
  rw [Body.node_level, Body.level_nat] at hk
  rw [Body.level_nat]
  exact hk

theorem isLeaf {k : Bool → HM α ζ} {Q : ζ → δ → Ctx α → Prop} (hm : (a, some nd) ∈ L)
    (hk : Sim (k nd.isLeaf) y L Q) : Sim (Entry.isLeaf a >>= k) y L Q := by
  unfold Entry.isLeaf
  rw [bind_assoc]
  exact level hm hk

theorem newEmpty {k : Addr → HM α ζ} {Q : ζ → δ → Ctx α → Prop} (hm : (a, some nd) ∈ R)
    (hk : ∀ b, Sim (k b) y (has (b, nd.newEmpty) + R) Q) : Sim (Entry.newEmpty a >>= k) y R Q := by
  unfold Entry.newEmpty
  rw [bind_assoc]
  refine load hm fun P hP => ?_
  subst hP
  rw [Body.newEmpty_nat]
  refine ctx (L' := own P.newEmpty.kids + R) (by simp [Body.newEmpty_kids]) (alloc fun b => ?_)
  have := hk b
  rw [Body.node_newEmpty, Body.newEmpty_nat] at this
  exact this

/-- Calls that need their result only. -/
theorem ret {x : HM α γ} {y : M δ} {Q : γ → δ → Ctx α → Prop} (h : Sim (x >>= Pure.pure) (y >>= Except.ok) L Q) : Sim x y L Q := by
  rw [bind_pure] at h
  have : (y >>= Except.ok) = y := by cases y <;> rfl
  rw [this] at h
  exact h

end Sim

theorem nat_comp {z : M β} {y' : M β'} {y : M γ} {f : β → β'} {g : β' → γ} (h1 : y = y'.map g) (h2 : y' = z.map f) :
    y = z.map fun b => g (f b) := by
  subst h1 h2
  cases z <;> rfl

/-- Replacing what two slots hold. -/
theorem two_slots {d : List (Option κ)} {i j : Nat} {x y : κ} (hij : i ≠ j) (hx : readSlot d i = .ok x)
    (hy : readSlot d j = .ok y) :
    ∃ rest, (d.filterMap id).Perm (x :: y :: rest) ∧ ∀ x' y' d1 d2, assignSlot d i x' = .ok d1 →
      assignSlot d1 j y' = .ok d2 → (d2.filterMap id).Perm (x' :: y' :: rest) := by
  have hx' : d[i]? = some (some x) := by
    unfold readSlot at hx
    split at hx
    · cases hx
    · cases hx
    next h => cases hx; exact h
  have hy' : d[j]? = some (some y) := by
    unfold readSlot at hy
    split at hy
    · cases hy
    · cases hy
    next h => cases hy; exact h
  have hi := (List.getElem?_eq_some_iff.1 hx').1
  have hj := (List.getElem?_eq_some_iff.1 hy').1
  refine ⟨((d.set i none).set j none).filterMap id, ?_, fun x' y' d1 d2 e1 e2 => ?_⟩
  · have p1 := slot_perm d i (some x) none hx'
    have p2 := slot_perm (d.set i none) j (some y) none (by rw [List.getElem?_set_ne hij]; exact hy')
    exact p1.symm.trans (p2.symm.cons x)
  · have h1 : d1 = d.set i (some x') := by
      unfold assignSlot at e1
      split at e1 <;> cases e1
      rfl
    have h2 : d2 = d1.set j (some y') := by
      unfold assignSlot at e2
      split at e2 <;> cases e2
      rfl
    have p1 := slot_perm ((d.set i none).set j none) j none (some y') (by simp [hj])
    have p2 := slot_perm (((d.set i none).set j none).set j (some y')) i none (some x') (by
      rw [List.set_set, List.getElem?_set_ne (Ne.symm hij)]; simp [hi])
    have e : (((d.set i none).set j none).set j (some y')).set i (some x') = d2 := by
      rw [h2, h1, List.set_set, List.set_comm _ _ (Ne.symm hij), List.set_set]
    rw [e] at p2
    exact p2.trans (p1.cons x')

theorem mem_kids_of_readSlot {b : CB κ} {i : Nat} {x : κ} (e : readSlot b.data i = .ok x) : x ∈ b.kids := by
  unfold readSlot at e
  split at e
  · cases e
  · cases e
  next h =>
    cases e
    exact List.mem_filterMap.2 ⟨some x, List.mem_of_getElem? h, rfl⟩

theorem CB.get_mem {b : CB κ} {i : Nat} {x : κ} (e : b.get i = .ok (some x)) : x ∈ b.kids := by
  unfold CB.get at e
  split at e
  · obtain ⟨y, e1, e2⟩ := RVec.bind_ok e
    cases e2
    exact mem_kids_of_readSlot e1
  · cases e

theorem CB.back_mem {b : CB κ} {x : κ} (e : b.back = .ok (some x)) : x ∈ b.kids := by
  unfold CB.back at e
  split at e
  · obtain ⟨i, -, e⟩ := RVec.bind_ok e
    exact CB.get_mem e
  · cases e

theorem massert_inv {b : Bool} {u : Unit} (e : massert b = .ok u) : b = true := by
  cases b
  · cases e
  · rfl

theorem CB.pairMut_ne {b : CB κ} {i j : Nat} {p : Nat × Nat} (e : b.pairMut i j = .ok p) : p.1 ≠ p.2 := by
  unfold CB.pairMut at e
  obtain ⟨_, -, e⟩ := RVec.bind_ok e
  obtain ⟨_, -, e⟩ := RVec.bind_ok e
  obtain ⟨_, -, e⟩ := RVec.bind_ok e
  simp only at e
  split at e
  · obtain ⟨_, h, e⟩ := RVec.bind_ok e
    have := massert_inv h
    cases e
    simp at this ⊢
    omega
  · obtain ⟨_, h, e⟩ := RVec.bind_ok e
    have := massert_inv h
    cases e
    simp at this ⊢
    omega

theorem CB.Iter.next_nat (f : κ → μ) (it : CB.Iter) (b : CB κ) :
    it.next (b.map f) = (it.next b).map fun r => (r.1.map f, r.2) := by
  unfold CB.Iter.next
  rw [CB.map_len]
  exact nat_ite rfl (nat_bind (CB.readSlot_nat f _ _) fun _ => rfl)

theorem CB.Iter.next_mem {it : CB.Iter} {b : CB κ} {r : Option κ × CB.Iter} {x : κ} (e : it.next b = .ok r)
    (hx : r.1 = some x) : x ∈ b.kids := by
  unfold CB.Iter.next at e
  split at e
  · cases e; cases hx
  · obtain ⟨y, e1, e2⟩ := RVec.bind_ok e
    cases e2
    cases hx
    exact mem_kids_of_readSlot e1

theorem readSlot_inv {d : List (Option κ)} {i : Nat} {x : κ} (e : readSlot d i = .ok x) : d[i]? = some (some x) := by
  unfold readSlot at e
  split at e
  · cases e
  · cases e
  next h => cases e; exact h

theorem set_same {d : List β} {i : Nat} {x : β} (e : d[i]? = some x) : d.set i x = d := by
  obtain ⟨h, rfl⟩ := List.getElem?_eq_some_iff.1 e
  exact List.set_getElem_self h

/-- Replacing an item of a ring. -/
theorem CB.set_of_get {b : CB κ} {i : Nat} {y : κ} (e : b.get i = .ok (some y)) :
    b.set i y = .ok (some b) ∧ ∃ rest, b.kids.Perm (y :: rest) ∧
      ∀ x, ∃ b', b.set i x = .ok (some b') ∧ b'.kids.Perm (x :: rest) := by
  unfold CB.get at e
  unfold CB.set
  split at e
  · obtain ⟨z, e1, e2⟩ := RVec.bind_ok e
    cases e2
    have e1 := readSlot_inv e1
    have hlt := (List.getElem?_eq_some_iff.1 e1).1
    have hset : ∀ x, assignSlot b.data (b.indexFor i) x = .ok (b.data.set (b.indexFor i) (some x)) := fun x => by
      unfold assignSlot
      rw [e1]
    refine ⟨?_, (b.data.set (b.indexFor i) none).filterMap id, (slot_perm _ _ _ none e1).symm, fun x => ?_⟩
    · rw [if_pos (by assumption), hset]
      show Except.ok (some { b with data := _ }) = _
      rw [set_same e1]
    · rw [if_pos (by assumption), hset]
      refine ⟨_, rfl, ?_⟩
      have := slot_perm (b.data.set (b.indexFor i) none) (b.indexFor i) none (some x) (by simp [hlt])
      rw [List.set_set] at this
      exact this
  · cases e

namespace Entry

theorem emptyInternal_sim (n : Nat) :
    Sim (emptyInternal n : HM α Addr) (Node.emptyInternal n) 0 fun g d L' => L' = has (g, d) := by
  apply Sim.ret
  unfold emptyInternal
  rw [bind_assoc]
  refine Sim.nat (Body.emptyInternal_nat Prod.fst n) (nat_comp (Body.node_emptyInternal n) (Body.emptyInternal_nat Prod.snd n))
    fun P hP => ?_
  refine Sim.ctx (L' := own P.kids + 0) (by simp [Body.emptyInternal_kids hP]) (Sim.alloc fun a => Sim.pure (add_zero _))

theorem share_sim (p q : Addr × Node α) (s : Side) (n : Nat) :
    Sim (share p.1 q.1 s n) (p.2.shareChildrenWith q.2 s n) (has p + has q) fun g d L' =>
      g.1 = d.1 ∧ L' = has (g.2.1, d.2.1) + has (g.2.2, d.2.2) := by
  apply Sim.ret
  unfold share
  simp only [bind_assoc]
  refine Sim.ctx (add_comm _ _) (Sim.borrow fun b Q hQ => ?_)
  refine Sim.ctx (add_comm _ _) (Sim.borrow fun a P hP => ?_)
  rw [hP, hQ]
  refine Sim.nat (Body.share_nat Prod.fst P Q s n) (nat_comp (Body.node_share _ _ s n) (Body.share_nat Prod.snd P Q s n))
    fun r hr => ?_
  refine Sim.ctx (L' := hole a + own r.2.1.kids + (hole b + own r.2.2.kids)) ?_ (Sim.giveBack ?_)
  · have := own_perm (Body.share_kids hr)
    rw [own_append, own_append] at this
    calc hole a + own P.kids + (hole b + own Q.kids) = (own P.kids + own Q.kids) + (hole a + hole b) := by abel
      _ = _ := by rw [← this]; abel
  refine Sim.ctx (add_comm _ _) (Sim.giveBack ?_)
  exact Sim.pure ⟨rfl, add_comm _ _⟩

theorem popChild_sim (p : Addr × Node α) (s : Side) :
    Sim (popChild p.1 s) (p.2.popChild s) (has p) fun g d L' => L' = has (g.1, d.1) + has (g.2, d.2) := by
  apply Sim.ret
  unfold popChild
  simp only [bind_assoc]
  refine Sim.ctx (add_zero _).symm (Sim.borrow fun a P hP => ?_)
  rw [hP]
  refine Sim.nat (Body.popChild_nat Prod.fst P s) (nat_comp (Body.node_popChild _ s) (Body.popChild_nat Prod.snd P s))
    fun r hr => ?_
  refine Sim.ctx (L' := hole a + own r.2.kids + has r.1) ?_ (Sim.giveBack ?_)
  · rw [own_perm (Body.popChild_kids hr), own_cons]; abel
  exact Sim.pure (add_comm _ _)

/-- Putting an entry into a borrowed node. -/
theorem body_push (P : Body α (Addr × Node α)) {K : Body α (Addr × Node α)} {c : Addr × Node α} (s : Side)
    (hK : c.2 = (K.map Prod.snd).node) :
    (P.map Prod.snd).node.pushChild s c.2 = (P.pushChild s c K).map fun r => (r.map Prod.snd).node := by
  have e := Body.pushChild_nat Prod.snd P s c (g := Prod.snd) K
  rw [hK] at e ⊢
  rw [Body.node_pushChild, e]
  cases P.pushChild s c K <;> rfl

theorem pushChild_sim (p c : Addr × Node α) (s : Side) :
    Sim (pushChild p.1 s c.1) (p.2.pushChild s c.2) (has p + has c) fun g d L' => L' = has (g, d) := by
  apply Sim.ret
  unfold pushChild
  simp only [bind_assoc]
  refine Sim.borrow fun a P hP => ?_
  refine Sim.load (nd := c.2) (by simp) fun K hK => ?_
  rw [hP]
  refine Sim.nat (Body.pushChild_nat Prod.fst P s c K) (body_push P s hK) fun r hr => ?_
  refine Sim.ctx (L' := hole a + own r.kids + 0) ?_ (Sim.giveBack (Sim.pure (add_zero _)))
  rw [own_perm (Body.pushChild_kids hr), own_cons]; abel

theorem leafPush_sim (p : Addr × Node α) (s : Side) (x : α) :
    Sim (leafPush p.1 s x) (p.2.leafPush s x) (has p) fun g d L' => L' = has (g, d) := by
  apply Sim.ret
  unfold leafPush
  simp only [bind_assoc]
  refine Sim.ctx (add_zero _).symm (Sim.borrow fun a P hP => ?_)
  rw [hP]
  refine Sim.nat (Body.leafPush_nat Prod.fst P s x) (nat_comp (Body.node_leafPush _ s x) (Body.leafPush_nat Prod.snd P s x))
    fun r hr => ?_
  refine Sim.ctx (L' := hole a + own r.kids + 0) ?_ (Sim.giveBack (Sim.pure (add_zero _)))
  rw [(Body.leafPush_kids hr).1, (Body.leafPush_kids hr).2]

theorem leafPop_sim (p : Addr × Node α) (s : Side) :
    Sim (leafPop p.1 s) (p.2.leafPop s) (has p) fun g d L' => g.1 = d.1 ∧ L' = has (g.2, d.2) := by
  apply Sim.ret
  unfold leafPop
  simp only [bind_assoc]
  refine Sim.ctx (add_zero _).symm (Sim.borrow fun a P hP => ?_)
  rw [hP]
  refine Sim.nat (Body.leafPop_nat Prod.fst P s) (nat_comp (Body.node_leafPop _ s) (Body.leafPop_nat Prod.snd P s))
    fun r hr => ?_
  refine Sim.ctx (L' := hole a + own r.2.kids + 0) ?_ (Sim.giveBack (Sim.pure ⟨rfl, add_zero _⟩))
  rw [(Body.leafPop_kids hr).1, (Body.leafPop_kids hr).2]

/-! ### Packing -/

theorem packLoop_sim : ∀ (fuel w r : Nat) (C : CB (Addr × Node α)),
    Sim (packLoop fuel w r (C.map Prod.fst)) (Node.packLoop fuel w r (C.map Prod.snd)) (own C.kids) fun g d L' =>
      ∃ C' : CB (Addr × Node α), g = C'.map Prod.fst ∧ d = C'.map Prod.snd ∧ L' = own C'.kids
  | 0, w, r, C => by
    unfold packLoop Node.packLoop
    rw [CB.map_len, CB.map_len]
    exact Sim.ite (fun _ => Sim.error) fun _ => Sim.pure ⟨C, rfl, rfl, rfl⟩
  | fuel + 1, w, r, C => by
    unfold packLoop Node.packLoop
    rw [CB.map_len, CB.map_len]
    refine Sim.ite (fun _ => Sim.ite (fun _ => packLoop_sim fuel _ _ C) fun hne => ?_) fun _ => Sim.pure ⟨C, rfl, rfl, rfl⟩
    rw [CB.pairMut_nat, CB.pairMut_nat]
    refine Sim.same fun p hp => ?_
    have hpp := CB.pairMut_ne hp
    simp only [CB.map_data]
    refine Sim.nat (CB.readSlot_nat Prod.fst _ _) (CB.readSlot_nat Prod.snd _ _) fun x hx => ?_
    refine Sim.nat (CB.readSlot_nat Prod.fst _ _) (CB.readSlot_nat Prod.snd _ _) fun y hy => ?_
    obtain ⟨rest, hr1, hr2⟩ := two_slots hpp hx hy
    refine Sim.ctx (L' := has y + has x + own rest) (by
      rw [CB.kids, own_perm hr1, own_cons, own_cons]; abel) ?_
    refine Sim.bind (share_sim y x .front RRB_WIDTH) fun g d A' h => ?_
    obtain ⟨n, gy, gx⟩ := g
    obtain ⟨n', dy, dx⟩ := d
    obtain ⟨-, rfl⟩ := h
    refine Sim.nat (CB.assignSlot_nat Prod.fst _ _ (gx, dx)) (CB.assignSlot_nat Prod.snd _ _ (gx, dx)) fun d1 e1 => ?_
    refine Sim.nat (CB.assignSlot_nat Prod.fst _ _ (gy, dy)) (CB.assignSlot_nat Prod.snd _ _ (gy, dy)) fun d2 e2 => ?_
    refine Sim.isFull (by simp) fun full _ => ?_
    refine Sim.isEmpty (by simp) fun empty _ => ?_
    refine Sim.ctx ?_ (packLoop_sim fuel _ _ { C with data := d2 })
    rw [CB.kids, own_perm (hr2 _ _ _ _ e1 e2), own_cons, own_cons]; abel

theorem packTrim_sim : ∀ (fuel : Nat) (C : CB (Addr × Node α)),
    Sim (packTrim fuel (C.map Prod.fst)) (Node.packTrim fuel (C.map Prod.snd)) (own C.kids) fun g d L' =>
      ∃ C' : CB (Addr × Node α), g = C'.map Prod.fst ∧ d = C'.map Prod.snd ∧ L' = own C'.kids
  | 0, C => Sim.error
  | fuel + 1, C => by
    unfold packTrim Node.packTrim
    refine Sim.nat (CB.back_nat Prod.fst C) (CB.back_nat Prod.snd C) fun o ho => ?_
    refine Sim.nat (CB.unwrap_nat Prod.fst o) (CB.unwrap_nat Prod.snd o) fun x hx => ?_
    obtain rfl := CB.unwrap_ok hx
    refine Sim.isEmpty (nd := x.2) (by rw [mem_own]; exact CB.back_mem ho) fun e _ => ?_
    refine Sim.ite (fun _ => ?_) fun _ => Sim.pure ⟨C, rfl, rfl, rfl⟩
    refine Sim.nat (CB.popBack_nat Prod.fst C) (CB.popBack_nat Prod.snd C) fun r hr => ?_
    refine Sim.ctx (by rw [own_perm (CB.popBack_kids hr), own_cons]) (Sim.drop ?_)
    exact packTrim_sim fuel r.2

theorem packSizes_sim (C : CB (Addr × Node α)) : ∀ (fuel : Nat) (it : CB.Iter) (s : SizeTable),
    Sim (packSizes (C.map Prod.fst) fuel it s) (CB.foldIterLoop (fun (s : SizeTable) (child : Node α) => do
        let n ← child.len
        s.pushChild .back n) (C.map Prod.snd) fuel it s) (own C.kids) fun g d L' => g = d ∧ L' = own C.kids
  | 0, _, _ => Sim.error
  | fuel + 1, it, s => by
    unfold packSizes CB.foldIterLoop
    refine Sim.nat (CB.Iter.next_nat Prod.fst it C) (CB.Iter.next_nat Prod.snd it C) fun r hr => ?_
    obtain ⟨o, it'⟩ := r
    cases o with
    | none => exact Sim.pure ⟨rfl, rfl⟩
    | some x =>
      simp only [Option.map_some, bind_assoc]
      refine Sim.len (nd := x.2) (by rw [mem_own]; exact CB.Iter.next_mem hr rfl) fun n _ => ?_
      exact Sim.same fun s' _ => packSizes_sim C fuel it' s'

theorem packChildren_sim (p : Addr × Node α) :
    Sim (packChildren p.1) p.2.packChildren (has p) fun g d L' => L' = has (g, d) := by
  unfold packChildren
  refine Sim.ctx (add_zero _).symm (Sim.borrow fun a P hP => ?_)
  rw [hP]
  cases P with
  | leaf b => exact Sim.error
  | internal s t C =>
    unfold Node.packChildren Node.isEmpty
    simp only [Body.map_internal, Body.node, bind_assoc]
    refine Sim.same (z := s.cumulativeSize) fun n _ => ?_
    simp only [ok_bind]
    refine Sim.ite (fun _ => ?_) fun _ => ?_
    · exact Sim.giveBack (P := .internal s t C) (Sim.pure (add_zero _))
    refine Sim.same fun _ _ => ?_
    rw [CB.map_len, CB.map_len]
    refine Sim.same fun _ _ => ?_
    refine Sim.ctx (L' := own C.kids + hole a) (by rw [Body.kids_internal]; abel) ?_
    refine Sim.bind (packLoop_sim _ _ _ C) fun g d A' h => ?_
    obtain ⟨C, rfl, rfl, rfl⟩ := h
    rw [CB.map_len, CB.map_len]
    refine Sim.bind (packTrim_sim _ C) fun g d A' h => ?_
    obtain ⟨C, rfl, rfl, rfl⟩ := h
    unfold CB.foldIter
    have hit : (C.map Prod.fst).iter = (C.map Prod.snd).iter := rfl
    rw [CB.map_len, CB.map_len, hit]
    refine Sim.bind (packSizes_sim C _ _ _) fun g d A' h => ?_
    obtain ⟨rfl, rfl⟩ := h
    refine Sim.same fun _ _ => ?_
    refine Sim.same fun _ _ => ?_
    refine Sim.ctx (L' := hole a + own C.kids + 0) (by abel) ?_
    exact Sim.giveBack (P := .internal g t C) (Sim.pure (add_zero _))

/-! ### Reading and writing an item -/

theorem hm_lift {x : M γ} {a : γ} {k : γ → HM α δ} {h : Heap α} (e : x = .ok a) :
    (liftM x >>= k : HM α δ) h = k a h := by
  subst e; rfl

theorem getAux_reads {h : Heap α} : ∀ (fuel : Nat) {a : Addr} {nd : Node α} (i : Nat), Den h a nd →
    Reads h (getAux fuel a i) (Node.getAux fuel nd i) Eq
  | 0, a, nd, i, _ => by cases nd <;> exact Reads.error
  | fuel + 1, a, nd, i, d => by
    unfold getAux
    refine Reads.load d fun P hP hk => ?_
    subst hP
    cases P with
    | leaf b => exact Reads.last
    | internal s t C =>
      refine Reads.same fun q _ => ?_
      cases q with
      | none => exact Reads.pure rfl
      | some q =>
        obtain ⟨j, i'⟩ := q
        refine Reads.nat (CB.get_nat Prod.fst C j) (CB.get_nat Prod.snd C j) fun o ho => ?_
        refine Reads.nat (CB.unwrap_nat Prod.fst o) (CB.unwrap_nat Prod.snd o) fun p hp => ?_
        obtain rfl := CB.unwrap_ok hp
        exact getAux_reads fuel i' (hk p (CB.get_mem ho))

theorem get_reads {h : Heap α} {a : Addr} {nd : Node α} (i : Nat) (d : Den h a nd) :
    Reads h (get a i) (nd.get i) Eq := by
  unfold get level
  rw [bind_assoc]
  refine Reads.load d fun P hP _ => ?_
  have := getAux_reads (P.level + 1) i d
  subst hP
  unfold Node.get
  rw [Body.node_level, Body.level_nat, Body.level_nat]
  exact this

theorem debugCheckLoop_reads {h : Heap α} {check : Addr → Nat → Nat → HM α Unit} {check' : Node α → Nat → Nat → M Unit}
    {s : SizeTable} {C : CB (Addr × Node α)} {lv : Nat}
    (hc : ∀ p ∈ C.kids, ∀ n l, Reads h (check p.1 n l) (check' p.2 n l) Eq) : ∀ (fuel : Nat) (it : CB.Iter) (st : Nat × Nat),
    Reads h (debugCheckLoop check s (C.map Prod.fst) lv fuel it st)
      (CB.foldIterLoop (fun (st : Nat × Nat) (child : Node α) => do
        let childSize ← unwrap (← s.getChildSize st.1)
        let lv ← usub lv 1
        check' child childSize lv
        .ok (st.1 + 1, st.2 + childSize)) (C.map Prod.snd) fuel it st) Eq
  | 0, _, _ => Reads.error
  | fuel + 1, it, st => by
    unfold debugCheckLoop CB.foldIterLoop
    refine Reads.nat (CB.Iter.next_nat Prod.fst it C) (CB.Iter.next_nat Prod.snd it C) fun r hr => ?_
    obtain ⟨o, it'⟩ := r
    cases o with
    | none => exact Reads.pure rfl
    | some x =>
      simp only [Option.map_some, bind_assoc]
      refine Reads.same fun o _ => Reads.same fun n _ => Reads.same fun l _ => ?_
      refine Reads.bind (hc x (CB.Iter.next_mem hr rfl) n l) fun _ _ _ => ?_
      exact debugCheckLoop_reads hc fuel it' _

theorem debugCheckAux_reads {h : Heap α} : ∀ (fuel : Nat) {a : Addr} {nd : Node α} (n l : Nat), Den h a nd →
    Reads h (debugCheckAux fuel a n l) (Node.debugCheckAux fuel nd n l) Eq
  | 0, a, nd, n, l, _ => by cases nd <;> exact Reads.error
  | fuel + 1, a, nd, n, l, d => by
    unfold debugCheckAux
    refine Reads.load d fun P hP hk => ?_
    subst hP
    cases P with
    | leaf b =>
      simp only [Body.map_leaf, Body.node, Node.debugCheckAux]
      exact Reads.same fun _ _ => Reads.last
    | internal s t C =>
      simp only [Body.map_internal, Body.node, Node.debugCheckAux, CB.map_len, CB.foldIter]
      refine Reads.same fun _ _ => Reads.same fun _ _ => ?_
      have hit : (C.map Prod.fst).iter = (C.map Prod.snd).iter := rfl
      rw [hit]
      refine Reads.bind (debugCheckLoop_reads (fun p hp n l => debugCheckAux_reads fuel n l (hk p hp)) _ _ _) fun g d e => ?_
      subst e
      exact Reads.last

theorem debugCheck_reads {h : Heap α} {a : Addr} {nd : Node α} (n l : Nat) (d : Den h a nd) :
    Reads h (debugCheck a n l) (nd.debugCheck n l) Eq := by
  unfold debugCheck level
  rw [bind_assoc]
  refine Reads.load d fun P hP _ => ?_
  have := debugCheckAux_reads (P.level + 1) n l d
  subst hP
  unfold Node.debugCheck
  rw [Body.node_level, Body.level_nat, Body.level_nat]
  exact this

theorem setAux_sim : ∀ (fuel : Nat) (p : Addr × Node α) (i : Nat) (x : α),
    Sim (setAux fuel p.1 i x) (Node.setAux fuel p.2 i x) (has p) fun g d L' =>
      g.1 = d.isSome ∧ L' = has (g.2, d.getD p.2)
  | 0, _, _, _ => Sim.error
  | fuel + 1, p, i, x => by
    unfold setAux
    refine Sim.ctx (add_zero _).symm (Sim.borrow fun a P hP => ?_)
    rw [hP]
    cases P with
    | leaf b =>
      unfold Node.setAux
      simp only [Body.map_leaf, Body.node]
      refine Sim.same fun r _ => ?_
      refine Sim.giveBack (P := .leaf (r.getD b)) (Sim.pure ⟨by cases r <;> rfl, ?_⟩)
      cases r <;> exact add_zero _
    | internal s t C =>
      unfold Node.setAux
      simp only [Body.map_internal, Body.node]
      refine Sim.same fun q _ => ?_
      cases q with
      | none => exact Sim.giveBack (P := .internal s t C) (Sim.pure ⟨rfl, add_zero _⟩)
      | some q =>
        obtain ⟨j, i'⟩ := q
        refine Sim.nat (CB.get_nat Prod.fst C j) (CB.get_nat Prod.snd C j) fun o ho => ?_
        refine Sim.nat (CB.unwrap_nat Prod.fst o) (CB.unwrap_nat Prod.snd o) fun k hk => ?_
        obtain rfl := CB.unwrap_ok hk
        obtain ⟨hsame, rest, hr, hset⟩ := CB.set_of_get ho
        refine Sim.ctx (L' := has k + (hole a + own rest)) (by
          rw [Body.kids_internal, own_perm hr, own_cons]; abel) ?_
        refine Sim.bind (setAux_sim fuel k i' x) fun g d A' h => ?_
        obtain ⟨g1, g2⟩ := g
        obtain ⟨h1, rfl⟩ := h
        obtain ⟨C', e1, hk'⟩ := hset (g2, d.getD k.2)
        refine Sim.lift (a := some (C'.map Prod.fst)) (by
          rw [CB.set_nat Prod.fst C j (g2, d.getD k.2), e1]; rfl) ?_
        refine Sim.lift (a := C'.map Prod.fst) rfl ?_
        refine Sim.ctx (L' := hole a + own C'.kids + 0) (by rw [own_perm hk', own_cons]; abel) ?_
        have e2 : (C.map Prod.snd).set j (d.getD k.2) = .ok (some (C'.map Prod.snd)) := by
          rw [CB.set_nat Prod.snd C j (g2, d.getD k.2), e1]; rfl
        cases d with
        | none =>
          have e3 := CB.set_nat Prod.snd C j k
          rw [hsame] at e3
          have e4 : C'.map Prod.snd = C.map Prod.snd := by
            have := e2.symm.trans e3
            injection this with this
            injection this
          refine Sim.giveBack (P := .internal s t C') (Sim.pure ⟨h1, ?_⟩)
          simp only [Body.map_internal, Body.node, e4, add_zero]
          rfl
        | some c =>
          have e2 : (C.map Prod.snd).set j c = .ok (some (C'.map Prod.snd)) := e2
          simp only [e2, ok_bind, unwrap_some]
          exact Sim.giveBack (P := .internal s t C') (Sim.pure ⟨h1, add_zero _⟩)

theorem set_sim (p : Addr × Node α) (i : Nat) (x : α) :
    Sim (set p.1 i x) (p.2.set i x) (has p) fun g d L' => g.1 = d.isSome ∧ L' = has (g.2, d.getD p.2) := by
  unfold set Node.set
  exact Sim.level (nd := p.2) (by simp) (setAux_sim _ p i x)

/-! ### Splitting -/

theorem splitAtPositionAux_sim : ∀ (fuel : Nat) (p : Addr × Node α) (i : Nat),
    Sim (splitAtPositionAux fuel p.1 i) (Node.splitAtPositionAux fuel p.2 i) (has p) fun g d L' =>
      L' = has (g.1, d.1) + has (g.2, d.2)
  | 0, _, _ => Sim.error
  | fuel + 1, p, i => by
    unfold splitAtPositionAux
    refine Sim.ctx (add_zero _).symm (Sim.borrow fun a P hP => ?_)
    rw [hP]
    cases P with
    | leaf b =>
      unfold Node.splitAtPositionAux
      apply Sim.ret
      simp only [Body.map_leaf, Body.node, bind_assoc]
      refine Sim.nat (Body.splitAtChild_nat Prod.fst (.leaf b) i)
        (nat_comp (Body.node_splitAtChild (.leaf b) i) (Body.splitAtChild_nat Prod.snd (.leaf b) i)) fun r hr => ?_
      have hk := own_perm (Body.splitAtChild_kids hr)
      rw [own_append] at hk
      refine Sim.ctx (L' := hole a + own r.1.kids + own r.2.kids) (by rw [← hk]; abel) (Sim.giveBack ?_)
      refine Sim.ctx (add_comm _ _) (Sim.alloc fun b => Sim.pure (add_comm _ _))
    | internal s t C =>
      unfold Node.splitAtPositionAux
      simp only [Body.map_internal, Body.node]
      refine Sim.same (z := s.cumulativeSize) fun n _ => ?_
      refine Sim.same fun _ _ => ?_
      refine Sim.same fun o _ => ?_
      refine Sim.same fun q _ => ?_
      refine Sim.nat (Body.splitAtChild_nat Prod.fst (.internal s t C) q.1)
        (nat_comp (Body.node_splitAtChild (.internal s t (C.map Prod.snd)) q.1)
          (Body.splitAtChild_nat Prod.snd (.internal s t C) q.1)) fun r hr => ?_
      have hk := own_perm (Body.splitAtChild_kids hr)
      rw [own_append] at hk
      refine Sim.nat (Body.popChild_nat Prod.fst r.2 .front)
        (nat_comp (Body.node_popChild _ .front) (Body.popChild_nat Prod.snd r.2 .front)) fun c hc => ?_
      have hk2 := own_perm (Body.popChild_kids hc)
      rw [own_cons] at hk2
      refine Sim.ctx (L' := hole a + own r.1.kids + (has c.1 + own c.2.kids)) (by rw [← hk, ← hk2]; abel) ?_
      refine Sim.len (nd := c.1.2) (by simp) fun nextLen _ => ?_
      refine Sim.ctx (add_zero _).symm (Sim.bind (Q := fun g d L' => L' = has (g.1, d.1) + has (g.2, d.2)) ?_
        fun g d A' h => ?_)
      · refine Sim.ite (fun _ => ?_) fun _ => Sim.ite (fun _ => ?_) fun _ => ?_
        · refine Sim.load (nd := c.1.2) (by simp) fun K hK => ?_
          refine Sim.nat (Body.pushChild_nat Prod.fst _ .front c.1 K) (body_push _ .front hK) fun r' hr' => ?_
          refine Sim.ctx (L' := hole a + own r.1.kids + own r'.kids)
            (by rw [own_perm (Body.pushChild_kids hr'), own_cons]) (Sim.giveBack ?_)
          exact Sim.ctx (add_comm _ _) (Sim.alloc fun b => Sim.pure (add_comm _ _))
        · refine Sim.load (nd := c.1.2) (by simp) fun K hK => ?_
          refine Sim.nat (Body.pushChild_nat Prod.fst _ .back c.1 K) (body_push _ .back hK) fun r' hr' => ?_
          refine Sim.ctx (L' := hole a + own r'.kids + own c.2.kids)
            (by rw [own_perm (Body.pushChild_kids hr'), own_cons]; abel) (Sim.giveBack ?_)
          exact Sim.ctx (add_comm _ _) (Sim.alloc fun b => Sim.pure (add_comm _ _))
        · refine Sim.ctx (L' := has c.1 + (hole a + own r.1.kids + own c.2.kids)) (by abel) ?_
          refine Sim.bind (splitAtPositionAux_sim fuel c.1 q.2) fun g d A' h => ?_
          subst h
          refine Sim.load (nd := d.1) (by simp) fun K1 hK1 => ?_
          refine Sim.nat (Body.pushChild_nat Prod.fst _ .back (g.1, d.1) K1)
            (body_push (c := (g.1, d.1)) _ .back hK1) fun r1 hr1 => ?_
          refine Sim.load (nd := d.2) (by simp) fun K2 hK2 => ?_
          refine Sim.nat (Body.pushChild_nat Prod.fst _ .front (g.2, d.2) K2)
            (body_push (c := (g.2, d.2)) _ .front hK2) fun r2 hr2 => ?_
          refine Sim.ctx (L' := hole a + own r1.kids + own r2.kids) (by
            rw [own_perm (Body.pushChild_kids hr1), own_perm (Body.pushChild_kids hr2), own_cons, own_cons]; abel)
            (Sim.giveBack ?_)
          exact Sim.ctx (add_comm _ _) (Sim.alloc fun b => Sim.pure (add_comm _ _))
      · subst h
        refine Sim.level (nd := d.1) (by simp) ?_
        refine Sim.read (nd := d.1) (by simp) (fun _ hd => debugCheck_reads _ _ hd) fun _ _ => ?_
        refine Sim.same fun n' _ => ?_
        refine Sim.level (nd := d.2) (by simp) ?_
        refine Sim.read (nd := d.2) (by simp) (fun _ hd => debugCheck_reads _ _ hd) fun _ _ => ?_
        exact Sim.pure (add_zero _)

theorem splitAtPosition_sim (p : Addr × Node α) (i : Nat) :
    Sim (splitAtPosition p.1 i) (p.2.splitAtPosition i) (has p) fun g d L' => L' = has (g.1, d.1) + has (g.2, d.2) := by
  unfold splitAtPosition Node.splitAtPosition
  exact Sim.level (nd := p.2) (by simp) (splitAtPositionAux_sim _ p i)

end Entry
end Librrb
