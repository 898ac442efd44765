import Verif.Proof.HeapAlong

/-!
# How many nodes a call makes

`Zone`: the addresses that a call may meet, to which all new ones belong. `Tame Z K h`: in the zone, levels are at most `K`
and no node has more than 64 slots. `Cost Z K N x K' Q`: from such a heap a run of `x` that returns makes at most `N` nodes,
leaves the levels at most `K'`, and what it returns has `Q`.
-/
namespace Librrb

/-! ### Rings -/

/-- At most 64 items in at most 64 slots, and what is in them has `P`. -/
structure RingOk (P : κ → Prop) (c : CB κ) : Prop where
  len : c.len ≤ RRB_WIDTH
  mem : ∀ k, some k ∈ c.data → P k
  size : c.data.length ≤ RRB_WIDTH

namespace RingOk

variable {P : κ → Prop}

theorem new : RingOk P (CB.new : CB κ) := by
  refine ⟨Nat.zero_le _, fun k hk => ?_, by simp [CB.new]⟩
  have := List.eq_of_mem_replicate hk
  cases this

theorem mono {Q : κ → Prop} {c : CB κ} (r : RingOk P c) (h : ∀ k, P k → Q k) : RingOk Q c :=
  ⟨r.len, fun k hk => h k (r.mem k hk), r.size⟩

theorem mem_set {data : List (Option κ)} {i : Nat} {x : Option κ} {k : κ} (h : some k ∈ data.set i x) :
    some k ∈ data ∨ some k = x := List.mem_or_eq_of_mem_set h

theorem initSlot_eq {data d' : List (Option κ)} {i : Nat} {x : κ} (e : initSlot data i x = .ok d') : d' = data.set i (some x) := by
  unfold initSlot at e
  split at e <;> cases e
  rfl

theorem assignSlot_eq {data d' : List (Option κ)} {i : Nat} {x : κ} (e : assignSlot data i x = .ok d') :
    d' = data.set i (some x) := by
  unfold assignSlot at e
  split at e <;> cases e
  rfl

theorem takeSlot_eq {data : List (Option κ)} {i : Nat} {r : κ × List (Option κ)} (e : takeSlot data i = .ok r) :
    some r.1 ∈ data ∧ r.2 = data.set i none := by
  unfold takeSlot at e
  split at e
  · cases e
  · cases e
  next x hx => cases e; exact ⟨List.mem_of_getElem? hx, rfl⟩

theorem readSlot_mem {data : List (Option κ)} {i : Nat} {x : κ} (e : readSlot data i = .ok x) : some x ∈ data := by
  unfold readSlot at e
  split at e
  · cases e
  · cases e
  next y hy => cases e; exact List.mem_of_getElem? hy

theorem bind_inv {x : M γ} {k : γ → M δ} {r : δ} (e : (x >>= k) = .ok r) : ∃ g, x = .ok g ∧ k g = .ok r := by
  cases x with
  | error f => cases e
  | ok g => exact ⟨g, rfl, e⟩

theorem unwrap_inv {o : Option γ} {r : γ} (e : unwrap o = .ok r) : o = some r := by
  cases o with
  | none => cases e
  | some g => cases e; rfl

theorem push {c c' : CB κ} {s : Side} {x : κ} (r : RingOk P c) (hx : P x) (e : c.push s x = .ok c') : RingOk P c' := by
  have key : ∀ {d : List (Option κ)} {i : Nat}, initSlot c.data i x = .ok d → (∀ k, some k ∈ d → P k) ∧ d.length ≤ RRB_WIDTH := by
    intro d i e
    rw [initSlot_eq e]
    refine ⟨fun k hk => ?_, by simpa using r.size⟩
    rcases mem_set hk with h | h
    · exact r.mem k h
    · cases h; exact hx
  have hl := r.len
  cases s with
  | front =>
    obtain ⟨o, e1, e2⟩ := bind_inv (show (c.tryPushFront x >>= _) = _ from e)
    cases unwrap_inv e2
    unfold CB.tryPushFront at e1
    split at e1
    · cases e1
    next hf =>
      obtain ⟨d, e3, e4⟩ := bind_inv e1
      cases e4
      refine ⟨?_, (key e3).1, (key e3).2⟩
      simp only [CB.isFull, beq_iff_eq] at hf
      show c.len + 1 ≤ _
      omega
  | back =>
    obtain ⟨o, e1, e2⟩ := bind_inv (show (c.tryPushBack x >>= _) = _ from e)
    cases unwrap_inv e2
    unfold CB.tryPushBack at e1
    split at e1
    · cases e1
    next hf =>
      obtain ⟨d, e3, e4⟩ := bind_inv e1
      cases e4
      refine ⟨?_, (key e3).1, (key e3).2⟩
      simp only [CB.isFull, beq_iff_eq] at hf
      show c.len + 1 ≤ _
      omega

theorem usub_inv {a b d : Nat} (e : usub a b = .ok d) : d ≤ a := by
  unfold usub at e
  split at e <;> cases e
  omega

theorem pop {c : CB κ} {s : Side} {q : κ × CB κ} (r : RingOk P c) (e : c.pop s = .ok q) :
    P q.1 ∧ RingOk P q.2 ∧ q.2.len ≤ c.len := by
  have hl := r.len
  have key : ∀ {t : κ × List (Option κ)} {i : Nat}, takeSlot c.data i = .ok t →
      P t.1 ∧ (∀ k, some k ∈ t.2 → P k) ∧ t.2.length ≤ RRB_WIDTH := by
    intro t i e
    obtain ⟨h1, h2⟩ := takeSlot_eq e
    rw [h2]
    refine ⟨r.mem _ h1, fun k hk => ?_, by simpa using r.size⟩
    rcases mem_set hk with h | h
    · exact r.mem k h
    · cases h
  obtain ⟨o, e1, e2⟩ := bind_inv e
  cases unwrap_inv e2
  cases s with
  | front =>
    unfold CB.tryPop CB.tryPopFront at e1
    dsimp only at e1
    split at e1
    · cases e1
    · obtain ⟨d, e3, e4⟩ := bind_inv e1
      obtain ⟨n, e5, e6⟩ := bind_inv e4
      cases e6
      have := usub_inv e5
      exact ⟨(key e3).1, ⟨by show n ≤ _; omega, (key e3).2.1, (key e3).2.2⟩, this⟩
  | back =>
    unfold CB.tryPop CB.tryPopBack at e1
    dsimp only at e1
    split at e1
    · cases e1
    · obtain ⟨n, e5, e6⟩ := bind_inv e1
      obtain ⟨d, e3, e4⟩ := bind_inv e6
      cases e4
      have := usub_inv e5
      exact ⟨(key e3).1, ⟨by show n ≤ _; omega, (key e3).2.1, (key e3).2.2⟩, this⟩

theorem decantLoop {s : Side} : ∀ (n : Nat) {c d : CB κ} {q : CB κ × CB κ}, RingOk P c → RingOk P d →
    CB.decantLoop c d s n = .ok q → RingOk P q.1 ∧ RingOk P q.2
  | 0, c, d, q, hc, hd, e => by cases e; exact ⟨hc, hd⟩
  | n + 1, c, d, q, hc, hd, e => by
    obtain ⟨t, e1, e2⟩ := bind_inv e
    obtain ⟨d', e3, e4⟩ := bind_inv e2
    obtain ⟨h1, h2, -⟩ := hc.pop e1
    exact decantLoop n h2 (hd.push h1 e3) e4

theorem decantInto {s : Side} {n : Nat} {c d : CB κ} {q : Nat × CB κ × CB κ} (hc : RingOk P c) (hd : RingOk P d)
    (e : c.decantInto d s n = .ok q) : RingOk P q.2.1 ∧ RingOk P q.2.2 := by
  unfold CB.decantInto at e
  split at e
  · cases e; exact ⟨hd, hc⟩
  · obtain ⟨f, e1, e2⟩ := bind_inv e
    obtain ⟨t, e3, e4⟩ := bind_inv e2
    cases e4
    exact decantLoop _ hc hd e3

theorem splitLoop : ∀ (n : Nat) {c d : CB κ} {q : CB κ × CB κ}, RingOk P c → RingOk P d →
    Node.splitLoop n c d = .ok q → RingOk P q.1 ∧ RingOk P q.2
  | 0, c, d, q, hc, hd, e => by cases e; exact ⟨hc, hd⟩
  | n + 1, c, d, q, hc, hd, e => by
    obtain ⟨t, e1, e2⟩ := bind_inv e
    obtain ⟨d', e3, e4⟩ := bind_inv e2
    obtain ⟨h1, h2, -⟩ := hc.pop e1
    exact splitLoop n h2 (hd.push h1 e3) e4

theorem get {c : CB κ} {i : Nat} {x : κ} (r : RingOk P c) (e : c.get i = .ok (some x)) : P x := by
  unfold CB.get at e
  split at e
  · obtain ⟨y, e1, e2⟩ := bind_inv e
    cases e2
    exact r.mem _ (readSlot_mem e1)
  · cases e

theorem set {c c' : CB κ} {i : Nat} {x : κ} (r : RingOk P c) (hx : P x) (e : c.set i x = .ok (some c')) : RingOk P c' := by
  unfold CB.set at e
  split at e
  · obtain ⟨d, e1, e2⟩ := bind_inv e
    cases e2
    refine ⟨r.len, fun k hk => ?_, by simpa [assignSlot_eq e1] using r.size⟩
    rw [assignSlot_eq e1] at hk
    rcases mem_set hk with h | h
    · exact r.mem k h
    · cases h; exact hx
  · cases e

theorem assign {c : CB κ} {i : Nat} {x : κ} {d : List (Option κ)} (r : RingOk P c) (hx : P x)
    (e : assignSlot c.data i x = .ok d) : RingOk P { c with data := d } := by
  refine ⟨r.len, fun k hk => ?_, by simpa [assignSlot_eq e] using r.size⟩
  rw [assignSlot_eq e] at hk
  rcases mem_set hk with h | h
  · exact r.mem k h
  · cases h; exact hx

end RingOk

open RingOk (bind_inv unwrap_inv)

theorem SizeTable.pushChild_level {t t' : SizeTable} {s : Side} {n : Nat} (e : t.pushChild s n = .ok t') : t'.level = t.level := by
  cases s with
  | front =>
    obtain ⟨b, e1, e2⟩ := bind_inv e
    obtain ⟨c, e3, e4⟩ := bind_inv e2
    cases e4; rfl
  | back =>
    obtain ⟨b, e1, e2⟩ := bind_inv e
    split at e2
    · obtain ⟨c, e3, e4⟩ := bind_inv e2
      cases e4; rfl
    · obtain ⟨c, e3, e4⟩ := bind_inv e2
      cases e4; rfl

theorem SizeTable.popChild_level {t : SizeTable} {s : Side} {q : Nat × SizeTable} (e : t.popChild s = .ok q) :
    q.2.level = t.level := by
  cases s with
  | front =>
    obtain ⟨b, e1, e2⟩ := bind_inv e
    obtain ⟨c, e3, e4⟩ := bind_inv e2
    cases e4; rfl
  | back =>
    obtain ⟨b, e1, e2⟩ := bind_inv e
    obtain ⟨c, e3, e4⟩ := bind_inv e2
    split at e4
    · obtain ⟨c, e5, e6⟩ := bind_inv e4
      cases e6; rfl
    · cases e4; rfl

theorem Node.shareSizes_level {s : Side} : ∀ (n : Nat) {t d : SizeTable} {q : SizeTable × SizeTable},
    Node.shareSizes s n t d = .ok q → q.1.level = t.level ∧ q.2.level = d.level
  | 0, t, d, q, e => by cases e; exact ⟨rfl, rfl⟩
  | n + 1, t, d, q, e => by
    obtain ⟨x, e1, e2⟩ := bind_inv e
    obtain ⟨y, e3, e4⟩ := bind_inv e2
    obtain ⟨h1, h2⟩ := shareSizes_level n e4
    exact ⟨h1.trans (SizeTable.popChild_level e1), h2.trans (SizeTable.pushChild_level e3)⟩

/-! ### Zones -/

/-- Addresses that a call may meet. -/
structure Zone where
  has : Addr → Prop
  start : Nat
  new : ∀ a, start ≤ a → has a

/-- A node that fits in the zone. -/
def BodyOk (Z : Zone) (K : Nat) : Body α Addr → Prop
  | .leaf b => RingOk (fun _ => True) b
  | .internal s _ c => s.level ≤ K ∧ RingOk Z.has c

/-- All nodes in the zone fit in it. -/
structure Tame (Z : Zone) (K : Nat) (h : Heap α) : Prop where
  start : Z.start ≤ h.cells.length
  fits : ∀ a c, Z.has a → h.cell a = some c → BodyOk Z K c.node

variable {Z : Zone}

theorem BodyOk.mono {K K' : Nat} (hK : K ≤ K') {b : Body α Addr} (h : BodyOk Z K b) : BodyOk Z K' b := by
  cases b with
  | leaf b => exact h
  | internal s t c => exact ⟨h.1.trans hK, h.2⟩

theorem Tame.mono {K K' : Nat} (hK : K ≤ K') {h : Heap α} (t : Tame Z K h) : Tame Z K' h :=
  ⟨t.start, fun a c ha e => (t.fits a c ha e).mono hK⟩

theorem BodyOk.level {K : Nat} {b : Body α Addr} (h : BodyOk Z K b) : b.level ≤ K := by
  cases b with
  | leaf b => exact Nat.zero_le _
  | internal s t c => exact h.1

theorem BodyOk.slots {K : Nat} {b : Body α Addr} (h : BodyOk Z K b) : b.slots ≤ RRB_WIDTH := by
  cases b with
  | leaf b => exact h.len
  | internal s t c => exact h.2.len

theorem BodyOk.emptyLeaf {K : Nat} : BodyOk Z K (Body.emptyLeaf : Body α Addr) := RingOk.new

theorem BodyOk.newEmpty {K : Nat} {b : Body α Addr} (h : BodyOk Z K b) : BodyOk Z K b.newEmpty := by
  cases b with
  | leaf b => exact RingOk.new
  | internal s t c => exact ⟨h.1, RingOk.new⟩

theorem BodyOk.emptyInternal {K n : Nat} {b : Body α Addr} (hn : n ≤ K) (e : Body.emptyInternal n = .ok b) : BodyOk Z K b := by
  obtain ⟨_, _, e2⟩ := bind_inv e
  split at e2
  next h1 =>
    simp only [beq_iff_eq] at h1
    cases e2; exact ⟨by show 1 ≤ K; omega, RingOk.new⟩
  · cases e2; exact ⟨hn, RingOk.new⟩

theorem BodyOk.share {K : Nat} {b d : Body α Addr} {s : Side} {n : Nat} {q : Nat × Body α Addr × Body α Addr} (hb : BodyOk Z K b)
    (hd : BodyOk Z K d) (e : b.share d s n = .ok q) : BodyOk Z K q.2.1 ∧ BodyOk Z K q.2.2 := by
  cases b with
  | leaf b =>
    cases d with
    | leaf d =>
      obtain ⟨r, e1, e2⟩ := bind_inv e
      cases e2
      exact RingOk.decantInto hb hd e1
    | internal s' t' c' => cases e
  | internal s0 t c =>
    cases d with
    | leaf d => cases e
    | internal s' t' c' =>
      obtain ⟨_, _, e⟩ := bind_inv e
      obtain ⟨_, _, e⟩ := bind_inv e
      obtain ⟨_, _, e⟩ := bind_inv e
      obtain ⟨r, e1, e⟩ := bind_inv e
      obtain ⟨p, e2, e⟩ := bind_inv e
      cases e
      obtain ⟨h1, h2⟩ := RingOk.decantInto hb.2 hd.2 e1
      have hp : p.1.level = s0.level ∧ p.2.level = s'.level := by
        split at e2
        · exact Node.shareSizes_level _ e2
        · cases e2; exact ⟨rfl, rfl⟩
      exact ⟨⟨hp.1.trans_le hb.1, h1⟩, ⟨hp.2.trans_le hd.1, h2⟩⟩

theorem BodyOk.popChild {K : Nat} {b : Body α Addr} {s : Side} {q : Addr × Body α Addr} (hb : BodyOk Z K b)
    (e : b.popChild s = .ok q) : Z.has q.1 ∧ BodyOk Z K q.2 ∧ q.2.slots ≤ b.slots := by
  cases b with
  | leaf b => cases e
  | internal s0 t c =>
    obtain ⟨r, e1, e⟩ := bind_inv e
    obtain ⟨p, e2, e⟩ := bind_inv e
    cases e
    obtain ⟨h1, h2, h3⟩ := hb.2.pop e2
    exact ⟨h1, ⟨(SizeTable.popChild_level e1).trans_le hb.1, h2⟩, h3⟩

theorem BodyOk.pushChild {K : Nat} {b b' : Body α Addr} {s : Side} {k : Addr} {n : Body α Addr} (hb : BodyOk Z K b)
    (hk : Z.has k) (e : b.pushChild s k n = .ok b') : BodyOk Z K b' := by
  cases b with
  | leaf b => cases e
  | internal s0 t c =>
    obtain ⟨_, _, e⟩ := bind_inv e
    obtain ⟨r, e1, e⟩ := bind_inv e
    obtain ⟨_, _, e⟩ := bind_inv e
    obtain ⟨p, e2, e⟩ := bind_inv e
    cases e
    exact ⟨(SizeTable.pushChild_level e1).trans_le hb.1, hb.2.push hk e2⟩

theorem BodyOk.leafPush {K : Nat} {b b' : Body α Addr} {s : Side} {x : α} (hb : BodyOk Z K b)
    (e : b.leafPush s x = .ok b') : BodyOk Z K b' := by
  cases b with
  | internal s0 t c => cases e
  | leaf b =>
    obtain ⟨r, e1, e⟩ := bind_inv e
    cases e
    exact RingOk.push hb trivial e1

theorem BodyOk.leafPop {K : Nat} {b : Body α Addr} {s : Side} {q : α × Body α Addr} (hb : BodyOk Z K b)
    (e : b.leafPop s = .ok q) : BodyOk Z K q.2 := by
  cases b with
  | internal s0 t c => cases e
  | leaf b =>
    obtain ⟨r, e1, e⟩ := bind_inv e
    cases e
    exact (RingOk.pop hb e1).2.1

theorem BodyOk.setLeafEnd {K : Nat} {b : Body α Addr} {s : Side} {x : α} {q : Option (Body α Addr)} (hb : BodyOk Z K b)
    (e : b.setLeafEnd s x = .ok q) : BodyOk Z K (q.getD b) := by
  cases b with
  | internal s0 t c => cases e
  | leaf b =>
    obtain ⟨r, e1, e⟩ := bind_inv e
    cases e
    cases r with
    | none => exact hb
    | some r =>
      cases s with
      | front => exact RingOk.set hb trivial e1
      | back => exact RingOk.set hb trivial e1

theorem BodyOk.splitAtChild {K : Nat} {b : Body α Addr} {i : Nat} {q : Body α Addr × Body α Addr} (hb : BodyOk Z K b)
    (e : b.splitAtChild i = .ok q) : BodyOk Z K q.1 ∧ BodyOk Z K q.2 := by
  cases b with
  | leaf b =>
    unfold Body.splitAtChild at e
    dsimp only at e
    split at e
    · obtain ⟨r, e1, e⟩ := bind_inv e
      cases e
      exact (RingOk.splitLoop _ hb RingOk.new e1).symm
    · cases e
  | internal s t c =>
    unfold Body.splitAtChild at e
    dsimp only at e
    split at e
    · obtain ⟨r, e1, e⟩ := bind_inv e
      cases e
      exact (BodyOk.share hb hb.newEmpty e1).symm
    · cases e

/-! ### Rules -/

/-- See the head of this file. -/
structure Cost (Z : Zone) (K N : Nat) (x : HM α γ) (K' : Nat) (Q : γ → Prop) : Prop where
  run : ∀ h r h', Tame Z K h → x h = .ok (r, h') → Tame Z K' h' ∧ h'.cells.length ≤ h.cells.length + N ∧ Q r

/-- A call that only reads. -/
structure Still (x : HM α γ) : Prop where
  run : ∀ h r h', x h = .ok (r, h') → h' = h

variable {K N K' : Nat}

theorem Cost.mono {N' K'' : Nat} {x : HM α γ} {Q Q' : γ → Prop} (c : Cost Z K N x K' Q) (hN : N ≤ N') (hK : K' ≤ K'')
    (hQ : ∀ r, Q r → Q' r) : Cost Z K N' x K'' Q' := by
  refine ⟨fun h r h' t e => ?_⟩
  obtain ⟨h1, h2, h3⟩ := c.run h r h' t e
  exact ⟨h1.mono hK, by omega, hQ r h3⟩

theorem Cost.le {N' : Nat} {x : HM α γ} {Q : γ → Prop} (c : Cost Z K N x K' Q) (hN : N ≤ N') : Cost Z K N' x K' Q :=
  c.mono hN (Nat.le_refl _) fun _ h => h

theorem Cost.pure {Q : γ → Prop} {a : γ} (hK : K ≤ K') (h : Q a) : Cost Z K N (pure a : HM α γ) K' Q := by
  refine ⟨fun h0 r h' t e => ?_⟩
  cases e
  exact ⟨t.mono hK, by omega, h⟩

theorem Cost.throw {Q : γ → Prop} {f : Fault} : Cost Z K N (throw f : HM α γ) K' Q := by
  refine ⟨fun h0 r h' t e => ?_⟩
  cases e

theorem Cost.bind {N1 K1 : Nat} {x : HM α γ} {k : γ → HM α δ} {Q : γ → Prop} {Q' : δ → Prop} (hx : Cost Z K N1 x K1 Q)
    (hN : N1 ≤ N) (hk : ∀ r, Q r → Cost Z K1 (N - N1) (k r) K' Q') : Cost Z K N (x >>= k) K' Q' := by
  refine ⟨fun h r h' t e => ?_⟩
  obtain ⟨g, h1, e1, e2⟩ := hm_bind_inv e
  obtain ⟨t1, l1, q1⟩ := hx.run _ _ _ t e1
  obtain ⟨t2, l2, q2⟩ := (hk g q1).run _ _ _ t1 e2
  exact ⟨t2, by omega, q2⟩

theorem Cost.lift {x : M γ} {k : γ → HM α δ} {Q : δ → Prop} (hk : ∀ a, x = .ok a → Cost Z K N (k a) K' Q) :
    Cost Z K N (liftM x >>= k : HM α δ) K' Q := by
  refine ⟨fun h r h' t e => ?_⟩
  cases x with
  | error f => cases e
  | ok a => exact (hk a rfl).run h r h' t e

theorem Cost.read {x : HM α γ} {k : γ → HM α δ} {Q : δ → Prop} (hx : Still x) (hk : ∀ a, Cost Z K N (k a) K' Q) :
    Cost Z K N (x >>= k) K' Q := by
  refine ⟨fun h r h' t e => ?_⟩
  obtain ⟨g, h1, e1, e2⟩ := hm_bind_inv e
  cases hx.run _ _ _ e1
  exact (hk g).run _ _ _ t e2

theorem Cost.still {x : HM α γ} {Q : γ → Prop} (hx : Still x) (hK : K ≤ K') (hQ : ∀ r, Q r) : Cost Z K N x K' Q := by
  refine ⟨fun h r h' t e => ?_⟩
  cases hx.run _ _ _ e
  exact ⟨t.mono hK, by omega, hQ r⟩

theorem Cost.ite {c : Prop} [Decidable c] {x y : HM α γ} {Q : γ → Prop} (hx : c → Cost Z K N x K' Q)
    (hy : ¬ c → Cost Z K N y K' Q) : Cost Z K N (if c then x else y) K' Q := by
  by_cases h : c
  · rw [if_pos h]; exact hx h
  · rw [if_neg h]; exact hy h

theorem Still.pure (a : γ) : Still (pure a : HM α γ) := ⟨fun _ _ _ e => by cases e; rfl⟩

theorem Still.throw (f : Fault) : Still (throw f : HM α γ) := ⟨fun _ _ _ e => by cases e⟩

theorem Still.lift (x : M γ) : Still (liftM x : HM α γ) := by
  refine ⟨fun h r h' e => ?_⟩
  cases x with
  | error f => cases e
  | ok a => cases e; rfl

theorem Still.bind {x : HM α γ} {k : γ → HM α δ} (hx : Still x) (hk : ∀ g, Still (k g)) : Still (x >>= k) := by
  refine ⟨fun h r h' e => ?_⟩
  obtain ⟨g, h1, e1, e2⟩ := hm_bind_inv e
  rw [(hk g).run _ _ _ e2, hx.run _ _ _ e1]

/-- Calls that are known to read only. -/
syntax "still_step" : tactic

/-- A body made of such calls. -/
macro "still" : tactic => `(tactic| repeat' (first
  | assumption
  | with_reducible exact Still.pure _
  | with_reducible exact Still.throw _
  | with_reducible exact Still.lift _
  | still_step
  | with_reducible refine Still.bind ?_ ?_
  | intro _
  | dsimp only
  | split))

theorem load_still (a : Addr) : Still (load a : HM α _) := ⟨fun _ _ _ e => (load_inv e).1⟩
macro_rules | `(tactic| still_step) => `(tactic| with_reducible exact load_still _)

namespace Entry

theorem len_still (a : Addr) : Still (len a : HM α _) := by unfold len; still
macro_rules | `(tactic| still_step) => `(tactic| with_reducible exact Entry.len_still _)
theorem slots_still (a : Addr) : Still (slots a : HM α _) := by unfold slots; still
macro_rules | `(tactic| still_step) => `(tactic| with_reducible exact Entry.slots_still _)
theorem isEmpty_still (a : Addr) : Still (isEmpty a : HM α _) := by unfold isEmpty; still
macro_rules | `(tactic| still_step) => `(tactic| with_reducible exact Entry.isEmpty_still _)
theorem freeSlots_still (a : Addr) : Still (freeSlots a : HM α _) := by unfold freeSlots; still
macro_rules | `(tactic| still_step) => `(tactic| with_reducible exact Entry.freeSlots_still _)
theorem isFull_still (a : Addr) : Still (isFull a : HM α _) := by unfold isFull; still
macro_rules | `(tactic| still_step) => `(tactic| with_reducible exact Entry.isFull_still _)
theorem level_still (a : Addr) : Still (level a : HM α _) := by unfold level; still
macro_rules | `(tactic| still_step) => `(tactic| with_reducible exact Entry.level_still _)
theorem isLeaf_still (a : Addr) : Still (isLeaf a : HM α _) := by unfold isLeaf; still
macro_rules | `(tactic| still_step) => `(tactic| with_reducible exact Entry.isLeaf_still _)
theorem leafFreeSpace_still (a : Addr) : Still (leafFreeSpace a : HM α _) := by unfold leafFreeSpace; still
macro_rules | `(tactic| still_step) => `(tactic| with_reducible exact Entry.leafFreeSpace_still _)

theorem getAux_still : ∀ (fuel : Nat) (a : Addr) (i : Nat), Still (getAux fuel a i : HM α _)
  | 0, _, _ => Still.throw _
  | fuel + 1, a, i => by
    unfold getAux
    have ih := getAux_still (α := α) fuel
    still
    exact ih _ _
theorem get_still (a : Addr) (i : Nat) : Still (get a i : HM α _) := by
  unfold get
  still
  exact getAux_still _ _ _
macro_rules | `(tactic| still_step) => `(tactic| with_reducible exact Entry.get_still _ _)

theorem packSizes_still (c : CB Addr) : ∀ (fuel : Nat) (it : CB.Iter) (s : SizeTable), Still (packSizes c fuel it s : HM α _)
  | 0, _, _ => Still.throw _
  | fuel + 1, it, s => by
    unfold packSizes
    have ih := packSizes_still (α := α) c fuel
    still
    exact ih _ _
macro_rules | `(tactic| still_step) => `(tactic| with_reducible exact Entry.packSizes_still _ _ _ _)

theorem debugCheckLoop_still {check : Addr → Nat → Nat → HM α Unit} (hc : ∀ a n l, Still (check a n l)) (s : SizeTable)
    (c : CB Addr) (l : Nat) : ∀ (fuel : Nat) (it : CB.Iter) (st : Nat × Nat), Still (debugCheckLoop check s c l fuel it st)
  | 0, _, _ => Still.throw _
  | fuel + 1, it, st => by
    unfold debugCheckLoop
    have ih := debugCheckLoop_still hc s c l fuel
    still
    · exact hc _ _ _
    · exact ih _ _

theorem debugCheckAux_still : ∀ (fuel : Nat) (a : Addr) (n l : Nat), Still (debugCheckAux fuel a n l : HM α _)
  | 0, _, _, _ => Still.throw _
  | fuel + 1, a, n, l => by
    unfold debugCheckAux
    have ih := debugCheckAux_still (α := α) fuel
    still
    exact debugCheckLoop_still ih _ _ _ _ _ _
theorem debugCheck_still (a : Addr) (n l : Nat) : Still (debugCheck a n l : HM α _) := by
  unfold debugCheck
  still
  exact debugCheckAux_still _ _ _ _
macro_rules | `(tactic| still_step) => `(tactic| with_reducible exact Entry.debugCheck_still _ _ _)

end Entry

/-! ### Nodes -/

theorem Tame.put {h : Heap α} (t : Tame Z K h) {a : Addr} {c : Option (RcBox α)}
    (hc : ∀ c', c = some c' → Z.has a → BodyOk Z K c'.node) : Tame Z K (h.put a c) := by
  refine ⟨by simpa [Heap.put] using t.start, fun b d hb e => ?_⟩
  by_cases ha : a < h.cells.length
  · rw [Heap.cell_put ha] at e
    by_cases hab : a = b
    · subst hab
      rw [if_pos rfl] at e
      exact hc d e hb
    · rw [if_neg hab] at e
      exact t.fits b d hb e
  · have : h.put a c = h := by
      show ({ cells := h.cells.set a c } : Heap α) = h
      rw [List.set_eq_of_length_le (by omega)]
    rw [this] at e
    exact t.fits b d hb e

theorem put_length (h : Heap α) (a : Addr) (c : Option (RcBox α)) : (h.put a c).cells.length = h.cells.length := by
  simp [Heap.put]

theorem load_cost {a : Addr} (ha : Z.has a) : Cost Z K 0 (load a : HM α _) K (BodyOk Z K) := by
  refine ⟨fun h r h' t e => ?_⟩
  obtain ⟨rfl, c, hc, rfl⟩ := load_inv e
  exact ⟨t, by omega, t.fits a c ha hc⟩

theorem poke_cost {a : Addr} {f : Body α Addr → Body α Addr} (ha : Z.has a) (hf : ∀ n, BodyOk Z K n → BodyOk Z K (f n)) :
    Cost Z K 0 (poke a f : HM α _) K (BodyOk Z K) := by
  refine ⟨fun h r h' t e => ?_⟩
  obtain ⟨c, hc, rfl, rfl⟩ := poke_inv e
  have hb := t.fits a c ha hc
  refine ⟨t.put fun c' hc' _ => ?_, by rw [put_length]; omega, hb⟩
  cases hc'
  exact hf _ hb

theorem Entry.slots_cost {a : Addr} (ha : Z.has a) : Cost Z K 0 (Entry.slots a : HM α _) K (· ≤ RRB_WIDTH) :=
  Cost.bind (load_cost ha) (Nat.le_refl _) fun _ hb => Cost.pure (Nat.le_refl _) hb.slots

theorem Entry.level_cost {a : Addr} (ha : Z.has a) : Cost Z K 0 (Entry.level a : HM α _) K (· ≤ K) :=
  Cost.bind (load_cost ha) (Nat.le_refl _) fun _ hb => Cost.pure (Nat.le_refl _) hb.level

theorem cloneEntries_cost : ∀ (as : List Addr), Cost Z K 0 (cloneEntries as : HM α _) K fun _ => True
  | [] => Cost.pure (Nat.le_refl _) trivial
  | a :: as => by
    refine ⟨fun h r h' t e => ?_⟩
    obtain ⟨u, h1, e1, e2⟩ := hm_bind_inv e
    obtain ⟨c, hc, rfl⟩ := cloneEntry_inv e1
    have t1 : Tame Z K (h.put a (some { c with count := c.count + 1 })) :=
      t.put fun c' hc' ha => by cases hc'; exact t.fits a c ha hc
    obtain ⟨t2, l2, -⟩ := (cloneEntries_cost as).run _ _ _ t1 e2
    rw [put_length] at l2
    exact ⟨t2, l2, trivial⟩

theorem dropLoop_cost : ∀ (fuel : Nat) (as : List Addr) {h h' : Heap α}, Tame Z K h → dropLoop fuel as h = .ok h' →
    Tame Z K h' ∧ h'.cells.length = h.cells.length
  | 0, [], h, h', t, e => by cases e; exact ⟨t, rfl⟩
  | _ + 1, [], h, h', t, e => by cases e; exact ⟨t, rfl⟩
  | 0, _ :: _, h, h', t, e => by cases e
  | fuel + 1, a :: as, h, h', t, e => by
    rw [dropLoop, Heap.release] at e
    cases hc : h.cell a with
    | none => rw [hc] at e; cases e
    | some c =>
      rw [hc] at e
      dsimp only at e
      split at e
      · have t1 : Tame Z K (h.put a none) := t.put fun c' hc' ha => by cases hc'
        obtain ⟨t2, l2⟩ := dropLoop_cost fuel _ t1 e
        exact ⟨t2, l2.trans (put_length _ _ _)⟩
      · have t1 : Tame Z K (h.put a (some { c with count := c.count - 1 })) :=
          t.put fun c' hc' ha => by cases hc'; exact t.fits a c ha hc
        obtain ⟨t2, l2⟩ := dropLoop_cost fuel _ t1 e
        exact ⟨t2, l2.trans (put_length _ _ _)⟩

theorem dropEntries_cost (as : List Addr) : Cost Z K 0 (dropEntries as : HM α _) K fun _ => True := by
  refine ⟨fun h r h' t e => ?_⟩
  obtain ⟨t1, l1⟩ := dropLoop_cost _ as t (dropEntries_inv e)
  exact ⟨t1, by omega, trivial⟩

theorem dropEntry_cost (a : Addr) : Cost Z K 0 (dropEntry a : HM α _) K fun _ => True := dropEntries_cost _

theorem alloc_cost {n : Body α Addr} (hn : BodyOk Z K n) : Cost Z K 1 (alloc n) K Z.has := by
  refine ⟨fun h r h' t e => ?_⟩
  cases e
  have hs := t.start
  refine ⟨⟨by simp only [List.length_append, List.length_singleton]; omega, fun b d hb e => ?_⟩, by simp, Z.new _ t.start⟩
  rcases Nat.lt_trichotomy b h.cells.length with hl | rfl | hl
  · refine t.fits b d hb ?_
    simpa [Heap.cell, List.getElem?_append, hl] using e
  · simp [Heap.cell] at e
    subst e
    exact hn
  · simp [Heap.cell, List.getElem?_append, Nat.not_lt_of_lt hl, List.getElem?_eq_none (l := [_]) (i := b - h.cells.length)
      (by simp; omega)] at e

theorem loadMut_cost {a : Addr} (ha : Z.has a) : Cost Z K 1 (loadMut a : HM α _) K Z.has := by
  unfold loadMut
  refine Cost.read ⟨fun _ _ _ e => (isOne_inv e).1⟩ fun b => ?_
  refine Cost.ite (fun _ => Cost.pure (Nat.le_refl _) ha) fun _ => ?_
  refine Cost.bind (load_cost ha) (by omega) fun n hn => ?_
  refine Cost.bind (cloneEntries_cost _) (by omega) fun _ _ => ?_
  refine Cost.bind (alloc_cost hn) (by omega) fun b hb => ?_
  refine Cost.bind (dropEntry_cost a) (by omega) fun _ _ => ?_
  exact Cost.pure (Nat.le_refl _) hb

theorem borrow_cost {a : Addr} (ha : Z.has a) : Cost Z K 1 (borrow a : HM α _) K fun r => Z.has r.1 ∧ BodyOk Z K r.2 := by
  refine Cost.bind (loadMut_cost ha) (Nat.le_refl _) fun b hb => ?_
  refine Cost.bind (poke_cost hb fun _ _ => .emptyLeaf) (by omega) fun n hn => ?_
  exact Cost.pure (Nat.le_refl _) ⟨hb, hn⟩

theorem giveBack_cost {a : Addr} {n : Body α Addr} (hn : BodyOk Z K n) : Cost Z K 0 (giveBack a n) K fun _ => True := by
  refine ⟨fun h r h' t e => ?_⟩
  obtain ⟨_, h1, e1, e2⟩ := hm_bind_inv e
  obtain ⟨c, hc, -, rfl⟩ := poke_inv e1
  cases e2
  refine ⟨t.put fun c' hc' _ => ?_, by rw [put_length]; omega, trivial⟩
  cases hc'
  exact hn

/-- A call that only reads, and goes on. -/
macro "reading" : tactic => `(tactic| with_reducible refine Cost.read (by still_step) fun _ => ?_)

namespace Entry

theorem newEmpty_cost {a : Addr} (ha : Z.has a) : Cost Z K 1 (newEmpty a : HM α _) K Z.has :=
  Cost.bind (load_cost ha) (by omega) fun _ hb => alloc_cost hb.newEmpty

theorem emptyInternal_cost {l : Nat} (hl : l ≤ K') (hK : K ≤ K') : Cost Z K 1 (emptyInternal l : HM α _) K' Z.has := by
  refine ⟨fun h r h' t e => ?_⟩
  refine (Cost.run (?_ : Cost Z K' 1 _ K' Z.has) _ _ _ (t.mono hK) e)
  exact Cost.lift fun b e => alloc_cost (BodyOk.emptyInternal hl e)

theorem share_cost {a b : Addr} (ha : Z.has a) (hb : Z.has b) (s : Side) (n : Nat) :
    Cost Z K 2 (share a b s n : HM α _) K fun r => Z.has r.2.1 ∧ Z.has r.2.2 := by
  refine Cost.bind (borrow_cost hb) (by omega) fun d hd => ?_
  refine Cost.bind (borrow_cost ha) (by omega) fun c hc => ?_
  refine Cost.lift fun r e => ?_
  obtain ⟨h1, h2⟩ := BodyOk.share hc.2 hd.2 e
  refine Cost.bind (giveBack_cost h1) (by omega) fun _ _ => ?_
  refine Cost.bind (giveBack_cost h2) (by omega) fun _ _ => ?_
  exact Cost.pure (Nat.le_refl _) ⟨hc.1, hd.1⟩

theorem popChild_cost {a : Addr} (ha : Z.has a) (s : Side) :
    Cost Z K 1 (popChild a s : HM α _) K fun r => Z.has r.1 ∧ Z.has r.2 := by
  refine Cost.bind (borrow_cost ha) (by omega) fun c hc => ?_
  refine Cost.lift fun r e => ?_
  obtain ⟨h1, h2, -⟩ := hc.2.popChild e
  refine Cost.bind (giveBack_cost h2) (by omega) fun _ _ => ?_
  exact Cost.pure (Nat.le_refl _) ⟨h1, hc.1⟩

theorem pushChild_cost {a k : Addr} (ha : Z.has a) (hk : Z.has k) (s : Side) : Cost Z K 1 (pushChild a s k : HM α _) K Z.has := by
  refine Cost.bind (borrow_cost ha) (by omega) fun c hc => ?_
  reading
  refine Cost.lift fun r e => ?_
  refine Cost.bind (giveBack_cost (hc.2.pushChild hk e)) (by omega) fun _ _ => ?_
  exact Cost.pure (Nat.le_refl _) hc.1

theorem leafPush_cost {a : Addr} (ha : Z.has a) (s : Side) (x : α) : Cost Z K 1 (leafPush a s x) K Z.has := by
  refine Cost.bind (borrow_cost ha) (by omega) fun c hc => ?_
  refine Cost.lift fun r e => ?_
  refine Cost.bind (giveBack_cost (hc.2.leafPush e)) (by omega) fun _ _ => ?_
  exact Cost.pure (Nat.le_refl _) hc.1

theorem leafPop_cost {a : Addr} (ha : Z.has a) (s : Side) : Cost Z K 1 (leafPop a s : HM α _) K fun r => Z.has r.2 := by
  refine Cost.bind (borrow_cost ha) (by omega) fun c hc => ?_
  refine Cost.lift fun r e => ?_
  refine Cost.bind (giveBack_cost (hc.2.leafPop e)) (by omega) fun _ _ => ?_
  exact Cost.pure (Nat.le_refl _) hc.1

theorem packLoop_cost : ∀ (fuel w r : Nat) {c : CB Addr}, RingOk Z.has c →
    Cost Z K (2 * fuel) (packLoop fuel w r c : HM α _) K (RingOk Z.has)
  | 0, w, r, c, hc => by
    unfold packLoop
    split
    · exact Cost.throw
    · exact Cost.pure (Nat.le_refl _) hc
  | fuel + 1, w, r, c, hc => by
    unfold packLoop
    split
    · split
      · exact (packLoop_cost fuel _ _ hc).le (by omega)
      · refine Cost.lift fun p _ => ?_
        refine Cost.lift fun x ex => ?_
        refine Cost.lift fun y ey => ?_
        refine Cost.bind (share_cost (hc.mem _ (RingOk.readSlot_mem ey)) (hc.mem _ (RingOk.readSlot_mem ex)) _ _) (by omega)
          fun q hq => ?_
        refine Cost.lift fun d1 e1 => ?_
        refine Cost.lift fun d2 e2 => ?_
        reading
        reading
        exact (packLoop_cost fuel _ _ ((hc.assign hq.2 e1).assign hq.1 e2)).le (by omega)
    · exact Cost.pure (Nat.le_refl _) hc

theorem packTrim_cost : ∀ (fuel : Nat) {c : CB Addr}, RingOk Z.has c →
    Cost Z K 0 (packTrim fuel c : HM α _) K (RingOk Z.has)
  | 0, c, hc => Cost.throw
  | fuel + 1, c, hc => by
    unfold packTrim
    refine Cost.lift fun o _ => ?_
    refine Cost.lift fun x _ => ?_
    reading
    split
    · refine Cost.lift fun q e => ?_
      refine Cost.bind (dropEntry_cost _) (by omega) fun _ _ => ?_
      exact packTrim_cost fuel (hc.pop (s := .back) e).2.1
    · exact Cost.pure (Nat.le_refl _) hc

theorem packSizes_level (c : CB Addr) : ∀ (fuel : Nat) (it : CB.Iter) (s : SizeTable) {h h' : Heap α} {r : SizeTable},
    packSizes c fuel it s h = .ok (r, h') → r.level = s.level
  | 0, _, _, _, _, _, e => by cases e
  | fuel + 1, it, s, h, h', r, e => by
    unfold packSizes at e
    obtain ⟨⟨o, it'⟩, h1, e1, e2⟩ := hm_bind_inv e
    cases o with
    | none => cases e2; rfl
    | some k =>
      obtain ⟨n, h2, e3, e4⟩ := hm_bind_inv e2
      obtain ⟨s', h3, e5, e6⟩ := hm_bind_inv e4
      rw [packSizes_level c fuel _ _ e6]
      cases hp : s.pushChild .back n with
      | error f => rw [hp] at e5; cases e5
      | ok s2 => rw [hp] at e5; cases e5; exact SizeTable.pushChild_level hp

theorem packChildren_cost {a : Addr} (ha : Z.has a) : Cost Z K 257 (packChildren a : HM α _) K Z.has := by
  refine Cost.bind (borrow_cost ha) (by omega) fun b hb => ?_
  obtain ⟨b1, b2⟩ := b
  cases b2 with
  | leaf l => exact Cost.throw
  | internal s t c =>
    have hc : s.level ≤ K ∧ RingOk Z.has c := hb.2
    have hl := hc.2.len
    dsimp only
    refine Cost.lift fun n _ => ?_
    split
    · refine Cost.bind (giveBack_cost hb.2) (by omega) fun _ _ => ?_
      exact Cost.pure (Nat.le_refl _) hb.1
    · refine Cost.lift fun _ _ => ?_
      refine Cost.lift fun _ _ => ?_
      refine Cost.bind (packLoop_cost _ _ _ hc.2) (by omega) fun c1 h1 => ?_
      refine Cost.bind (packTrim_cost _ h1) (by omega) fun c2 h2 => ?_
      refine Cost.bind (N1 := 0) (K1 := K) (Q := fun s' => s'.level = s.level) ?_ (by omega) fun s' hs => ?_
      · refine ⟨fun h r h' t e => ?_⟩
        cases (packSizes_still _ _ _ _).run _ _ _ e
        exact ⟨t, by omega, (packSizes_level _ _ _ _ e).trans rfl⟩
      · refine Cost.lift fun _ _ => ?_
        refine Cost.lift fun _ _ => ?_
        refine Cost.bind (giveBack_cost ⟨hs.trans_le hc.1, h2⟩) (by omega) fun _ _ => ?_
        exact Cost.pure (Nat.le_refl _) hb.1

theorem setAux_cost (x : α) : ∀ (fuel : Nat) {a : Addr} (i : Nat), Z.has a →
    Cost Z K fuel (setAux fuel a i x) K fun r => Z.has r.2
  | 0, _, _, _ => Cost.throw
  | fuel + 1, a, i, ha => by
    unfold setAux
    refine Cost.bind (borrow_cost ha) (by omega) fun b hb => ?_
    obtain ⟨b1, b2⟩ := b
    cases b2 with
    | leaf l =>
      dsimp only
      refine Cost.lift fun r e => ?_
      have hr : BodyOk Z K (.leaf (r.getD l) : Body α Addr) := by
        cases r with
        | none => exact hb.2
        | some r => exact RingOk.set hb.2 trivial e
      refine Cost.bind (giveBack_cost hr) (by omega) fun _ _ => ?_
      exact Cost.pure (Nat.le_refl _) hb.1
    | internal s t c =>
      have hc : s.level ≤ K ∧ RingOk Z.has c := hb.2
      dsimp only
      refine Cost.lift fun p _ => ?_
      split
      · refine Cost.lift fun o eo => ?_
        refine Cost.lift fun k ek => ?_
        cases unwrap_inv ek
        refine Cost.bind (setAux_cost x fuel _ (hc.2.get eo)) (by omega) fun r hr => ?_
        refine Cost.lift fun o' eo' => ?_
        refine Cost.lift fun c' ek' => ?_
        cases unwrap_inv ek'
        refine Cost.bind (giveBack_cost ⟨hc.1, hc.2.set hr eo'⟩) (by omega) fun _ _ => ?_
        exact Cost.pure (Nat.le_refl _) hb.1
      · refine Cost.bind (giveBack_cost hb.2) (by omega) fun _ _ => ?_
        exact Cost.pure (Nat.le_refl _) hb.1

theorem set_cost {a : Addr} (ha : Z.has a) (i : Nat) (x : α) : Cost Z K (K + 1) (set a i x) K fun r => Z.has r.2 :=
  Cost.bind (level_cost ha) (by omega) fun _ hl => (setAux_cost x _ i ha).le (by omega)

theorem splitAtPositionAux_cost : ∀ (fuel : Nat) {a : Addr} (i : Nat), Z.has a →
    Cost Z K (2 * fuel) (splitAtPositionAux fuel a i : HM α _) K fun r => Z.has r.1 ∧ Z.has r.2
  | 0, _, _, _ => Cost.throw
  | fuel + 1, a, i, ha => by
    unfold splitAtPositionAux
    refine Cost.bind (borrow_cost ha) (by omega) fun b hb => ?_
    obtain ⟨b1, b2⟩ := b
    cases b2 with
    | leaf l =>
      dsimp only
      refine Cost.lift fun r e => ?_
      obtain ⟨h1, h2⟩ := hb.2.splitAtChild e
      refine Cost.bind (giveBack_cost h1) (by omega) fun _ _ => ?_
      refine Cost.bind (alloc_cost h2) (by omega) fun n hn => ?_
      exact Cost.pure (Nat.le_refl _) ⟨hb.1, hn⟩
    | internal s t c =>
      dsimp only
      refine Cost.lift fun n _ => ?_
      refine Cost.lift fun _ _ => ?_
      refine Cost.lift fun o _ => ?_
      refine Cost.lift fun p _ => ?_
      refine Cost.lift fun r e => ?_
      obtain ⟨h1, h2⟩ := hb.2.splitAtChild e
      refine Cost.lift fun q e => ?_
      obtain ⟨h3, h4, -⟩ := h2.popChild e
      reading
      refine Cost.bind (N1 := 2 * fuel + 1) (K1 := K) (Q := fun r => Z.has r.1 ∧ Z.has r.2) ?_ (by omega) fun fin hfin => ?_
      · split
        · reading
          refine Cost.lift fun b e => ?_
          refine Cost.bind (giveBack_cost h1) (by omega) fun _ _ => ?_
          refine Cost.bind (alloc_cost (h4.pushChild h3 e)) (by omega) fun n hn => ?_
          exact Cost.pure (Nat.le_refl _) ⟨hb.1, hn⟩
        · split
          · reading
            refine Cost.lift fun b e => ?_
            refine Cost.bind (giveBack_cost (h1.pushChild h3 e)) (by omega) fun _ _ => ?_
            refine Cost.bind (alloc_cost h4) (by omega) fun n hn => ?_
            exact Cost.pure (Nat.le_refl _) ⟨hb.1, hn⟩
          · refine Cost.bind (splitAtPositionAux_cost fuel _ h3) (by omega) fun u hu => ?_
            reading
            refine Cost.lift fun b e => ?_
            reading
            refine Cost.lift fun b' e' => ?_
            refine Cost.bind (giveBack_cost (h1.pushChild hu.1 e)) (by omega) fun _ _ => ?_
            refine Cost.bind (alloc_cost (h4.pushChild hu.2 e')) (by omega) fun n hn => ?_
            exact Cost.pure (Nat.le_refl _) ⟨hb.1, hn⟩
      · reading
        reading
        refine Cost.lift fun _ _ => ?_
        reading
        reading
        exact Cost.pure (Nat.le_refl _) hfin

theorem splitAtPosition_cost {a : Addr} (ha : Z.has a) (i : Nat) :
    Cost Z K (2 * (K + 1)) (splitAtPosition a i : HM α _) K fun r => Z.has r.1 ∧ Z.has r.2 :=
  Cost.bind (level_cost ha) (by omega) fun _ hl => (splitAtPositionAux_cost _ i ha).le (by omega)

end Entry

/-! ### Vectors -/

/-- The entries are in the zone, and the spines have at most `L` nodes. -/
structure VecOk (Z : Zone) (L : Nat) (v : HVec) : Prop where
  left : ∀ a ∈ v.left, Z.has a
  right : ∀ a ∈ v.right, Z.has a
  root : Z.has v.root
  leftLen : v.left.length ≤ L
  rightLen : v.right.length ≤ L

variable {L : Nat}

namespace VecOk

theorem mono {L' : Nat} {v : HVec} (h : VecOk Z L v) (hL : L ≤ L') : VecOk Z L' v :=
  ⟨h.left, h.right, h.root, h.leftLen.trans hL, h.rightLen.trans hL⟩

theorem spine {v : HVec} (h : VecOk Z L v) (s : Side) : (∀ a ∈ v.spine s, Z.has a) ∧ (v.spine s).length ≤ L := by
  cases s
  · exact ⟨h.left, h.leftLen⟩
  · exact ⟨h.right, h.rightLen⟩

theorem withSpine {v : HVec} (h : VecOk Z L v) (s : Side) {sp : List Addr} (hs : ∀ a ∈ sp, Z.has a) (hl : sp.length ≤ L) :
    VecOk Z L (v.withSpine s sp) := by
  cases s
  · exact ⟨hs, h.right, h.root, hl, h.rightLen⟩
  · exact ⟨h.left, hs, h.root, h.leftLen, hl⟩

theorem withRoot {v : HVec} (h : VecOk Z L v) {r : Addr} (hr : Z.has r) : VecOk Z L { v with root := r } :=
  ⟨h.left, h.right, hr, h.leftLen, h.rightLen⟩

theorem leafNode {v : HVec} (h : VecOk Z L v) (s : Side) : Z.has (v.leafNode s) := by
  unfold VecOf.leafNode
  cases e : v.spine s with
  | nil => exact h.root
  | cons a as => exact (h.spine s).1 a (by rw [e]; exact List.mem_cons_self ..)

theorem withLeafNode {v : HVec} (h : VecOk Z L v) (s : Side) {a : Addr} (ha : Z.has a) : VecOk Z L (v.withLeafNode s a) := by
  unfold VecOf.withLeafNode
  have hs := h.spine s
  split
  · exact h.withRoot ha
  next b rest e =>
    rw [e] at hs
    refine h.withSpine s (fun c hc => ?_) hs.2
    rcases List.mem_cons.1 hc with rfl | hc
    · exact ha
    · exact hs.1 c (List.mem_cons_of_mem _ hc)

theorem withLen {v : HVec} (h : VecOk Z L v) (n : Nat) : VecOk Z L { v with len := n } := ⟨h.left, h.right, h.root, h.leftLen, h.rightLen⟩

end VecOk

theorem has_append {l m : List Addr} (hl : ∀ a ∈ l, Z.has a) (hm : ∀ a ∈ m, Z.has a) : ∀ a ∈ l ++ m, Z.has a := by
  intro a ha
  rcases List.mem_append.1 ha with h | h
  · exact hl a h
  · exact hm a h

theorem has_cons {l : List Addr} {a : Addr} (ha : Z.has a) (hl : ∀ a ∈ l, Z.has a) : ∀ b ∈ a :: l, Z.has b := by
  intro b hb
  rcases List.mem_cons.1 hb with rfl | h
  · exact ha
  · exact hl b h

theorem has_one {a : Addr} (ha : Z.has a) : ∀ b ∈ [a], Z.has b := by
  intro b hb
  rcases List.mem_singleton.1 hb with rfl
  exact ha

theorem has_set {l : List Addr} {i : Nat} {a : Addr} (hl : ∀ a ∈ l, Z.has a) (ha : Z.has a) : ∀ b ∈ l.set i a, Z.has b := by
  intro b hb
  rcases List.mem_or_eq_of_mem_set hb with h | rfl
  · exact hl b h
  · exact ha

theorem has_last {l : List Addr} (hl : ∀ a ∈ l, Z.has a) : ∀ a ∈ l.dropLast, Z.has a :=
  fun a ha => hl a ((List.dropLast_sublist l).subset ha)

namespace HVec

theorem new_cost : Cost Z K 1 (new : HM α _) K (VecOk Z L) := by
  refine Cost.bind (alloc_cost .emptyLeaf) (by omega) fun a ha => ?_
  exact Cost.pure (Nat.le_refl _) ⟨by simp, by simp, ha, Nat.zero_le _, Nat.zero_le _⟩

theorem clone_cost {v : HVec} (hv : VecOk Z L v) : Cost Z K 0 (clone v : HM α _) K (VecOk Z L) :=
  Cost.bind (cloneEntries_cost _) (by omega) fun _ _ => Cost.pure (Nat.le_refl _) hv

theorem drop_cost (v : HVec) : Cost Z K 0 (drop v : HM α _) K fun _ => True := dropEntries_cost _

theorem fixupStep_cost {v : HVec} (hv : VecOk Z L v) : Cost Z K 2 (fixupStep v : HM α _) K fun r => VecOk Z L r.1 := by
  unfold fixupStep
  refine Cost.lift fun l el => ?_
  refine Cost.lift fun r er => ?_
  have el := unwrap_inv el
  have er := unwrap_inv er
  have hl : Z.has l := hv.left _ (List.mem_of_getLast? el)
  have hr : Z.has r := hv.right _ (List.mem_of_getLast? er)
  have ll : v.left.dropLast.length + 1 = v.left.length := by
    have := List.length_pos_of_mem (List.mem_of_getLast? el)
    rw [List.length_dropLast]; omega
  have lr : v.right.dropLast.length + 1 = v.right.length := by
    have := List.length_pos_of_mem (List.mem_of_getLast? er)
    rw [List.length_dropLast]; omega
  have h1 := hv.leftLen
  have h2 := hv.rightLen
  reading
  reading
  reading
  dsimp only
  refine Cost.ite (fun _ => ?_) fun _ => ?_
  · refine Cost.bind (Entry.share_cost hl hr _ _) (by omega) fun q hq => ?_
    refine Cost.bind (dropEntry_cost _) (by omega) fun _ _ => ?_
    refine Cost.bind (dropEntry_cost _) (by omega) fun _ _ => ?_
    exact Cost.pure (Nat.le_refl _) ⟨has_last hv.left, has_last hv.right, hq.2, by dsimp only; omega, by dsimp only; omega⟩
  · refine Cost.ite (fun _ => ?_) fun _ => ?_
    · refine Cost.ite (fun _ => ?_) fun _ => ?_
      · refine Cost.bind (Entry.share_cost hl hr _ _) (by omega) fun q hq => ?_
        exact Cost.pure (Nat.le_refl _) ⟨has_append (has_last hv.left) (has_one hq.1), has_append (has_last hv.right) (has_one hq.2),
          hv.root, by simp only [List.length_append, List.length_singleton]; omega,
          by simp only [List.length_append, List.length_singleton]; omega⟩
      · refine Cost.bind (Entry.share_cost hr hl _ _) (by omega) fun q hq => ?_
        exact Cost.pure (Nat.le_refl _) ⟨has_append (has_last hv.left) (has_one hq.2), has_append (has_last hv.right) (has_one hq.1),
          hv.root, by simp only [List.length_append, List.length_singleton]; omega,
          by simp only [List.length_append, List.length_singleton]; omega⟩
    · exact Cost.pure (Nat.le_refl _) hv

theorem fixupLoop_cost : ∀ (fuel : Nat) {v : HVec}, VecOk Z L v → Cost Z K (2 * fuel) (fixupLoop fuel v : HM α _) K (VecOk Z L)
  | 0, v, hv => by
    unfold fixupLoop
    reading
    reading
    split
    · exact Cost.throw
    · exact Cost.pure (Nat.le_refl _) hv
  | fuel + 1, v, hv => by
    unfold fixupLoop
    reading
    reading
    split
    · refine Cost.bind (fixupStep_cost hv) (by omega) fun r hr => ?_
      split
      · exact (fixupLoop_cost fuel hr).le (by omega)
      · exact Cost.pure (Nat.le_refl _) hr
    · exact Cost.pure (Nat.le_refl _) hv

theorem fixupSpineTops_cost {v : HVec} (hv : VecOk Z L v) : Cost Z K (2 * L + 2) (fixupSpineTops v : HM α _) K (VecOk Z L) := by
  have := hv.leftLen
  exact (fixupLoop_cost _ hv).le (by omega)

theorem completeLoop_cost (s : Side) : ∀ (n : Nat) {sp : List Addr} {root : Addr}, (∀ a ∈ sp, Z.has a) → Z.has root →
    Cost Z K (2 * n) (completeLoop s n sp root : HM α _) K
      fun r => (∀ a ∈ r.1, Z.has a) ∧ r.1.length = sp.length ∧ Z.has r.2
  | 0, sp, root, hs, hr => Cost.pure (Nat.le_refl _) ⟨hs, rfl, hr⟩
  | n + 1, [], root, hs, hr => Cost.pure (Nat.le_refl _) ⟨hs, rfl, hr⟩
  | n + 1, node :: rest, root, hs, hr => by
    unfold completeLoop
    have hn : Z.has node := hs _ (List.mem_cons_self ..)
    reading
    split
    · exact Cost.pure (Nat.le_refl _) ⟨hs, rfl, hr⟩
    · refine Cost.bind (Entry.newEmpty_cost hn) (by omega) fun e he => ?_
      cases rest with
      | nil =>
        dsimp only
        refine Cost.bind (Entry.pushChild_cost hr hn s) (by omega) fun r hr => ?_
        exact Cost.pure (Nat.le_refl _) ⟨has_one he, rfl, hr⟩
      | cons p rest =>
        dsimp only
        refine Cost.bind (Entry.pushChild_cost (hs p (by simp)) hn s) (by omega) fun q hq => ?_
        refine Cost.bind (completeLoop_cost s n (sp := q :: rest) (has_cons hq fun a ha => hs a (by simp [ha])) hr) (by omega)
          fun r hr => ?_
        refine Cost.pure (Nat.le_refl _) ⟨has_cons he hr.1, ?_, hr.2.2⟩
        simp [hr.2.1]

theorem completeLeaf_cost {v : HVec} (hv : VecOk Z L v) (s : Side) :
    Cost Z K (4 * L + 4) (completeLeaf v s : HM α _) (K + 1) (VecOk Z (L + 1)) := by
  unfold completeLeaf
  have hs := hv.spine s
  have ho := hv.spine s.negate
  refine Cost.lift fun _ _ => ?_
  reading
  refine Cost.lift fun _ _ => ?_
  refine Cost.bind (completeLoop_cost s _ hs.1 hv.root) (by omega) fun r hr => ?_
  dsimp only
  reading
  split
  · refine Cost.bind (Entry.level_cost hr.2.2) (by omega) fun l hl => ?_
    refine Cost.bind (Entry.emptyInternal_cost (K' := K + 1) (by omega) (by omega)) (by omega) fun n hn => ?_
    refine Cost.bind (Entry.newEmpty_cost hr.2.2) (by omega) fun e he => ?_
    refine Cost.bind (Entry.share_cost hr.2.2 he _ _) (by omega) fun q hq => ?_
    refine Cost.pure (Nat.le_refl _) ?_
    refine VecOk.withSpine (VecOk.withSpine ((hv.mono (Nat.le_succ L)).withRoot hn) s (has_append hr.1 (has_one hq.1)) ?_) _
      (has_append ho.1 (has_one hq.2)) ?_
    · simp only [List.length_append, List.length_singleton]; omega
    · simp only [List.length_append, List.length_singleton]; omega
  · split
    · exact (fixupSpineTops_cost ((hv.withRoot hr.2.2).withSpine s hr.1 (by omega))).mono (by omega) (by omega)
        fun _ h => h.mono (by omega)
    · exact Cost.pure (by omega) (((hv.withRoot hr.2.2).withSpine s hr.1 (by omega)).mono (by omega))

theorem pushSide_cost {v : HVec} (hv : VecOk Z L v) (s : Side) (x : α) :
    Cost Z K (6 * L + 9) (pushSide v s x) (K + 1) (VecOk Z (L + 1)) := by
  unfold pushSide
  reading
  refine Cost.bind (N1 := 4 * L + 4) (K1 := K + 1) (Q := VecOk Z (L + 1)) ?_ (by omega) fun w hw => ?_
  · split
    · exact completeLeaf_cost hv s
    · exact Cost.pure (by omega) (hv.mono (by omega))
  · refine Cost.bind (Entry.leafPush_cost (hw.leafNode s) s x) (by omega) fun n hn => ?_
    refine Cost.lift fun len _ => ?_
    dsimp only
    have := (hw.withLeafNode s hn).withLen len
    split
    · exact (fixupSpineTops_cost this).le (by omega)
    · exact Cost.pure (Nat.le_refl _) this

theorem lastEmpty_still : ∀ (as : List Addr) (i d : Nat), Still (lastEmpty as i d : HM α _)
  | [], _, _ => Still.pure _
  | a :: as, i, d => by
    unfold lastEmpty
    have ih := lastEmpty_still (α := α) as
    still
    exact ih _ _
macro_rules | `(tactic| still_step) => `(tactic| with_reducible exact HVec.lastEmpty_still _ _ _)

theorem emptyLeafLoop_cost (s : Side) : ∀ (n : Nat) {sp : List Addr} {root : Addr}, (∀ a ∈ sp, Z.has a) → Z.has root →
    Cost Z K n (emptyLeafLoop s n sp root : HM α _) K fun r => (∀ a ∈ r.1, Z.has a) ∧ r.1.length = sp.length ∧ Z.has r.2
  | 0, sp, root, hs, hr => Cost.pure (Nat.le_refl _) ⟨hs, rfl, hr⟩
  | n + 1, sp, root, hs, hr => by
    unfold emptyLeafLoop
    refine Cost.lift fun old eo => ?_
    split
    next p hp =>
      refine Cost.bind (Entry.popChild_cost (hs p (List.mem_of_getElem? hp)) s) (by omega) fun r hr' => ?_
      refine Cost.bind (dropEntry_cost _) (by omega) fun _ _ => ?_
      refine (emptyLeafLoop_cost s n (has_set (has_set hs hr'.2) hr'.1) hr).mono (by omega) (Nat.le_refl _) fun q hq => ?_
      exact ⟨hq.1, by rw [hq.2.1]; simp, hq.2.2⟩
    · refine Cost.bind (Entry.popChild_cost hr s) (by omega) fun r hr' => ?_
      refine Cost.bind (dropEntry_cost _) (by omega) fun _ _ => ?_
      refine (emptyLeafLoop_cost s n (has_set hs hr'.1) hr'.2).mono (by omega) (Nat.le_refl _) fun q hq => ?_
      exact ⟨hq.1, by rw [hq.2.1]; simp, hq.2.2⟩

theorem emptyLeafLoop_cost' (s : Side) (n : Nat) {sp : List Addr} {root : Addr} (hs : ∀ a ∈ sp, Z.has a) (hr : Z.has root) :
    Cost Z K sp.length (emptyLeafLoop s n sp root : HM α _) K
      fun r => (∀ a ∈ r.1, Z.has a) ∧ r.1.length = sp.length ∧ Z.has r.2 := by
  by_cases hn : n ≤ sp.length
  · exact (emptyLeafLoop_cost s n hs hr).le hn
  · cases n with
    | zero => omega
    | succ n =>
      unfold emptyLeafLoop
      refine Cost.lift fun old eo => ?_
      have := unwrap_inv eo
      rw [List.getElem?_eq_none (by omega)] at this
      cases this

theorem emptyLeaf_cost {v : HVec} (hv : VecOk Z L v) (s : Side) :
    Cost Z K (3 * L + 2) (emptyLeaf v s : HM α _) K (VecOk Z L) := by
  unfold emptyLeaf
  have hs := hv.spine s
  refine Cost.lift fun _ _ => ?_
  dsimp only
  refine Cost.lift fun f _ => ?_
  reading
  refine Cost.lift fun _ _ => ?_
  refine Cost.lift fun l _ => ?_
  reading
  reading
  refine Cost.lift fun _ _ => ?_
  refine Cost.lift fun _ _ => ?_
  reading
  refine Cost.bind (emptyLeafLoop_cost' s _ hs.1 hv.root) (by omega) fun r hr => ?_
  exact (fixupSpineTops_cost ((hv.withRoot hr.2.2).withSpine s hr.1 (by omega))).le (by omega)

theorem popSide_cost {v : HVec} (hv : VecOk Z L v) (s : Side) :
    Cost Z K (3 * L + 3) (popSide v s : HM α _) K fun r => VecOk Z L r.2 := by
  unfold popSide
  refine Cost.lift fun _ _ => ?_
  split
  · reading
    split
    · refine Cost.lift fun n _ => ?_
      refine Cost.bind (Entry.leafPop_cost hv.root s) (by omega) fun r hr => ?_
      exact Cost.pure (Nat.le_refl _) ((hv.withRoot hr).withLen n)
    · exact Cost.pure (Nat.le_refl _) hv
  · refine Cost.bind (Entry.leafPop_cost (hv.leafNode s) s) (by omega) fun r hr => ?_
    dsimp only
    reading
    refine Cost.bind (N1 := 3 * L + 2) (K1 := K) (Q := VecOk Z L) ?_ (by omega) fun w hw => ?_
    · have := hv.withLeafNode s hr
      split
      · exact emptyLeaf_cost this s
      · split
        · exact (fixupSpineTops_cost this).le (by omega)
        · exact Cost.pure (Nat.le_refl _) this
    · refine Cost.lift fun n _ => ?_
      exact Cost.pure (Nat.le_refl _) (hw.withLen n)

theorem findLoop_still (index : Nat) : ∀ (ls rs : List Addr) (i f b : Nat), Still (findLoop index ls rs i f b : HM α _)
  | [], rs, i, f, b => by unfold findLoop; still
  | l :: ls, [], i, f, b => by unfold findLoop; still
  | l :: ls, r :: rs, i, f, b => by
    unfold findLoop
    have ih := findLoop_still (α := α) index ls rs
    still
    exact ih _ _ _
macro_rules | `(tactic| still_step) => `(tactic| with_reducible exact HVec.findLoop_still _ _ _ _ _ _)

theorem findNodeInfoForIndex_still (v : HVec) (i : Nat) : Still (findNodeInfoForIndex v i : HM α _) := by
  unfold findNodeInfoForIndex; still
macro_rules | `(tactic| still_step) => `(tactic| with_reducible exact HVec.findNodeInfoForIndex_still _ _)

theorem get_still (v : HVec) (i : Nat) : Still (get v i : HM α _) := by unfold get; still
theorem frontBack_still (v : HVec) (s : Side) : Still (frontBack v s : HM α _) := by unfold frontBack; still
macro_rules | `(tactic| still_step) => `(tactic| with_reducible exact HVec.get_still _ _)
macro_rules | `(tactic| still_step) => `(tactic| with_reducible exact HVec.frontBack_still _ _)

theorem set_cost {v : HVec} (hv : VecOk Z L v) (i : Nat) (x : α) : Cost Z K (K + 1) (set v i x) K fun r => VecOk Z L r.2 := by
  unfold set
  reading
  split
  next pos sub =>
    refine Cost.lift fun n en => ?_
    have hn : Z.has n := by
      cases pos with
      | none => cases en; exact hv.root
      | some p =>
        obtain ⟨s, j⟩ := p
        cases s
        · exact hv.left _ (List.mem_of_getElem? (unwrap_inv en))
        · exact hv.right _ (List.mem_of_getElem? (unwrap_inv en))
    refine Cost.bind (Entry.set_cost hn sub x) (by omega) fun r hr => ?_
    refine Cost.lift fun _ _ => ?_
    refine Cost.pure (Nat.le_refl _) ?_
    cases pos with
    | none => exact hv.withRoot hr
    | some p =>
      obtain ⟨s, j⟩ := p
      cases s
      · exact ⟨has_set hv.left hr, hv.right, hv.root, by simpa [VecOf.withNodeAt] using hv.leftLen, hv.rightLen⟩
      · exact ⟨hv.left, has_set hv.right hr, hv.root, hv.leftLen, by simpa [VecOf.withNodeAt] using hv.rightLen⟩
  · exact Cost.pure (Nat.le_refl _) hv

theorem setFrontBack_cost {v : HVec} (hv : VecOk Z L v) (s : Side) (x : α) :
    Cost Z K 1 (setFrontBack v s x) K fun r => VecOk Z L r.2 := by
  unfold setFrontBack
  refine Cost.bind (borrow_cost (hv.leafNode s)) (by omega) fun b hb => ?_
  refine Cost.lift fun r e => ?_
  refine Cost.bind (giveBack_cost (hb.2.setLeafEnd e)) (by omega) fun _ _ => ?_
  exact Cost.pure (Nat.le_refl _) (hv.withLeafNode s hb.1)

end HVec
