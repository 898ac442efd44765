import Verif.Model.Steps
import Verif.Proof.HeapCostCalls

/-!
# How many steps a call takes in the heap

`Steps Z K N x`: from a heap that is `Tame Z K` a run of `x` takes at most `N` steps. What calls return, and what they leave, is
known from `Cost`.
-/
namespace Librrb

open RingOk (bind_inv unwrap_inv)

variable {Z : Zone} {K L N K' : Nat}

theorem HM.steps_bind (x : HM α γ) (k : γ → HM α δ) : ∀ h, (x >>= k).steps h = x.steps h +
    (match x h with
     | .ok (g, h') => (k g).steps h'
     | .error _ => 0) := by
  show ∀ h, (x.bind k).steps h = _
  induction x with
  | ret g => intro h; simp [HM.bind, HM.steps, HM.run]
  | fail e => intro h; simp [HM.bind, HM.steps, HM.run]
  | load a f ih =>
    intro h
    simp only [HM.bind, HM.steps, HM.run]
    cases h.cell a with
    | none => simp
    | some c => simp only [ih]; omega
  | isOne a f ih =>
    intro h
    simp only [HM.bind, HM.steps, HM.run]
    cases h.cell a with
    | none => simp
    | some c => simp only [ih]; omega
  | incr a x ih =>
    intro h
    simp only [HM.bind, HM.steps, HM.run]
    cases h.cell a with
    | none => simp
    | some c => simp only [ih]; omega
  | alloc n f ih =>
    intro h
    simp only [HM.bind, HM.steps, HM.run, ih]; omega
  | drop as x ih =>
    intro h
    simp only [HM.bind, HM.steps, HM.run]
    cases dropLoop h.total as h with
    | error e => simp
    | ok h' => simp only [ih]; omega
  | poke a g f ih =>
    intro h
    simp only [HM.bind, HM.steps, HM.run]
    cases h.cell a with
    | none => simp
    | some c => simp only [ih]; omega

/-- See the head of this file. -/
structure Steps (Z : Zone) (K N : Nat) (x : HM α γ) : Prop where
  le : ∀ h, Tame Z K h → x.steps h ≤ N

theorem Steps.mono {N' : Nat} {x : HM α γ} (s : Steps Z K N x) (h : N ≤ N') : Steps Z K N' x :=
  ⟨fun h0 t => (s.le h0 t).trans h⟩

theorem Steps.down {N' K' : Nat} {x : HM α γ} (s : Steps Z K' N x) (h : N ≤ N') (hK : K ≤ K') : Steps Z K N' x :=
  ⟨fun h0 t => (s.le h0 (t.mono hK)).trans h⟩

theorem Steps.pure {a : γ} : Steps Z K N (pure a : HM α γ) := ⟨fun _ _ => Nat.zero_le _⟩

theorem Steps.throw {f : Fault} : Steps Z K N (throw f : HM α γ) := ⟨fun _ _ => Nat.zero_le _⟩

theorem Steps.bind {N0 N1 K1 : Nat} {x : HM α γ} {k : γ → HM α δ} {Q : γ → Prop} (hx : Steps Z K N1 x) (hc : Cost Z K N0 x K1 Q)
    (hN : N1 ≤ N) (hk : ∀ r, Q r → Steps Z K1 (N - N1) (k r)) : Steps Z K N (x >>= k) := by
  refine ⟨fun h t => ?_⟩
  rw [HM.steps_bind]
  have h1 := hx.le h t
  cases e : x h with
  | error f => simp only; omega
  | ok q =>
    obtain ⟨g, h'⟩ := q
    obtain ⟨t1, -, q1⟩ := hc.run _ _ _ t e
    have h2 := (hk g q1).le h' t1
    simp only
    omega

theorem Steps.lift {x : M γ} {k : γ → HM α δ} (hk : ∀ a, x = .ok a → Steps Z K N (k a)) :
    Steps Z K N (liftM x >>= k : HM α δ) := by
  refine ⟨fun h t => ?_⟩
  cases x with
  | error f => exact Nat.zero_le _
  | ok a => exact (hk a rfl).le h t

theorem Steps.lift' {x : M γ} : Steps Z K N (liftM x : HM α γ) := by
  refine ⟨fun h t => ?_⟩
  cases x with
  | error f => exact Nat.zero_le _
  | ok a => exact Nat.zero_le _

theorem Steps.read {N1 : Nat} {x : HM α γ} {k : γ → HM α δ} (hx : Steps Z K N1 x) (hs : Still x) (hN : N1 ≤ N)
    (hk : ∀ a, Steps Z K (N - N1) (k a)) : Steps Z K N (x >>= k) :=
  Steps.bind hx (Cost.still (N := 0) (Q := fun _ => True) hs (Nat.le_refl _) fun _ => trivial) hN fun a _ => hk a

theorem Steps.ite {c : Prop} [Decidable c] {x y : HM α γ} (hx : c → Steps Z K N x) (hy : ¬ c → Steps Z K N y) :
    Steps Z K N (if c then x else y) := by
  by_cases h : c
  · rw [if_pos h]; exact hx h
  · rw [if_neg h]; exact hy h

/-! ### Nodes -/

theorem load_steps (a : Addr) : Steps Z K 1 (load a : HM α _) := by
  refine ⟨fun h _ => ?_⟩
  simp only [load, HM.steps]
  cases h.cell a <;> simp [HM.steps]

theorem isOne_steps (a : Addr) : Steps Z K 1 (isOne a : HM α _) := by
  refine ⟨fun h _ => ?_⟩
  simp only [isOne, HM.steps]
  cases h.cell a <;> simp [HM.steps]

theorem poke_steps (a : Addr) (f : Body α Addr → Body α Addr) : Steps Z K 1 (poke a f) := by
  refine ⟨fun h _ => ?_⟩
  simp only [poke, HM.steps]
  cases h.cell a <;> simp [HM.steps]

theorem alloc_steps (n : Body α Addr) : Steps Z K 1 (alloc n) := by
  refine ⟨fun h _ => ?_⟩
  simp [alloc, HM.steps]

theorem dropEntries_steps (as : List Addr) : Steps Z K as.length (dropEntries as : HM α _) := by
  refine ⟨fun h _ => ?_⟩
  simp only [dropEntries, HM.steps]
  cases dropLoop h.total as h <;> simp

theorem dropEntry_steps (a : Addr) : Steps Z K 1 (dropEntry a : HM α _) := dropEntries_steps [a]

theorem cloneEntry_steps (a : Addr) : Steps Z K 1 (cloneEntry a : HM α _) := by
  refine ⟨fun h _ => ?_⟩
  simp only [cloneEntry, HM.steps]
  cases h.cell a <;> simp

theorem cloneEntry_cost (a : Addr) : Cost Z K 0 (cloneEntry a : HM α _) K fun _ => True := by
  refine ⟨fun h r h' t e => ?_⟩
  obtain ⟨c, hc, rfl⟩ := cloneEntry_inv e
  exact ⟨t.put fun c' hc' ha => by cases hc'; exact t.fits a c ha hc, by rw [put_length]; omega, trivial⟩

theorem cloneEntries_steps : ∀ (as : List Addr), Steps Z K as.length (cloneEntries as : HM α _)
  | [] => Steps.pure
  | a :: as => Steps.bind (cloneEntry_steps a) (cloneEntry_cost a) (by simp) fun _ _ =>
      (cloneEntries_steps as).mono (by simp)

theorem BodyOk.kids {b : Body α Addr} (h : BodyOk Z K b) : b.kids.length ≤ 64 := by
  cases b with
  | leaf b => exact Nat.zero_le _
  | internal s t c => exact (List.length_filterMap_le _ _).trans h.2.size

/-- To ask for the count, to read the node, to clone its entries, to make the copy and to drop the old entry. -/
theorem loadMut_steps {a : Addr} (ha : Z.has a) : Steps Z K 68 (loadMut a : HM α _) := by
  unfold loadMut
  refine Steps.read (isOne_steps a) ⟨fun _ _ _ e => (isOne_inv e).1⟩ (by omega) fun b => ?_
  refine Steps.ite (fun _ => Steps.pure) fun _ => ?_
  refine Steps.bind (load_steps a) (load_cost ha) (by omega) fun n hn => ?_
  refine Steps.bind ((cloneEntries_steps _).mono hn.kids) (cloneEntries_cost _) (by omega) fun _ _ => ?_
  refine Steps.bind (alloc_steps n) (alloc_cost hn) (by omega) fun b hb => ?_
  refine Steps.bind (dropEntry_steps a) (dropEntry_cost a) (by omega) fun _ _ => ?_
  exact Steps.pure

theorem borrow_steps {a : Addr} (ha : Z.has a) : Steps Z K 69 (borrow a : HM α _) := by
  refine Steps.bind (loadMut_steps ha) (loadMut_cost ha) (by omega) fun b hb => ?_
  refine Steps.bind (poke_steps b _) (poke_cost hb fun _ _ => .emptyLeaf) (by omega) fun n hn => ?_
  exact Steps.pure

theorem giveBack_steps (a : Addr) {n : Body α Addr} (hn : BodyOk Z K n) : Steps Z K 1 (giveBack a n) := by
  refine ⟨fun h t => ?_⟩
  show (poke a (fun _ => n) >>= _).steps h ≤ 1
  rw [HM.steps_bind]
  have := (poke_steps (Z := Z) (K := K) a fun _ => n).le h t
  cases (poke a fun _ => n : HM α _) h with
  | error f => simpa using this
  | ok q => simpa [pure, HM.steps] using this

/-- Calls that take one step, to read. -/
syntax "one_step" : tactic
macro_rules | `(tactic| one_step) => `(tactic| with_reducible exact load_steps _)

/-- A call that only reads, in one step, and goes on. -/
macro "read1" : tactic => `(tactic| with_reducible refine Steps.read (N1 := 1) (by one_step) (by still_step) (by omega) fun _ => ?_)

theorem Steps.load_pure {f : Body α Addr → γ} {a : Addr} : Steps Z K 1 (load a >>= fun n => (Pure.pure (f n) : HM α γ)) :=
  Steps.read (load_steps a) (load_still a) (Nat.le_refl _) fun _ => Steps.pure

theorem Steps.load_lift {f : Body α Addr → M γ} {a : Addr} : Steps Z K 1 (load a >>= fun n => (liftM (f n) : HM α γ)) :=
  Steps.read (load_steps a) (load_still a) (Nat.le_refl _) fun _ => Steps.lift'

theorem Steps.and_pure {x : HM α γ} {f : γ → δ} (s : Steps Z K N x) : Steps Z K N (x >>= fun n => (Pure.pure (f n) : HM α δ)) := by
  refine ⟨fun h t => ?_⟩
  rw [HM.steps_bind]
  have := s.le h t
  cases x h with
  | error f => simpa using this
  | ok q => simpa [Pure.pure, HM.steps] using this

namespace Entry

theorem len_steps (a : Addr) : Steps Z K 1 (len a : HM α _) := Steps.load_lift
macro_rules | `(tactic| one_step) => `(tactic| with_reducible exact Entry.len_steps _)
theorem slots_steps (a : Addr) : Steps Z K 1 (slots a : HM α _) := Steps.load_pure
macro_rules | `(tactic| one_step) => `(tactic| with_reducible exact Entry.slots_steps _)
theorem isEmpty_steps (a : Addr) : Steps Z K 1 (isEmpty a : HM α _) := (len_steps a).and_pure
macro_rules | `(tactic| one_step) => `(tactic| with_reducible exact Entry.isEmpty_steps _)
theorem freeSlots_steps (a : Addr) : Steps Z K 1 (freeSlots a : HM α _) := Steps.load_lift
macro_rules | `(tactic| one_step) => `(tactic| with_reducible exact Entry.freeSlots_steps _)
theorem isFull_steps (a : Addr) : Steps Z K 1 (isFull a : HM α _) := (freeSlots_steps a).and_pure
macro_rules | `(tactic| one_step) => `(tactic| with_reducible exact Entry.isFull_steps _)
theorem level_steps (a : Addr) : Steps Z K 1 (level a : HM α _) := Steps.load_pure
macro_rules | `(tactic| one_step) => `(tactic| with_reducible exact Entry.level_steps _)
theorem isLeaf_steps (a : Addr) : Steps Z K 1 (isLeaf a : HM α _) := (level_steps a).and_pure
macro_rules | `(tactic| one_step) => `(tactic| with_reducible exact Entry.isLeaf_steps _)
theorem leafFreeSpace_steps (a : Addr) : Steps Z K 1 (leafFreeSpace a : HM α _) := Steps.load_lift
macro_rules | `(tactic| one_step) => `(tactic| with_reducible exact Entry.leafFreeSpace_steps _)

theorem newEmpty_steps (a : Addr) : Steps Z K 2 (newEmpty a : HM α _) := by
  unfold newEmpty
  read1
  exact (alloc_steps _).mono (by omega)

theorem emptyInternal_steps (l : Nat) : Steps Z K 1 (emptyInternal l : HM α _) :=
  Steps.lift fun b _ => alloc_steps b

theorem share_steps {a b : Addr} (ha : Z.has a) (hb : Z.has b) (s : Side) (n : Nat) : Steps Z K 140 (share a b s n : HM α _) := by
  refine Steps.bind (borrow_steps hb) (borrow_cost hb) (by omega) fun d hd => ?_
  refine Steps.bind (borrow_steps ha) (borrow_cost ha) (by omega) fun c hc => ?_
  refine Steps.lift fun r e => ?_
  obtain ⟨h1, h2⟩ := BodyOk.share hc.2 hd.2 e
  refine Steps.bind (giveBack_steps _ h1) (giveBack_cost h1) (by omega) fun _ _ => ?_
  refine Steps.bind (giveBack_steps _ h2) (giveBack_cost h2) (by omega) fun _ _ => ?_
  exact Steps.pure

theorem popChild_steps {a : Addr} (ha : Z.has a) (s : Side) : Steps Z K 70 (popChild a s : HM α _) := by
  refine Steps.bind (borrow_steps ha) (borrow_cost ha) (by omega) fun c hc => ?_
  refine Steps.lift fun r e => ?_
  obtain ⟨h1, h2, -⟩ := hc.2.popChild e
  refine Steps.bind (giveBack_steps _ h2) (giveBack_cost h2) (by omega) fun _ _ => ?_
  exact Steps.pure

theorem pushChild_steps {a k : Addr} (ha : Z.has a) (hk : Z.has k) (s : Side) : Steps Z K 71 (pushChild a s k : HM α _) := by
  refine Steps.bind (borrow_steps ha) (borrow_cost ha) (by omega) fun c hc => ?_
  read1
  refine Steps.lift fun r e => ?_
  refine Steps.bind (giveBack_steps _ (hc.2.pushChild hk e)) (giveBack_cost (hc.2.pushChild hk e)) (by omega) fun _ _ => ?_
  exact Steps.pure

theorem leafPush_steps {a : Addr} (ha : Z.has a) (s : Side) (x : α) : Steps Z K 70 (leafPush a s x) := by
  refine Steps.bind (borrow_steps ha) (borrow_cost ha) (by omega) fun c hc => ?_
  refine Steps.lift fun r e => ?_
  refine Steps.bind (giveBack_steps _ (hc.2.leafPush e)) (giveBack_cost (hc.2.leafPush e)) (by omega) fun _ _ => ?_
  exact Steps.pure

theorem leafPop_steps {a : Addr} (ha : Z.has a) (s : Side) : Steps Z K 70 (leafPop a s : HM α _) := by
  refine Steps.bind (borrow_steps ha) (borrow_cost ha) (by omega) fun c hc => ?_
  refine Steps.lift fun r e => ?_
  refine Steps.bind (giveBack_steps _ (hc.2.leafPop e)) (giveBack_cost (hc.2.leafPop e)) (by omega) fun _ _ => ?_
  exact Steps.pure

theorem packLoop_steps : ∀ (fuel w r : Nat) {c : CB Addr}, RingOk Z.has c → Steps Z K (142 * fuel) (packLoop fuel w r c : HM α _)
  | 0, w, r, c, hc => by
    unfold packLoop
    split
    · exact Steps.throw
    · exact Steps.pure
  | fuel + 1, w, r, c, hc => by
    unfold packLoop
    split
    · split
      · exact (packLoop_steps fuel _ _ hc).mono (by omega)
      · refine Steps.lift fun p _ => ?_
        refine Steps.lift fun x ex => ?_
        refine Steps.lift fun y ey => ?_
        have hx := hc.mem _ (RingOk.readSlot_mem ex)
        have hy := hc.mem _ (RingOk.readSlot_mem ey)
        refine Steps.bind (share_steps hy hx _ _) (share_cost hy hx _ _) (by omega) fun q hq => ?_
        refine Steps.lift fun d1 e1 => ?_
        refine Steps.lift fun d2 e2 => ?_
        read1
        read1
        exact (packLoop_steps fuel _ _ ((hc.assign hq.2 e1).assign hq.1 e2)).mono (by omega)
    · exact Steps.pure

theorem packTrim_steps : ∀ (fuel : Nat) {c : CB Addr}, RingOk Z.has c → Steps Z K (2 * fuel) (packTrim fuel c : HM α _)
  | 0, c, hc => Steps.throw
  | fuel + 1, c, hc => by
    unfold packTrim
    refine Steps.lift fun o _ => ?_
    refine Steps.lift fun x _ => ?_
    read1
    split
    · refine Steps.lift fun q e => ?_
      refine Steps.bind (dropEntry_steps _) (dropEntry_cost _) (by omega) fun _ _ => ?_
      exact (packTrim_steps fuel (hc.pop (s := .back) e).2.1).mono (by omega)
    · exact Steps.pure

theorem packSizes_steps (c : CB Addr) : ∀ (fuel : Nat) (it : CB.Iter) (s : SizeTable), Steps Z K fuel (packSizes c fuel it s : HM α _)
  | 0, _, _ => Steps.throw
  | fuel + 1, it, s => by
    unfold packSizes
    refine Steps.lift fun r _ => ?_
    obtain ⟨o, it'⟩ := r
    cases o with
    | none => exact Steps.pure
    | some a =>
      dsimp only
      read1
      refine Steps.lift fun s' _ => ?_
      exact (packSizes_steps c fuel _ _).mono (by omega)

/-- To borrow the node, twice as many rounds of the packing as it has children, and three looks at each child. -/
theorem packChildren_steps {a : Addr} (ha : Z.has a) : Steps Z K 18442 (packChildren a : HM α _) := by
  refine Steps.bind (borrow_steps ha) (borrow_cost ha) (by omega) fun b hb => ?_
  obtain ⟨b1, b2⟩ := b
  cases b2 with
  | leaf l => exact Steps.throw
  | internal s t c =>
    have hc : s.level ≤ K ∧ RingOk Z.has c := hb.2
    have hl := hc.2.len
    dsimp only
    refine Steps.lift fun n _ => ?_
    split
    · refine Steps.bind (giveBack_steps _ hb.2) (giveBack_cost hb.2) (by omega) fun _ _ => ?_
      exact Steps.pure
    · refine Steps.lift fun _ _ => ?_
      refine Steps.lift fun _ _ => ?_
      refine Steps.bind ((packLoop_steps (2 * c.len) _ _ hc.2).mono (N' := 18176) (by omega)) (packLoop_cost _ _ _ hc.2) (by omega)
        fun c1 h1 => ?_
      have hl1 := h1.len
      refine Steps.bind ((packTrim_steps (c1.len + 1) h1).mono (N' := 130) (by omega)) (packTrim_cost _ h1) (by omega) fun c2 h2 => ?_
      have hl2 := h2.len
      refine Steps.bind ((packSizes_steps c2 (c2.len + 1) c2.iter (SizeTable.new s.level)).mono (N' := 65) (by omega)) (N0 := 0) (K1 := K)
        (Q := fun s' => s'.level = s.level) ?_ (by omega) fun s' hs => ?_
      · refine ⟨fun h r h' t e => ?_⟩
        cases (packSizes_still _ _ _ _).run _ _ _ e
        exact ⟨t, by omega, (packSizes_level _ _ _ _ e).trans rfl⟩
      · refine Steps.lift fun _ _ => ?_
        refine Steps.lift fun _ _ => ?_
        have hg : BodyOk Z K (.internal s' t c2 : Body α Addr) := ⟨hs.trans_le hc.1, h2⟩
        refine Steps.bind (giveBack_steps _ hg) (giveBack_cost hg) (by omega) fun _ _ => ?_
        exact Steps.pure

theorem getAux_steps : ∀ (fuel : Nat) (a : Addr) (i : Nat), Steps Z K fuel (getAux fuel a i : HM α _)
  | 0, _, _ => Steps.throw
  | fuel + 1, a, i => by
    unfold getAux
    read1
    split
    · exact Steps.lift'
    · refine Steps.lift fun p _ => ?_
      split
      · refine Steps.lift fun o _ => ?_
        refine Steps.lift fun k _ => ?_
        exact (getAux_steps fuel _ _).mono (by omega)
      · exact Steps.pure

theorem get_steps {a : Addr} (ha : Z.has a) (i : Nat) : Steps Z K (K + 2) (get a i : HM α _) :=
  Steps.bind (level_steps a) (level_cost ha) (by omega) fun l hl => (getAux_steps (l + 1) a i).mono (by omega)

theorem setAux_steps (x : α) : ∀ (fuel : Nat) {a : Addr} (i : Nat), Z.has a → Steps Z K (70 * fuel) (setAux fuel a i x)
  | 0, _, _, _ => Steps.throw
  | fuel + 1, a, i, ha => by
    unfold setAux
    refine Steps.bind (borrow_steps ha) (borrow_cost ha) (by omega) fun b hb => ?_
    obtain ⟨b1, b2⟩ := b
    cases b2 with
    | leaf l =>
      dsimp only
      refine Steps.lift fun r e => ?_
      have hr : BodyOk Z K (.leaf (r.getD l) : Body α Addr) := by
        cases r with
        | none => exact hb.2
        | some r => exact RingOk.set hb.2 trivial e
      refine Steps.bind (giveBack_steps _ hr) (giveBack_cost hr) (by omega) fun _ _ => ?_
      exact Steps.pure
    | internal s t c =>
      have hc : s.level ≤ K ∧ RingOk Z.has c := hb.2
      dsimp only
      refine Steps.lift fun p _ => ?_
      split
      · refine Steps.lift fun o eo => ?_
        refine Steps.lift fun k ek => ?_
        cases unwrap_inv ek
        refine Steps.bind (setAux_steps x fuel _ (hc.2.get eo)) (setAux_cost x fuel _ (hc.2.get eo)) (by omega) fun r hr => ?_
        refine Steps.lift fun o' eo' => ?_
        refine Steps.lift fun c' ek' => ?_
        cases unwrap_inv ek'
        have hg : BodyOk Z K (.internal s t c' : Body α Addr) := ⟨hc.1, hc.2.set hr eo'⟩
        refine Steps.bind (giveBack_steps _ hg) (giveBack_cost hg) (by omega) fun _ _ => ?_
        exact Steps.pure
      · refine Steps.bind (giveBack_steps _ hb.2) (giveBack_cost hb.2) (by omega) fun _ _ => ?_
        exact Steps.pure

theorem set_steps {a : Addr} (ha : Z.has a) (i : Nat) (x : α) : Steps Z K (70 * K + 71) (set a i x) :=
  Steps.bind (level_steps a) (level_cost ha) (by omega) fun l hl => (setAux_steps x (l + 1) i ha).mono (by omega)

end Entry
end Librrb
