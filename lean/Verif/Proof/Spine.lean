import Verif.Model.Vector
import Verif.Proof.Node2

/-! # Spines and the invariant of a vector -/
namespace Librrb

/-! ### Algebra of `Side.add` -/

theorem Side.add_assoc (s : Side) (a b c : List α) : s.add (s.add a b) c = s.add a (s.add b c) := by
  cases s <;> simp [Side.add]

theorem Side.negate_add (s : Side) (a b : List α) : s.negate.add a b = s.add b a := by
  cases s <;> rfl

theorem Side.add_eq_nil (s : Side) {a b : List α} : s.add a b = [] ↔ a = [] ∧ b = [] := by
  cases s <;> simp [Side.add, and_comm]

theorem Side.cons_add (s : Side) (x : α) (a b : List α) : s.add (s.cons x a) b = s.cons x (s.add a b) := by
  cases s <;> simp [Side.add, Side.cons]

theorem Side.forall (s : Side) {P : Side → Prop} : (∀ t, P t) ↔ P s ∧ P s.negate := by
  constructor
  · intro h; exact ⟨h _, h _⟩
  · rintro ⟨h1, h2⟩ t
    cases s <;> cases t <;> assumption

/-- The items of a spine of the given side, in sequence order. -/
def spineList (side : Side) : List (Node α) → List α
  | [] => []
  | x :: xs => side.add x.toList (spineList side xs)

@[simp] theorem spineList_nil (s : Side) : spineList s ([] : List (Node α)) = [] := rfl
@[simp] theorem spineList_cons (s : Side) (x : Node α) (xs : List (Node α)) :
    spineList s (x :: xs) = s.add x.toList (spineList s xs) := rfl

theorem spineList_append (s : Side) (xs ys : List (Node α)) :
    spineList s (xs ++ ys) = s.add (spineList s xs) (spineList s ys) := by
  induction xs with
  | nil => simp
  | cons x xs ih => simp [ih, Side.add_assoc]

theorem spineList_front (xs : List (Node α)) : spineList .front xs = xs.flatMap Node.toList := by
  induction xs with
  | nil => rfl
  | cons x xs ih => simp [ih, Side.add]

theorem spineList_back (xs : List (Node α)) :
    spineList .back xs = xs.reverse.flatMap Node.toList := by
  induction xs with
  | nil => rfl
  | cons x xs ih => simp [ih, Side.add]

theorem spineList_length (s t : Side) (xs : List (Node α)) :
    (spineList s xs).length = (spineList t xs).length := by
  induction xs with
  | nil => rfl
  | cons x xs ih => simp [ih]

theorem spineList_eq_nil (s : Side) {xs : List (Node α)} :
    spineList s xs = [] ↔ ∀ x ∈ xs, x.toList = [] := by
  induction xs with
  | nil => simp
  | cons x xs ih => simp [Side.add_eq_nil, ih]

/-- A spine whose first node has level `n`: well-formed, and a free slot in every node above the
leaves. -/
def Spine : Nat → List (Node α) → Prop
  | _, [] => True
  | n, x :: xs => x.Wf n ∧ (n ≠ 0 → x.slots ≤ 63) ∧ Spine (n + 1) xs

@[simp] theorem spine_nil (n : Nat) : Spine n ([] : List (Node α)) := trivial
@[simp] theorem spine_cons (n : Nat) (x : Node α) (xs : List (Node α)) :
    Spine n (x :: xs) ↔ x.Wf n ∧ (n ≠ 0 → x.slots ≤ 63) ∧ Spine (n + 1) xs := Iff.rfl

theorem spine_append {n : Nat} {xs ys : List (Node α)} :
    Spine n (xs ++ ys) ↔ Spine n xs ∧ Spine (n + xs.length) ys := by
  induction xs generalizing n with
  | nil => simp
  | cons x xs ih =>
    simp only [List.cons_append, spine_cons, ih, List.length_cons]
    rw [show n + 1 + xs.length = n + (xs.length + 1) by omega]
    tauto

theorem Spine.getElem {n : Nat} {xs : List (Node α)} (h : Spine n xs) {i : Nat} (hi : i < xs.length) :
    (xs[i]).Wf (n + i) ∧ (n + i ≠ 0 → (xs[i]).slots ≤ 63) := by
  induction xs generalizing n i with
  | nil => simp at hi
  | cons x xs ih =>
    cases i with
    | zero => exact ⟨h.1, h.2.1⟩
    | succ i =>
      have := ih h.2.2 (i := i) (by simpa using hi)
      rw [show n + 1 + i = n + (i + 1) by omega] at this
      simpa using this

/-- The leaf at the end of a spine, if there is one, holds at least one item. -/
def HeadOk (xs : List (Node α)) : Prop := ∀ x ∈ xs.head?, x.slots ≠ 0

@[simp] theorem headOk_nil : HeadOk ([] : List (Node α)) := by simp [HeadOk]
@[simp] theorem headOk_cons (x : Node α) (xs : List (Node α)) : HeadOk (x :: xs) ↔ x.slots ≠ 0 := by
  simp [HeadOk]

namespace RVec

@[simp] theorem spine_front (v : RVec α) : v.spine .front = v.left := rfl
@[simp] theorem spine_back (v : RVec α) : v.spine .back = v.right := rfl
@[simp] theorem withSpine_same (v : RVec α) (s : Side) (sp) : (v.withSpine s sp).spine s = sp := by
  cases s <;> rfl
@[simp] theorem withSpine_other (v : RVec α) (s : Side) (sp) :
    (v.withSpine s sp).spine s.negate = v.spine s.negate := by cases s <;> rfl
@[simp] theorem withSpine_other' (v : RVec α) (s : Side) (sp) :
    (v.withSpine s.negate sp).spine s = v.spine s := by cases s <;> rfl
@[simp] theorem withSpine_root (v : RVec α) (s : Side) (sp) : (v.withSpine s sp).root = v.root := by
  cases s <;> rfl
@[simp] theorem withSpine_len (v : RVec α) (s : Side) (sp) : (v.withSpine s sp).len = v.len := by
  cases s <;> rfl
@[simp] theorem setRoot_spine (v : RVec α) (s : Side) (r) : ({ v with root := r }).spine s = v.spine s := by
  cases s <;> rfl
@[simp] theorem setLen_spine (v : RVec α) (s : Side) (n) : ({ v with len := n }).spine s = v.spine s := by
  cases s <;> rfl

theorem toList_eq (v : RVec α) (s : Side) :
    v.toList = s.add (spineList s (v.spine s))
      (s.add v.root.toList (spineList s.negate (v.spine s.negate))) := by
  cases s <;> simp [toList, Side.add, spineList_front, spineList_back]

/-- Everything but the invariants 3, 5 and 7 of `assert_invariants`: a vector of height `h`. -/
structure Core (v : RVec α) (h : Nat) : Prop where
  length : ∀ s, (v.spine s).length = h
  spine : ∀ s, Spine 0 (v.spine s)
  root : v.root.Wf h
  room : h ≠ 0 → v.root.slots ≤ 62

/-- Least number of slots in the two top spine nodes below an empty root of level `h`. -/
def minTop (h : Nat) : Nat := if h = 1 then 64 else 62

/-- Invariant 5: below an empty root the two top spine nodes are balanced and full enough. -/
def Top (v : RVec α) (h : Nat) : Prop :=
  h ≠ 0 → v.root.slots = 0 → ∀ s a b, (v.spine s).getLast? = some a →
    (v.spine s.negate).getLast? = some b → a.slots ≤ b.slots + 1 ∧ minTop h ≤ a.slots + b.slots

/-- The invariant of a vector of height `h`. -/
structure InvH (v : RVec α) (h : Nat) : Prop extends Core v h where
  head : ∀ s, HeadOk (v.spine s)
  top : Top v h
  len : v.len = v.toList.length
  lt : v.len < USIZE_LIMIT

/-- The invariant of a vector. -/
def Inv (v : RVec α) : Prop := ∃ h, InvH v h

/-! ### fixup_spine_tops -/

theorem Core.tops {v : RVec α} {h : Nat} (c : Core v (h + 1)) (s : Side) :
    ∃ sp t, v.spine s = sp ++ [t] ∧ sp.length = h ∧ Spine 0 sp ∧ t.Wf h ∧ (h ≠ 0 → t.slots ≤ 63) := by
  have hl := c.length s
  rcases List.eq_nil_or_concat (v.spine s) with e | ⟨sp, t, e⟩
  · rw [e] at hl; simp at hl
  · rw [List.concat_eq_append] at e
    rw [e] at hl
    have := c.spine s
    rw [e, spine_append] at this
    simp at hl
    rw [hl] at this
    simp at this
    exact ⟨sp, t, e, hl, this.1, this.2⟩

theorem headOk_append {xs : List (Node α)} {t t' : Node α} (h : HeadOk (xs ++ [t]))
    (h' : xs = [] → t'.slots ≠ 0) : HeadOk (xs ++ [t']) := by
  cases xs with
  | nil => simpa using h'
  | cons x xs => simpa using h

/-- The balancing branch: there are enough slots, so the height stays. -/
theorem fixup_balance {v : RVec α} {h : Nat} (c : Core v (h + 1)) (hr : v.root.slots = 0)
    (hmin : ∀ a b, v.left.getLast? = some a → v.right.getLast? = some b →
      minTop (h + 1) ≤ a.slots + b.slots) :
    ∃ v', v.fixupSpineTops = .ok v' ∧ Core v' (h + 1) ∧ Top v' (h + 1) ∧ v'.toList = v.toList ∧
      v'.len = v.len ∧ v'.root = v.root ∧ (h = 0 → ∀ s, HeadOk (v'.spine s)) ∧
      (h ≠ 0 → ∀ s, (v'.spine s).head? = (v.spine s).head?) := by
  obtain ⟨L, l, eL, hL, sL, wl, rl⟩ := c.tops .front
  obtain ⟨R, r, eR, hR, sR, wr, rr⟩ := c.tops .back
  simp only [spine_front, spine_back] at eL eR
  have hmin' := hmin l r (by simp [eL]) (by simp [eR])
  have hlv := c.root.level
  have hlf : v.root.isLeaf = false := by rw [c.root.isLeaf]; simp
  have hl64 := wl.slots_le
  have hr64 := wr.slots_le
  have hmt : (if (v.root.level == 1) = true then 64 else 64 - 2) = minTop (h + 1) := by
    rw [hlv]; simp [minTop]
  have hm62 : 62 ≤ minTop (h + 1) := by unfold minTop; split <;> omega
  have htop : ∀ {L' R' : List (Node α)} {a b : Node α} {root' : Node α} {n : Nat},
      a.slots ≤ b.slots + 1 → b.slots ≤ a.slots + 1 → minTop (h + 1) ≤ a.slots + b.slots →
      Top (⟨L' ++ [a], R' ++ [b], root', n⟩ : RVec α) (h + 1) := by
    intro L' R' a b root' n h1 h2 h3 _ _ s x y
    cases s
    · simp; rintro rfl rfl; exact ⟨h1, h3⟩
    · simp; rintro rfl rfl; exact ⟨h2, by omega⟩
  have hcore : ∀ {a b : Node α} {n : Nat}, a.Wf h → b.Wf h → (h ≠ 0 → a.slots ≤ 63) →
      (h ≠ 0 → b.slots ≤ 63) → Core (⟨L ++ [a], R ++ [b], v.root, n⟩ : RVec α) (h + 1) := by
    intro a b n h1 h2 h3 h4
    refine ⟨?_, ?_, c.root, c.room⟩
    · rw [Side.forall .front]; simp [hL, hR]
    · rw [Side.forall .front]; simp [spine_append, hL, hR, sL, sR, h1, h2]; exact ⟨h3, h4⟩
  have hhead : ∀ {a b : Node α} {n : Nat}, h ≠ 0 → ∀ s,
      ((⟨L ++ [a], R ++ [b], v.root, n⟩ : RVec α).spine s).head? = (v.spine s).head? := by
    intro a b n h0
    rw [Side.forall .front]
    simp only [spine_front, spine_back, Side.negate_front, eL, eR]
    cases L with
    | nil => simp at hL; omega
    | cons x L => cases R with
      | nil => simp at hR; omega
      | cons y R => simp
  have hhead0 : ∀ {a b : Node α} {n : Nat}, h = 0 → a.slots ≠ 0 → b.slots ≠ 0 → ∀ s,
      HeadOk ((⟨L ++ [a], R ++ [b], v.root, n⟩ : RVec α).spine s) := by
    intro a b n h0 h1 h2
    have : L = [] := List.eq_nil_of_length_eq_zero (by omega)
    subst this
    have : R = [] := List.eq_nil_of_length_eq_zero (by omega)
    subst this
    rw [Side.forall .front]; simp [h1, h2]
  have hstep : ∀ {v' : RVec α}, v.fixupStep = .ok (v', false) → v.fixupSpineTops = .ok v' := by
    intro v' e
    simp [fixupSpineTops, fixupLoop, hr, hlf, e]
  have hdl : v.left.dropLast = L := by simp [eL]
  have hdr : v.right.dropLast = R := by simp [eR]
  have hvt : v.toList = (L ++ [l]).flatMap Node.toList ++ v.root.toList ++
      (R ++ [r]).reverse.flatMap Node.toList := by rw [toList, eL, eR]
  have hv : v = ⟨L ++ [l], R ++ [r], v.root, v.len⟩ := by rw [← eL, ← eR]
  have hre : v.root.toList = [] := c.root.slots_eq_zero.1 hr
  by_cases hd : 2 ≤ (if l.slots > r.slots then l.slots - r.slots else r.slots - l.slots)
  · by_cases hgt : l.slots > r.slots
    · rw [if_pos hgt] at hd
      obtain ⟨k, l', r', e, wl', wr', hk, sl', sr', mv, q1, q2⟩ :=
        Node.share_ok wl wr .back ((l.slots - r.slots) / 2)
      have hk' : k = (l.slots - r.slots) / 2 := by omega
      refine ⟨⟨L ++ [l'], R ++ [r'], v.root, v.len⟩, hstep ?_,
        hcore wl' wr' (fun h0 => by have := rl h0; omega) (fun h0 => by have := rl h0; omega),
        htop (by omega) (by omega) (by omega), ?_, rfl, rfl,
        fun h0 => hhead0 h0 (by omega) (by omega), hhead⟩
      · unfold fixupStep
        simp only [eL, eR, List.getLast?_concat, unwrap_some, ok_bind]
        rw [hmt, if_neg (by omega), if_pos hgt, if_pos hd, if_pos hgt, e]
        simp
      · rw [hvt]; simp [toList, q1, q2, Side.add, hre]
    · rw [if_neg hgt] at hd
      obtain ⟨k, r', l', e, wr', wl', hk, sr', sl', mv, q1, q2⟩ :=
        Node.share_ok wr wl .front ((r.slots - l.slots) / 2)
      have hk' : k = (r.slots - l.slots) / 2 := by omega
      refine ⟨⟨L ++ [l'], R ++ [r'], v.root, v.len⟩, hstep ?_,
        hcore wl' wr' (fun h0 => by have := rr h0; omega) (fun h0 => by have := rr h0; omega),
        htop (by omega) (by omega) (by omega), ?_, rfl, rfl,
        fun h0 => hhead0 h0 (by omega) (by omega), hhead⟩
      · unfold fixupStep
        simp only [eL, eR, List.getLast?_concat, unwrap_some, ok_bind]
        rw [hmt, if_neg (by omega), if_neg hgt, if_pos hd, if_neg hgt, e]
        simp
      · rw [hvt]; simp [toList, q1, q2, Side.add, hre]
  · refine ⟨v, hstep ?_, c, ?_, rfl, rfl, rfl, ?_, fun _ _ => rfl⟩
    · unfold fixupStep
      simp only [eL, eR, List.getLast?_concat, unwrap_some, ok_bind]
      rw [hmt, if_neg (by omega), if_neg hd]
    · rw [hv]
      split at hd <;> exact htop (by omega) (by omega) (by omega)
    · intro h0
      rw [hv]
      split at hd <;> exact hhead0 h0 (by unfold minTop at hmin'; rw [if_pos (by omega)] at hmin'; omega)
        (by unfold minTop at hmin'; rw [if_pos (by omega)] at hmin'; omega)

theorem fixupLoop_ok : ∀ (h fuel : Nat) {v : RVec α}, h < fuel → Core v h →
    (∀ s, HeadOk (v.spine s)) →
    ∃ v' h', fixupLoop fuel v = .ok v' ∧ h' ≤ h ∧ Core v' h' ∧ Top v' h' ∧
      (∀ s, HeadOk (v'.spine s)) ∧ v'.toList = v.toList ∧ v'.len = v.len := by
  intro h
  induction h with
  | zero =>
    intro fuel v hf c hh
    obtain ⟨fuel, rfl⟩ : ∃ k, fuel = k + 1 := ⟨fuel - 1, by omega⟩
    refine ⟨v, 0, ?_, Nat.le_refl _, c, fun h => absurd rfl h, hh, rfl, rfl⟩
    have : v.root.isLeaf = true := by rw [c.root.isLeaf]; simp
    simp [fixupLoop, this]
  | succ h ih =>
    intro fuel v hf c hh
    obtain ⟨fuel, rfl⟩ : ∃ k, fuel = k + 1 := ⟨fuel - 1, by omega⟩
    by_cases hr : v.root.slots = 0
    · obtain ⟨L, l, eL, hL, sL, wl, rl⟩ := c.tops .front
      obtain ⟨R, r, eR, hR, sR, wr, rr⟩ := c.tops .back
      simp only [spine_front, spine_back] at eL eR
      have hlv := c.root.level
      have hlf : v.root.isLeaf = false := by rw [c.root.isLeaf]; simp
      have hl64 := wl.slots_le
      have hr64 := wr.slots_le
      have hmt : (if (v.root.level == 1) = true then 64 else 64 - 2) = minTop (h + 1) := by
        rw [hlv]; simp [minTop]
      by_cases hlt : l.slots + r.slots < minTop (h + 1)
      · have hm64 : minTop (h + 1) ≤ 64 := by unfold minTop; split <;> omega
        obtain ⟨k, l', r', e, wl', wr', hk, sl', sr', mv, q1, q2⟩ := Node.share_ok wl wr .back 64
        have hk' : k = l.slots := by omega
        have hl' : l'.toList = [] := wl'.slots_eq_zero.1 (by omega)
        have hre : v.root.toList = [] := c.root.slots_eq_zero.1 hr
        have c' : Core (⟨L, R, r', v.len⟩ : RVec α) h := by
          refine ⟨?_, ?_, wr', ?_⟩
          · rw [Side.forall .front]; simp [hL, hR]
          · rw [Side.forall .front]; exact ⟨sL, sR⟩
          · intro h0
            unfold minTop at hlt
            rw [if_neg (by omega)] at hlt
            show r'.slots ≤ 62
            omega
        have hh' : ∀ s, HeadOk ((⟨L, R, r', v.len⟩ : RVec α).spine s) := by
          rw [Side.forall .front]
          have h1 := hh .front
          have h2 := hh .back
          simp only [spine_front, spine_back, eL, eR] at h1 h2
          constructor
          · show HeadOk L
            cases L with
            | nil => simp
            | cons x L => simpa using h1
          · show HeadOk R
            cases R with
            | nil => simp
            | cons x R => simpa using h2
        obtain ⟨v', h', e', r1, r2, r3, r4, r5, r6⟩ := ih fuel (by omega) c' hh'
        refine ⟨v', h', ?_, by omega, r2, r3, r4, ?_, r6⟩
        · have : v.fixupStep = .ok (⟨L, R, r', v.len⟩, true) := by
            unfold fixupStep
            simp only [eL, eR, List.getLast?_concat, unwrap_some, ok_bind]
            rw [hmt, if_pos hlt, e]
            simp
          simp [fixupLoop, hr, hlf, this, e']
        · rw [r5]
          simp [toList, eL, eR, q1, q2, Side.add, hre, hl']
      · obtain ⟨v', e, r1, r2, r3, r4, r5, r6, r7⟩ := fixup_balance c hr (by
          intro a b ha hb
          simp [eL, eR] at ha hb
          subst ha hb
          omega)
        refine ⟨v', h + 1, ?_, Nat.le_refl _, r1, r2, ?_, r3, r4⟩
        · rw [← e]
          unfold fixupSpineTops
          simp only [fixupLoop, hr, hlf]
          simp only [beq_self_eq_true, Bool.not_false, Bool.and_self, if_true]
          have hb : ∃ x, v.fixupStep = .ok (x, false) := by
            unfold fixupStep
            simp only [eL, eR, List.getLast?_concat, unwrap_some, ok_bind]
            rw [hmt, if_neg hlt]
            obtain ⟨k, l', r', e, _⟩ := Node.share_ok wl wr .back ((l.slots - r.slots) / 2)
            obtain ⟨k, l', r', e', _⟩ := Node.share_ok wr wl .front ((r.slots - l.slots) / 2)
            by_cases hgt : l.slots > r.slots
            · simp only [if_pos hgt, e, ok_bind]
              split <;> exact ⟨_, rfl⟩
            · simp only [if_neg hgt, e', ok_bind]
              split <;> exact ⟨_, rfl⟩
          obtain ⟨x, hx⟩ := hb
          simp [hx]
        · by_cases h0 : h = 0
          · exact r6 h0
          · intro s x hx
            rw [r7 h0 s] at hx
            exact hh s x hx
    · refine ⟨v, h + 1, ?_, Nat.le_refl _, c, fun _ e => absurd e hr, hh, rfl, rfl⟩
      simp [fixupLoop, hr]

theorem fixup_ok {v : RVec α} {h : Nat} (c : Core v h) (hh : ∀ s, HeadOk (v.spine s)) :
    ∃ v' h', v.fixupSpineTops = .ok v' ∧ h' ≤ h ∧ Core v' h' ∧ Top v' h' ∧
      (∀ s, HeadOk (v'.spine s)) ∧ v'.toList = v.toList ∧ v'.len = v.len := by
  have := c.length .front
  exact fixupLoop_ok h _ (by simp at this; omega) c hh

/-- With the bookkeeping of the length: the repaired vector satisfies the invariant. -/
theorem fixup_inv {v : RVec α} {h : Nat} (c : Core v h) (hh : ∀ s, HeadOk (v.spine s))
    (hl : v.len = v.toList.length) (hlt : v.len < USIZE_LIMIT) :
    ∃ v' h', v.fixupSpineTops = .ok v' ∧ h' ≤ h ∧ InvH v' h' ∧ v'.toList = v.toList := by
  obtain ⟨v', h', e, r1, r2, r3, r4, r5, r6⟩ := fixup_ok c hh
  exact ⟨v', h', e, r1, { r2 with head := r4, top := r3, len := by rw [r6, r5, hl], lt := by rw [r6]; exact hlt }, r5⟩

end RVec
end Librrb
