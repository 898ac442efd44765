import Verif.Model.Focus
import Verif.Proof.CircularIter
import Verif.Proof.Built

/-! # The shared focus reads the sequence -/
namespace Librrb

theorem inRange_iff {lo hi idx : Nat} : inRange lo hi idx = true ↔ lo ≤ idx ∧ idx < hi := by
  simp [inRange]

theorem inRange_false {lo hi idx : Nat} : inRange lo hi idx = false ↔ ¬ (lo ≤ idx ∧ idx < hi) := by
  rw [← inRange_iff]; simp

/-- `m` is what `L` holds at the positions `lo..hi`. -/
def Seg (L : List α) (lo hi : Nat) (m : List α) : Prop :=
  ∃ pre post, L = pre ++ m ++ post ∧ lo = pre.length ∧ hi = pre.length + m.length

theorem Seg.trans {L M m : List α} {a b c d : Nat} (h : Seg L a b M) (h' : Seg M c d m) :
    Seg L (a + c) (a + d) m := by
  obtain ⟨p, q, rfl, rfl, rfl⟩ := h
  obtain ⟨p', q', rfl, rfl, rfl⟩ := h'
  exact ⟨p ++ p', q' ++ q, by simp, by simp, by simp; omega⟩

theorem Seg.get {L m : List α} {lo hi : Nat} (h : Seg L lo hi m) {i : Nat} (h1 : lo ≤ i) (h2 : i < hi) :
    m[i - lo]? = L[i]? := by
  obtain ⟨p, q, rfl, rfl, rfl⟩ := h
  rw [List.append_assoc, List.getElem?_append_right (by omega), List.getElem?_append_left (by omega)]

theorem Seg.refl (L : List α) : Seg L 0 L.length L := ⟨[], [], by simp, rfl, by simp⟩

theorem Seg.length {L m : List α} {lo hi : Nat} (h : Seg L lo hi m) : hi = lo + m.length ∧ hi ≤ L.length := by
  obtain ⟨p, q, rfl, rfl, rfl⟩ := h
  simp

namespace Node

theorem childRef_ok {n : Nat} {nd : Node α} (h : Wf (n + 1) nd) {pos : Nat} (hp : pos < nd.toList.length) :
    ∃ k lo hi, nd.childRefForPosition pos = .ok (some (k, lo, hi)) ∧ Wf n k ∧
      Seg nd.toList lo hi k.toList ∧ lo ≤ pos ∧ pos < hi := by
  obtain ⟨ks, hk⟩ := wf_succ.1 h
  have htl := hk.toList
  obtain ⟨s, c, rfl, h1, h2, h3⟩ := hk
  rw [htl] at hp ⊢
  simp only [childRefForPosition]
  rw [SizeTable.positionInfoFor_ok h1]
  cases hf : SizeTable.findPos (ks.map size) pos with
  | none =>
    rw [SizeTable.findPos_none, ← flatMap_length] at hf
    omega
  | some p =>
    obtain ⟨i, j⟩ := p
    obtain ⟨A, k, B, rfl, rfl, rfl, hj⟩ := findPos_kids hf
    simp only [ok_bind, childRefAtSlot]
    have e1 : (((A ++ k :: B).map size).take A.length).sum = (A.flatMap Node.toList).length := by
      rw [flatMap_length, ← List.map_take, List.take_left]
    have e2 : (((A ++ k :: B).map size).take (A.length + 1)).sum = (A.flatMap Node.toList).length + k.toList.length := by
      rw [flatMap_length, ← List.map_take, List.take_append, List.take_of_length_le (by omega),
        Nat.add_sub_cancel_left]
      simp [size]
    rw [SizeTable.getChildRange_ok h1 (by simp), CB.get_ok h2, e1, e2]
    exact ⟨k, _, _, by simp, (h3 k (by simp)).1, ⟨A.flatMap Node.toList, B.flatMap Node.toList, by simp, rfl, rfl⟩,
      by omega, by omega⟩

end Node

namespace PFocus

/-- Every node of the path is an internal node that holds its range of `L`. -/
def PathOk (L : List α) (path : List (Node α × Nat × Nat)) : Prop :=
  ∀ p ∈ path, ∃ n, p.1.Wf (n + 1) ∧ Seg L p.2.1 p.2.2 p.1.toList

theorem treePath_ok {L : List α} : ∀ (n fuel : Nat) {nd : Node α} {lo hi : Nat} {rest : List (Node α × Nat × Nat)}
    {idx : Nat}, n < fuel → nd.Wf (n + 1) → PathOk L ((nd, lo, hi) :: rest) → idx < nd.toList.length →
    ∃ pf ext m, treePath fuel ((nd, lo, hi) :: rest) idx = .ok pf ∧
      pf.path = ext ++ (nd, lo, hi) :: rest ∧ PathOk L pf.path ∧ pf.leaf.Rep m ∧ Seg L pf.lo pf.hi m ∧
      pf.lo ≤ lo + idx ∧ lo + idx < pf.hi := by
  intro n
  induction n with
  | zero =>
    intro fuel nd lo hi rest idx hf hw hp hi'
    obtain ⟨fuel, rfl⟩ : ∃ k, fuel = k + 1 := ⟨fuel - 1, by omega⟩
    obtain ⟨k, clo, chi, e, hk, hs, h1, h2⟩ := Node.childRef_ok hw hi'
    obtain ⟨-, -, hseg⟩ := hp _ (List.mem_cons_self ..)
    obtain ⟨m, b, rfl, hb⟩ := Node.wf_zero.1 hk
    rw [Node.toList_leaf, hb.toList] at hs
    have hl := hs.length
    refine ⟨⟨(nd, lo, hi) :: rest, b, lo + clo, lo + clo + (chi - clo)⟩, [], m, ?_, rfl, hp, hb, ?_, ?_, ?_⟩
    · simp [treePath, e, usub_ok (show clo ≤ chi by omega)]
    · have := hseg.trans hs
      rwa [show lo + chi = lo + clo + (chi - clo) by omega] at this
    · simp; omega
    · simp; omega
  | succ n ih =>
    intro fuel nd lo hi rest idx hf hw hp hi'
    obtain ⟨fuel, rfl⟩ : ∃ k, fuel = k + 1 := ⟨fuel - 1, by omega⟩
    obtain ⟨k, clo, chi, e, hk, hs, h1, h2⟩ := Node.childRef_ok hw hi'
    obtain ⟨-, -, hseg⟩ := hp _ (List.mem_cons_self ..)
    have hl := hs.length
    cases k with
    | leaf b => exact absurd hk.level (by simp [Node.level])
    | internal s t c =>
      have hseg' := hseg.trans hs
      rw [show lo + chi = lo + clo + (chi - clo) by omega] at hseg'
      obtain ⟨pf, ext, m, e2, hpath, hok, hr, hs2, h3, h4⟩ := ih fuel (nd := .internal s t c) (lo := lo + clo)
        (hi := lo + clo + (chi - clo)) (rest := (nd, lo, hi) :: rest) (idx := idx - clo) (by omega) hk (by
          intro p hp'
          rcases List.mem_cons.1 hp' with rfl | hp'
          · exact ⟨n, hk, hseg'⟩
          · exact hp p hp') (by omega)
      refine ⟨pf, ext ++ [(.internal s t c, lo + clo, lo + clo + (chi - clo))], m, ?_, by simp [hpath], hok, hr, hs2,
        by omega, by omega⟩
      simp [treePath, e, usub_ok (show clo ≤ chi by omega), usub_ok h1, e2]

/-- The focus on a spine node is right about that node. -/
structure Ok (nd : Node α) (pf : PFocus α) : Prop where
  path : PathOk nd.toList pf.path
  leaf : ∃ m, pf.leaf.Rep m ∧ Seg nd.toList pf.lo pf.hi m ∧ (pf.path = [] → nd.toList = m)
  last : ∀ p, pf.path.getLast? = some p → p.1 = nd ∧ p.2 = (0, nd.toList.length)

theorem fromTree_ok {n : Nat} {nd : Node α} (h : nd.Wf n) (hne : n ≠ 0 → nd.toList ≠ []) :
    ∃ pf, fromTree nd = .ok pf ∧ Ok nd pf := by
  cases n with
  | zero =>
    obtain ⟨m, b, rfl, hb⟩ := Node.wf_zero.1 h
    have e : (Node.leaf b).toList = m := by rw [Node.toList_leaf, hb.toList]
    refine ⟨_, rfl, by simp [PathOk], ⟨m, hb, ?_, fun _ => e⟩, by simp⟩
    rw [e, hb.len_eq]; exact Seg.refl m
  | succ n =>
    have hlen := h.len
    have hlv := h.level
    cases nd with
    | leaf b => exact absurd hlv (by simp [Node.level])
    | internal s t c =>
      have hpos := List.length_pos_of_ne_nil (hne (by simp))
      obtain ⟨pf, ext, m, e, hp, hok, hr, hs, -, -⟩ := treePath_ok (L := (Node.internal s t c).toList) n (s.level + 1)
        (lo := 0) (hi := (Node.internal s t c).toList.length) (rest := []) (idx := 0)
        (by simp [Node.level] at hlv; omega) h (by
          intro p hp
          rcases List.mem_cons.1 hp with rfl | hp
          · exact ⟨n, h, Seg.refl _⟩
          · cases hp) hpos
      refine ⟨pf, by simp only [fromTree, hlen, ok_bind, e], hok, ⟨m, hr, hs, by simp [hp]⟩, ?_⟩
      intro p h'
      rw [hp, List.getLast?_append_of_ne_nil _ (by simp)] at h'
      cases h'
      exact ⟨rfl, rfl⟩

theorem popPath_ok {L : List α} {idx : Nat} : ∀ {path : List (Node α × Nat × Nat)} {p}, PathOk L path →
    path.getLast? = some p → p.2.1 ≤ idx → idx < p.2.2 →
    ∃ nd lo hi rest, popPath idx path = .ok ((nd, lo, hi) :: rest) ∧ PathOk L ((nd, lo, hi) :: rest) ∧
      lo ≤ idx ∧ idx < hi ∧ ((nd, lo, hi) :: rest).getLast? = some p := by
  intro path
  induction path with
  | nil => intro p _ h; simp at h
  | cons q rest ih =>
    obtain ⟨nd, lo, hi⟩ := q
    intro p hok hl h1 h2
    by_cases hc : lo ≤ idx ∧ idx < hi
    · exact ⟨nd, lo, hi, rest, by simp [popPath, inRange_iff.2 hc], hok, hc.1, hc.2, hl⟩
    · cases rest with
      | nil => simp at hl; subst hl; exact absurd ⟨h1, h2⟩ hc
      | cons q rest =>
        obtain ⟨nd', lo', hi', rest', e, h3⟩ := ih (p := p) (fun p hp => hok p (List.mem_cons_of_mem _ hp))
          (by simpa using hl) h1 h2
        refine ⟨nd', lo', hi', rest', ?_, h3⟩
        rw [popPath, inRange_false.2 hc]
        exact e

theorem moveFocus_ok {nd : Node α} {pf : PFocus α} (h : Ok nd pf) {idx : Nat} (hi : idx < nd.toList.length) :
    ∃ pf', pf.moveFocus idx = .ok pf' ∧ Ok nd pf' ∧ pf'.lo ≤ idx ∧ idx < pf'.hi ∧
      (pf.path = [] ↔ pf'.path = []) := by
  by_cases hc : pf.lo ≤ idx ∧ idx < pf.hi
  · exact ⟨pf, by simp [moveFocus, inRange_iff.2 hc], h, hc.1, hc.2, Iff.rfl⟩
  · obtain ⟨m, hr, hs, hp0⟩ := h.leaf
    have hne : pf.path ≠ [] := by
      intro e
      have h0 := hp0 e
      have h1 := hs.length
      rw [h0] at h1 hi
      omega
    have hlast : pf.path.getLast? = some (pf.path.getLast hne) := List.getLast?_eq_some_getLast hne
    obtain ⟨e1, e2⟩ := h.last _ hlast
    obtain ⟨nd', lo, hi', rest, e, hok, h1, h2, hl⟩ := popPath_ok (idx := idx) h.path hlast
      (by rw [e2]; simp) (by rw [e2]; exact hi)
    obtain ⟨n, hw, hseg⟩ := hok _ (List.mem_cons_self ..)
    simp only at hw hseg
    have hsl := hseg.length
    obtain ⟨pf', ext, m', e', hp', hok', hr', hs', h3, h4⟩ := treePath_ok n (nd'.level + 1)
      (by rw [hw.level]; omega) hw hok (idx := idx - lo) (by omega)
    refine ⟨pf', ?_, ⟨hok', ⟨m', hr', hs', by simp [hp']⟩, ?_⟩, by omega, by omega, by simp [hp', hne]⟩
    · simp [moveFocus, inRange_false.2 hc, e, pathStart, pathFuel, usub_ok h1, e']
    · intro p hp
      rw [hp', List.getLast?_append_of_ne_nil _ (by simp), hl] at hp
      cases hp
      exact ⟨e1, e2⟩

theorem get_ok {n : Nat} {nd : Node α} {pf : PFocus α} (hw : nd.Wf n) (h : Ok nd pf) (idx : Nat) :
    ∃ pf', pf.get idx = .ok (nd.toList[idx]?, pf') ∧ Ok nd pf' := by
  unfold get
  cases hl : pf.path.getLast? with
  | none =>
    rw [List.getLast?_eq_none_iff] at hl
    obtain ⟨m, hr, -, hp⟩ := h.leaf
    rw [hp hl]
    exact ⟨pf, by simp [CB.get_ok hr], h⟩
  | some p =>
    obtain ⟨e1, e2⟩ := h.last p hl
    obtain ⟨nd', q⟩ := p
    simp only at e1 e2
    subst e1
    simp only [hw.len, ok_bind]
    by_cases hi : idx < nd'.toList.length
    · rw [if_neg (by omega)]
      obtain ⟨pf', e, hok, h1, h2, -⟩ := moveFocus_ok h hi
      obtain ⟨m, hr, hs, -⟩ := hok.leaf
      refine ⟨pf', ?_, hok⟩
      rw [e]
      simp only [ok_bind]
      rw [usub_ok h1]
      simp only [ok_bind, CB.get_ok hr, hs.get h1 h2]
    · rw [if_pos (by omega), List.getElem?_eq_none (by omega)]
      exact ⟨pf, rfl, h⟩

end PFocus

namespace RVec

theorem spineIter_toList (v : RVec α) : v.toList = v.spineIter.flatMap fun p => p.2.toList := by
  have h1 : ∀ (s : Side) (xs : List (Node α)) (k : Nat),
      (xs.zipIdx k).map (fun p => ((some (s, p.2) : Option (Side × Nat)), p.1).2.toList) = xs.map Node.toList := by
    intro s xs k
    induction xs generalizing k with
    | nil => rfl
    | cons x xs ih => simp only [List.zipIdx_cons, List.map_cons, ih]
  have h2 := h1 .front v.left 0
  have h3 := h1 .back v.right 0
  simp only [toList, spineIter, List.flatMap_append, List.flatMap_def, List.map_reverse, List.map_map,
    List.map_append, List.flatten_append, Function.comp_def]
  rw [h2, h3]
  simp

theorem spineIter_length (v : RVec α) : v.spineIter.length = v.left.length + 1 + v.right.length := by
  simp [spineIter]; omega

theorem spineIter_wf {v : RVec α} {h : Nat} (i : InvH v h) {p} (hp : p ∈ v.spineIter) : ∃ n, p.2.Wf n := by
  simp only [spineIter, List.mem_append, List.mem_map, List.mem_singleton, List.mem_reverse] at hp
  rcases hp with (⟨⟨x, k⟩, hx, rfl⟩ | rfl) | ⟨⟨x, k⟩, hx, rfl⟩
  · obtain ⟨hk, e⟩ := List.mk_mem_zipIdx_iff_getElem?.1 hx |> List.getElem?_eq_some_iff.1
    exact ⟨_, e ▸ ((i.spine .front).getElem hk).1⟩
  · exact ⟨h, i.root⟩
  · obtain ⟨hk, e⟩ := List.mk_mem_zipIdx_iff_getElem?.1 hx |> List.getElem?_eq_some_iff.1
    exact ⟨_, e ▸ ((i.spine .back).getElem hk).1⟩

theorem spineIter_skip {v : RVec α} {A B} {pos : Option (Side × Nat)} {nd : Node α}
    (h : v.spineIter = A ++ (pos, nd) :: B) :
    Focus.skipFwd v pos = .ok (A.length + 1) ∧ Focus.skipBack v pos = .ok (B.length + 1) := by
  have hl := spineIter_length v
  have hg : v.spineIter[A.length]? = some (pos, nd) := by simp [h]
  have hl2 := congrArg List.length h
  simp only [List.length_append, List.length_cons] at hl2
  by_cases h1 : A.length < v.left.length
  · simp [spineIter, List.getElem?_append, h1] at hg
    obtain ⟨rfl, -⟩ := hg
    exact ⟨rfl, by rw [Focus.skipBack, usub_ok (by omega)]; congr 1; omega⟩
  · by_cases h2 : A.length = v.left.length
    · simp [spineIter, List.getElem?_append, h2] at hg
      obtain ⟨rfl, -⟩ := hg
      exact ⟨by rw [Focus.skipFwd, h2], by rw [Focus.skipBack]; congr 1; omega⟩
    · have h3 : A.length - (v.left.length + 1) < v.right.length := by omega
      simp only [spineIter] at hg
      rw [List.getElem?_append_right (by simp; omega), List.getElem?_reverse (by simp; omega)] at hg
      simp at hg
      obtain ⟨x, -, rfl, -⟩ := hg
      refine ⟨?_, ?_⟩
      · rw [Focus.skipFwd, usub_ok (by omega)]; congr 1; omega
      · rw [Focus.skipBack]; congr 1; omega

end RVec

namespace Focus
open RVec

/-- The items of part of a spine. -/
def flat (A : List (Option (Side × Nat) × Node α)) : List α := A.flatMap fun p => p.2.toList

@[simp] theorem flat_nil : flat ([] : List (Option (Side × Nat) × Node α)) = [] := rfl
@[simp] theorem flat_cons (p) (A : List (Option (Side × Nat) × Node α)) : flat (p :: A) = p.2.toList ++ flat A := rfl
@[simp] theorem flat_append (A B : List (Option (Side × Nat) × Node α)) : flat (A ++ B) = flat A ++ flat B := by
  simp [flat]

/-- The focus is at a spine node and right about it. -/
def At (f : Focus α) : Prop :=
  ∃ A nd B n, f.tree.spineIter = A ++ (f.pos, nd) :: B ∧ nd.Wf n ∧ f.node.Ok nd ∧
    f.flo = (flat A).length ∧ f.fhi = (flat A).length + nd.toList.length

/-- The state of a focus that reads the range `lo..hi` of the vector. -/
structure Ok (f : Focus α) (v : RVec α) (lo hi : Nat) : Prop where
  tree : f.tree = v
  range : f.lo = lo ∧ f.hi = hi
  hi_le : hi ≤ v.toList.length
  good : lo < hi → f.At

theorem enter_ok {f : Focus α} {A B : List _} {pos} {nd : Node α} {n idx flo fhi : Nat}
    (hit : f.tree.spineIter = A ++ (pos, nd) :: B) (hw : nd.Wf n) (hlo : flo = (flat A).length)
    (hhi : fhi = (flat A).length + nd.toList.length) (h1 : flo ≤ idx) (h2 : idx < fhi) :
    ∃ f', f.enter pos nd flo fhi idx = .ok f' ∧ f'.At ∧ f'.flo ≤ idx ∧ idx < f'.fhi ∧
      f'.tree = f.tree ∧ f'.lo = f.lo ∧ f'.hi = f.hi := by
  obtain ⟨pf, e, hok⟩ := PFocus.fromTree_ok hw (by rintro - e; simp [e] at hhi; omega)
  obtain ⟨pf', e', hok', -⟩ := PFocus.moveFocus_ok hok (idx := idx - flo) (by omega)
  exact ⟨{ f with pos := pos, node := pf', flo := flo, fhi := fhi }, by simp [enter, e, usub_ok h1, e'],
    ⟨A, nd, B, n, hit, hw, hok', hlo, hhi⟩, h1, h2, rfl, rfl, rfl⟩

theorem refocusFwd_ok {f : Focus α} {h : Nat} (i : InvH f.tree h) {idx : Nat} (hidx : idx < f.tree.toList.length) :
    ∀ (B A : List (Option (Side × Nat) × Node α)), f.tree.spineIter = A ++ B → (flat A).length ≤ idx →
    ∃ f', f.refocusFwd idx B (flat A).length = .ok f' ∧ f'.At ∧ f'.flo ≤ idx ∧ idx < f'.fhi ∧
      f'.tree = f.tree ∧ f'.lo = f.lo ∧ f'.hi = f.hi := by
  intro B
  induction B with
  | nil =>
    intro A hit hle
    rw [spineIter_toList, hit] at hidx
    simp [flat] at hle hidx
    omega
  | cons p B ih =>
    intro A hit hle
    obtain ⟨pos, nd⟩ := p
    obtain ⟨n, hw⟩ := spineIter_wf i (p := (pos, nd)) (by simp [hit])
    simp only at hw
    have hT : f.tree.toList.length = (flat A).length + nd.toList.length + (flat B).length := by
      rw [spineIter_toList, hit]; simp [flat]; omega
    have hlt := i.lt
    rw [i.len] at hlt
    simp only [refocusFwd, hw.len, ok_bind]
    rw [uadd_ok (by omega)]
    simp only [ok_bind]
    by_cases hc : (flat A).length ≤ idx ∧ idx < (flat A).length + nd.toList.length
    · rw [if_pos (inRange_iff.2 hc)]
      exact enter_ok hit hw rfl rfl hc.1 hc.2
    · rw [if_neg (by rw [inRange_iff]; exact hc)]
      have := ih (A ++ [(pos, nd)]) (by simp [hit]) (by simp; omega)
      simpa using this

theorem refocusBack_ok {f : Focus α} {h : Nat} (i : InvH f.tree h) {idx : Nat} :
    ∀ (A B : List (Option (Side × Nat) × Node α)), f.tree.spineIter = A.reverse ++ B →
    idx < (flat A.reverse).length →
    ∃ f', f.refocusBack idx A (flat A.reverse).length = .ok f' ∧ f'.At ∧ f'.flo ≤ idx ∧ idx < f'.fhi ∧
      f'.tree = f.tree ∧ f'.lo = f.lo ∧ f'.hi = f.hi := by
  intro A
  induction A with
  | nil => intro B hit hle; simp at hle
  | cons p A ih =>
    intro B hit hle
    obtain ⟨pos, nd⟩ := p
    obtain ⟨n, hw⟩ := spineIter_wf i (p := (pos, nd)) (by simp [hit])
    simp only at hw
    have e1 : (flat ((pos, nd) :: A).reverse).length = (flat A.reverse).length + nd.toList.length := by simp
    rw [e1] at hle ⊢
    simp only [refocusBack, hw.len, ok_bind]
    rw [usub_ok (by omega)]
    simp only [ok_bind, Nat.add_sub_cancel]
    by_cases hc : (flat A.reverse).length ≤ idx ∧ idx < (flat A.reverse).length + nd.toList.length
    · rw [if_pos (inRange_iff.2 hc)]
      exact enter_ok (A := A.reverse) (B := B) (by simp [hit]) hw rfl rfl hc.1 hc.2
    · rw [if_neg (by rw [inRange_iff]; exact hc)]
      exact ih ((pos, nd) :: B) (by simp [hit]) (by omega)

theorem refocus_ok {f : Focus α} {h : Nat} (i : InvH f.tree h) (ha : f.At) {idx : Nat}
    (hidx : idx < f.tree.toList.length) (hout : ¬ (f.flo ≤ idx ∧ idx < f.fhi)) :
    ∃ f', f.refocus idx = .ok f' ∧ f'.At ∧ f'.flo ≤ idx ∧ idx < f'.fhi ∧
      f'.tree = f.tree ∧ f'.lo = f.lo ∧ f'.hi = f.hi := by
  obtain ⟨A, nd, B, n, hit, hw, hok, hlo, hhi⟩ := ha
  obtain ⟨s1, s2⟩ := spineIter_skip hit
  unfold refocus
  rw [massert_ok (by simp; omega)]
  simp only [ok_bind]
  by_cases hc : idx < f.flo
  · rw [if_pos hc, s2]
    simp only [ok_bind]
    rw [hit]
    have : (A ++ (f.pos, nd) :: B).reverse.drop (B.length + 1) = A.reverse := by
      rw [List.reverse_append, List.reverse_cons, List.append_assoc]
      rw [← List.append_assoc, List.drop_left' (by simp)]
    rw [this, hlo]
    have := refocusBack_ok (idx := idx) i A.reverse ((f.pos, nd) :: B) (by simp [hit]) (by simpa [hlo] using hc)
    simpa using this
  · rw [if_neg hc, s1]
    simp only [ok_bind]
    rw [hit]
    have : (A ++ (f.pos, nd) :: B).drop (A.length + 1) = B := by
      rw [← List.singleton_append, ← List.append_assoc, List.drop_left' (by simp)]
    rw [this, hhi]
    have := refocusFwd_ok i hidx B (A ++ [(f.pos, nd)]) (by simp [hit]) (by simp; omega)
    simpa using this

theorem get_ok {f : Focus α} {v : RVec α} {lo hi h : Nat} (i : InvH v h) (ho : Ok f v lo hi) (idx : Nat)
    (hlt : idx + lo < USIZE_LIMIT) :
    ∃ f', f.get idx = .ok (if idx < hi - lo then v.toList[lo + idx]? else none, f') ∧ Ok f' v lo hi := by
  obtain ⟨rfl, ⟨rfl, rfl⟩, hle, hg⟩ := ho
  unfold get
  rw [uadd_ok hlt]
  simp only [ok_bind]
  by_cases hc : idx < f.hi - f.lo
  · rw [if_pos (inRange_iff.2 (by omega)), if_pos hc]
    have key : ∃ f', (if !inRange f.flo f.fhi (idx + f.lo) then f.refocus (idx + f.lo) else .ok f) = .ok f' ∧
        f'.At ∧ f'.flo ≤ idx + f.lo ∧ idx + f.lo < f'.fhi ∧ f'.tree = f.tree ∧ f'.lo = f.lo ∧ f'.hi = f.hi := by
      by_cases hr : f.flo ≤ idx + f.lo ∧ idx + f.lo < f.fhi
      · exact ⟨f, by simp [inRange_iff.2 hr], hg (by omega), hr.1, hr.2, rfl, rfl, rfl⟩
      · rw [inRange_false.2 hr]
        exact refocus_ok i (hg (by omega)) (by omega) hr
    obtain ⟨f', e, ⟨A, nd, B, n, hit, hw, hok, hlo, hhi⟩, h1, h2, ht, hl, hh⟩ := key
    rw [e]
    simp only [ok_bind]
    rw [usub_ok h1]
    simp only [ok_bind]
    obtain ⟨pf', e', hok'⟩ := PFocus.get_ok hw hok (idx + f.lo - f'.flo)
    rw [e']
    refine ⟨{ f' with node := pf' }, ?_, ht, ⟨hl, hh⟩, hle, fun _ => ⟨A, nd, B, n, hit, hw, hok', hlo, hhi⟩⟩
    have hs : Seg f.tree.toList f'.flo f'.fhi nd.toList := by
      refine ⟨flat A, flat B, ?_, hlo, hhi⟩
      rw [← ht, spineIter_toList, hit]; simp [flat]
    simp only [ok_bind]
    rw [hs.get h1 h2, Nat.add_comm]
  · rw [if_neg (by rw [inRange_iff]; omega), if_neg hc]
    exact ⟨f, rfl, rfl, ⟨rfl, rfl⟩, hle, hg⟩

/-- What `pickLoop` promises: the spine node that meets the range, or what was found before. -/
theorem pickLoop_ok {v : RVec α} {h : Nat} (i : InvH v h) {lo hi : Nat} :
    ∀ (B A : List (Option (Side × Nat) × Node α)) (p : Pick α), v.spineIter = A ++ B →
    ∃ p', pickLoop lo hi B (flat A).length p = .ok p' ∧
      (p' = p ∧ (∀ A' q B', v.spineIter = A' ++ q :: B' → A.length ≤ A'.length →
          ¬ (lo < (flat A').length + q.2.toList.length ∧ hi > (flat A').length)) ∨
       ∃ A' nd B', v.spineIter = A' ++ (p'.pos, nd) :: B' ∧ p'.node = nd ∧
          p'.flo = (flat A').length ∧ p'.fhi = (flat A').length + nd.toList.length ∧
          lo < p'.fhi ∧ hi > p'.flo ∧
          ∀ A'' q B'', v.spineIter = A'' ++ q :: B'' → A'.length < A''.length →
            ¬ (lo < (flat A'').length + q.2.toList.length ∧ hi > (flat A'').length)) := by
  intro B
  induction B with
  | nil =>
    intro A p hit
    refine ⟨p, rfl, .inl ⟨rfl, ?_⟩⟩
    intro A' q B' e hl
    exfalso
    have := congrArg List.length (hit.symm.trans e)
    simp at this
    omega
  | cons q B ih =>
    intro A p hit
    obtain ⟨pos, nd⟩ := q
    obtain ⟨n, hw⟩ := spineIter_wf i (p := (pos, nd)) (by simp [hit])
    simp only at hw
    have hT : v.toList.length = (flat A).length + nd.toList.length + (flat B).length := by
      rw [spineIter_toList, hit]; simp [flat]; omega
    have hlt := i.lt
    rw [i.len] at hlt
    simp only [pickLoop, hw.len, ok_bind]
    rw [uadd_ok (by omega)]
    simp only [ok_bind]
    have e1 : (flat (A ++ [(pos, nd)])).length = (flat A).length + nd.toList.length := by simp
    obtain ⟨p', e, hp⟩ := ih (A ++ [(pos, nd)]) (if lo < (flat A).length + nd.toList.length ∧ hi > (flat A).length then
      ⟨pos, nd, (flat A).length, (flat A).length + nd.toList.length⟩ else p) (by simp [hit])
    rw [e1] at e
    refine ⟨p', e, ?_⟩
    rcases hp with ⟨hp, hq⟩ | hp
    · by_cases hc : lo < (flat A).length + nd.toList.length ∧ hi > (flat A).length
      · rw [if_pos hc] at hp
        subst hp
        exact .inr ⟨A, nd, B, hit, rfl, rfl, rfl, hc.1, hc.2, fun A' q B' e' hl => hq A' q B' e' (by simp; omega)⟩
      · rw [if_neg hc] at hp
        refine .inl ⟨hp, fun A' q B' e' hl => ?_⟩
        by_cases hA : A'.length = A.length
        · rw [hit] at e'
          obtain ⟨rfl, e2⟩ := List.append_inj e' hA.symm
          injection e2 with e2 _
          subst e2
          exact hc
        · exact hq A' q B' e' (by simp; omega)
    · exact .inr hp

/-- Some spine node contains a given position. -/
theorem exists_node {v : RVec α} {idx : Nat} (hidx : idx < v.toList.length) :
    ∃ A q B, v.spineIter = A ++ q :: B ∧ (flat A).length ≤ idx ∧ idx < (flat A).length + q.2.toList.length := by
  have : ∀ (B A : List (Option (Side × Nat) × Node α)), v.spineIter = A ++ B → (flat A).length ≤ idx →
      ∃ A q B, v.spineIter = A ++ q :: B ∧ (flat A).length ≤ idx ∧ idx < (flat A).length + q.2.toList.length := by
    intro B
    induction B with
    | nil =>
      intro A hit hle
      rw [spineIter_toList, hit] at hidx
      simp [flat] at hle hidx
      omega
    | cons q B ih =>
      intro A hit hle
      by_cases hc : idx < (flat A).length + q.2.toList.length
      · exact ⟨A, q, B, hit, hle, hc⟩
      · exact ih (A ++ [q]) (by simp [hit]) (by simp; omega)
  exact this _ [] rfl (by simp)

/-- Narrowing to a range that is not empty. -/
theorem narrowedTree_ok {v : RVec α} {h : Nat} (i : InvH v h) {lo hi : Nat} (h1 : lo < hi)
    (h2 : hi ≤ v.toList.length) : ∃ f, narrowedTree v lo hi = .ok f ∧ Ok f v lo hi := by
  unfold narrowedTree
  have e1 : (if lo ≥ v.len then v.len else lo) = lo := by rw [i.len, if_neg (by omega)]
  have e2 : (if hi ≥ v.len then v.len else hi) = hi := by rw [i.len]; split <;> omega
  simp only [e1, e2]
  obtain ⟨p, e, hp⟩ := pickLoop_ok i (lo := lo) (hi := hi) v.spineIter [] ⟨none, v.root, 0, 0⟩ rfl
  simp only [flat_nil, List.length_nil] at e
  rw [e]
  rcases hp with ⟨rfl, hq⟩ | ⟨A, nd, B, hit, hnd, hlo, hhi, h3, h4, hlater⟩
  · obtain ⟨A, q, B, hit, h3, h4⟩ := exists_node (v := v) (idx := lo) (by omega)
    exact absurd ⟨h4, by omega⟩ (hq A q B hit (by simp))
  · obtain ⟨n, hw⟩ := spineIter_wf i (p := (p.pos, nd)) (by simp [hit])
    simp only at hw
    obtain ⟨pf, e', hok⟩ := PFocus.fromTree_ok hw (by
      rintro - e
      simp [e] at hhi
      obtain ⟨A', q, B', hit', h5, h6⟩ := exists_node (v := v) (idx := p.flo) (by omega)
      refine hlater A' q B' hit' ?_ ⟨by omega, by omega⟩
      -- a node that contains the position of the empty one comes after it
      by_contra hle
      rcases Nat.lt_or_eq_of_le (Nat.le_of_not_lt hle) with hlt | heq
      · obtain ⟨C, rfl⟩ : ∃ C, A = A' ++ q :: C := by
          have h7 := hit.symm.trans hit'
          rw [List.append_eq_append_iff] at h7
          rcases h7 with ⟨D, h8, h9⟩ | ⟨D, h8, h9⟩
          · have := congrArg List.length h8; simp at this; omega
          · cases D with
            | nil => have := congrArg List.length h8; simp at this; omega
            | cons d D => injection h9 with h9 _; subst h9; exact ⟨D, h8⟩
        simp at hlo
        omega
      · obtain ⟨rfl, e2⟩ := List.append_inj (hit.symm.trans hit') heq.symm
        injection e2 with e2 _
        subst e2
        simp [e] at h6
        omega)
    simp only [ok_bind, hnd, e']
    exact ⟨_, rfl, rfl, ⟨rfl, rfl⟩, h2, fun _ => ⟨A, nd, B, n, hit, hw, hok, hlo, hhi⟩⟩

/-- Narrowing to an empty range: it fails exactly when the root is an internal node without
children. -/
theorem narrowedTree_empty {v : RVec α} {h : Nat} (i : InvH v h) {lo hi : Nat} (h1 : hi ≤ lo)
    (hr : h = 0 ∨ v.root.toList ≠ []) :
    ∃ f, narrowedTree v lo hi = .ok f ∧ Ok f v (min lo v.toList.length) (min hi v.toList.length) := by
  unfold narrowedTree
  have e1 : (if lo ≥ v.len then v.len else lo) = min lo v.toList.length := by rw [i.len]; split <;> omega
  have e2 : (if hi ≥ v.len then v.len else hi) = min hi v.toList.length := by rw [i.len]; split <;> omega
  simp only [e1, e2]
  obtain ⟨p, e, hp⟩ := pickLoop_ok i (lo := min lo v.toList.length) (hi := min hi v.toList.length)
    v.spineIter [] ⟨none, v.root, 0, 0⟩ rfl
  simp only [flat_nil, List.length_nil] at e
  rw [e]
  simp only [ok_bind]
  have : ∃ pf, PFocus.fromTree p.node = .ok pf := by
    rcases hp with ⟨rfl, hq⟩ | ⟨A, nd, B, hit, hnd, hlo, hhi, h3, h4, hlater⟩
    · obtain ⟨pf, e', -⟩ := PFocus.fromTree_ok i.root (by
        intro h0; rcases hr with hr | hr
        · exact absurd hr h0
        · exact hr)
      exact ⟨pf, e'⟩
    · obtain ⟨n, hw⟩ := spineIter_wf i (p := (p.pos, nd)) (by simp [hit])
      simp only at hw
      obtain ⟨pf, e', -⟩ := PFocus.fromTree_ok hw (by
        rintro - e
        simp [e] at hhi
        omega)
      exact ⟨pf, by rw [hnd]; exact e'⟩
  obtain ⟨pf, e'⟩ := this
  rw [e']
  exact ⟨_, rfl, rfl, ⟨rfl, rfl⟩, by omega, fun hh => by omega⟩

theorem new_ok {v : RVec α} {h : Nat} (i : InvH v h) : ∃ f, new v = .ok f ∧ Ok f v 0 v.toList.length := by
  unfold new
  rw [i.len]
  by_cases h0 : v.toList.length = 0
  · obtain ⟨f, e, hf⟩ := narrowedTree_empty i (lo := 0) (hi := v.toList.length) (by omega) (by
      left
      by_contra hh
      have hl := i.length .front
      have hhd := i.head .front
      cases hs : v.spine .front with
      | nil => rw [hs] at hl; simp at hl; omega
      | cons x xs =>
        rw [hs, headOk_cons] at hhd
        have hsp := i.spine .front
        rw [hs] at hsp
        apply hhd
        rw [hsp.1.slots_eq_zero]
        have := List.eq_nil_of_length_eq_zero h0
        rw [toList_eq v .front, hs, Side.add_eq_nil, spineList_cons, Side.add_eq_nil] at this
        exact this.1.1)
    refine ⟨f, e, ?_⟩
    simpa [h0] using hf
  · exact narrowedTree_ok i (by omega) (Nat.le_refl _)

end Focus
end Librrb

namespace Librrb
namespace Focus
open RVec

theorem narrowedTree_eq {v : RVec α} {h : Nat} (i : InvH v h) {lo hi : Nat} {f : Focus α}
    (e : narrowedTree v lo hi = .ok f) :
    Ok f v (min lo v.toList.length) (min hi v.toList.length) := by
  by_cases hc : min lo v.toList.length < min hi v.toList.length
  · obtain ⟨f', e', hf⟩ := narrowedTree_ok i hc (by omega)
    have : narrowedTree v lo hi = narrowedTree v (min lo v.toList.length) (min hi v.toList.length) := by
      unfold narrowedTree
      have e1 : (if lo ≥ v.len then v.len else lo) = min lo v.toList.length := by rw [i.len]; split <;> omega
      have e2 : (if hi ≥ v.len then v.len else hi) = min hi v.toList.length := by rw [i.len]; split <;> omega
      have e3 : (if min lo v.toList.length ≥ v.len then v.len else min lo v.toList.length) = min lo v.toList.length := by
        rw [i.len]; split <;> omega
      have e4 : (if min hi v.toList.length ≥ v.len then v.len else min hi v.toList.length) = min hi v.toList.length := by
        rw [i.len]; split <;> omega
      simp only [e1, e2, e3, e4]
    rw [this, e'] at e
    cases e
    exact hf
  · unfold narrowedTree at e
    have e1 : (if lo ≥ v.len then v.len else lo) = min lo v.toList.length := by rw [i.len]; split <;> omega
    have e2 : (if hi ≥ v.len then v.len else hi) = min hi v.toList.length := by rw [i.len]; split <;> omega
    simp only [e1, e2] at e
    obtain ⟨p, -, e⟩ := bind_ok e
    obtain ⟨pf, -, e⟩ := bind_ok e
    cases e
    exact ⟨rfl, ⟨rfl, rfl⟩, by omega, fun h => absurd h hc⟩

theorem get_eq {f f' : Focus α} {v : RVec α} {lo hi h idx : Nat} {x : Option α} (i : InvH v h)
    (ho : Ok f v lo hi) (e : f.get idx = .ok (x, f')) : Ok f' v lo hi := by
  by_cases hlt : idx + lo < USIZE_LIMIT
  · obtain ⟨f2, e2, h2⟩ := get_ok i ho idx hlt
    rw [e2] at e; cases e; exact h2
  · unfold get at e
    rw [ho.range.1] at e
    obtain ⟨n, en, -⟩ := bind_ok e
    exact absurd (uadd_lt en) hlt

end Focus

open RVec Focus in
theorem FBuilt.ok {v : RVec α} {h : Nat} (i : RVec.InvH v h) {f : Focus α} (b : FBuilt v f) :
    ∃ lo hi, Focus.Ok f v lo hi ∧ lo ≤ v.toList.length := by
  induction b with
  | new e => obtain ⟨f', e', hf⟩ := new_ok i; rw [e] at e'; cases e'; exact ⟨_, _, hf, by omega⟩
  | narrowedTree e => exact ⟨_, _, narrowedTree_eq i e, by omega⟩
  | get _ e ih =>
    obtain ⟨lo, hi, ho, hl⟩ := ih
    exact ⟨lo, hi, get_eq i ho e, hl⟩
  | narrow _ e ih =>
    obtain ⟨lo, hi, ho, hl⟩ := ih
    unfold Focus.narrow at e
    obtain ⟨_, -, e⟩ := bind_ok e
    obtain ⟨_, -, e⟩ := bind_ok e
    obtain ⟨_, -, e⟩ := bind_ok e
    obtain ⟨_, -, e⟩ := bind_ok e
    obtain ⟨_, -, e⟩ := bind_ok e
    obtain ⟨_, -, e⟩ := bind_ok e
    rw [ho.tree] at e
    exact ⟨_, _, narrowedTree_eq i e, by omega⟩
  | splitFirst _ e ih =>
    obtain ⟨lo, hi, ho, hl⟩ := ih
    unfold Focus.splitAt at e
    obtain ⟨_, -, e⟩ := bind_ok e
    obtain ⟨_, -, e⟩ := bind_ok e
    obtain ⟨f1, e1, e⟩ := bind_ok e
    obtain ⟨f2, e2, e⟩ := bind_ok e
    cases e
    rw [ho.tree] at e1
    exact ⟨_, _, narrowedTree_eq i e1, by omega⟩
  | splitSecond _ e ih =>
    obtain ⟨lo, hi, ho, hl⟩ := ih
    unfold Focus.splitAt at e
    obtain ⟨_, -, e⟩ := bind_ok e
    obtain ⟨_, -, e⟩ := bind_ok e
    obtain ⟨f1, e1, e⟩ := bind_ok e
    obtain ⟨f2, e2, e⟩ := bind_ok e
    cases e
    rw [ho.tree] at e2
    exact ⟨_, _, narrowedTree_eq i e2, by omega⟩

theorem getElem?_part (l : List α) (lo hi i : Nat) :
    ((l.take hi).drop lo)[i]? = if i < hi - lo then l[lo + i]? else none := by
  rw [List.getElem?_drop]
  split
  · rw [List.getElem?_take_of_lt (by omega)]
  · rw [List.getElem?_eq_none (by simp; omega)]

theorem Focus.Ok.reads {v : RVec α} {h : Nat} (i : RVec.InvH v h) {f : Focus α} {lo hi bound : Nat}
    (ho : Focus.Ok f v lo hi) (hb : bound + lo ≤ USIZE_LIMIT) :
    FReads f bound ((v.toList.take hi).drop lo) := by
  intro is
  induction is generalizing f with
  | nil => intro _; exact ⟨f, rfl⟩
  | cons k is ih =>
    intro hk
    have := hk k (by simp)
    obtain ⟨f1, e1, h1⟩ := Focus.get_ok i ho k (by omega)
    obtain ⟨f2, e2⟩ := ih h1 (fun j hj => hk j (by simp [hj]))
    refine ⟨f2, ?_⟩
    simp only [runAll, e1, ok_bind, e2, List.map_cons, getElem?_part]

theorem FReads.unique {f : Focus α} {b b' : Nat} {l l' : List α} (h : FReads f b l) (h' : FReads f b' l')
    (hb : l.length < b) (hb' : l.length < b') : l' = l := by
  have key : ∀ i, i < b → i < b' → l'[i]? = l[i]? := by
    intro i hi hi'
    obtain ⟨f1, e1⟩ := h [i] (by simpa using hi)
    obtain ⟨f2, e2⟩ := h' [i] (by simpa using hi')
    rw [e1] at e2
    simpa using ((Prod.ext_iff.1 (Except.ok.inj e2)).1).symm
  have hlen : l'.length ≤ l.length := by
    have := key l.length hb hb'
    rw [List.getElem?_eq_none (l := l) (by omega)] at this
    exact List.getElem?_eq_none_iff.1 this
  apply List.ext_getElem?
  intro i
  by_cases hi : i ≤ l.length
  · exact key i (by omega) (by omega)
  · rw [List.getElem?_eq_none (by omega), List.getElem?_eq_none (by omega)]

/-! ### The iterator -/
namespace VIter
open RVec

/-- The iterator has the items `m` still to yield. -/
def Has (v : RVec α) (it : VIter α) (m : List α) : Prop :=
  it.front ≤ it.back ∧ it.back ≤ v.toList.length ∧ m = (v.toList.take it.back).drop it.front ∧
    Focus.Ok it.focus v 0 v.toList.length

theorem new_ok {v : RVec α} {h : Nat} (i : InvH v h) : ∃ it, new v = .ok it ∧ Has v it v.toList := by
  obtain ⟨f, e, hf⟩ := Focus.new_ok i
  exact ⟨⟨0, v.len, f⟩, by simp [new, e], by simp, by simp [i.len], by simp [i.len], hf⟩

theorem step_ok {v : RVec α} {h : Nat} (i : InvH v h) (s : Side) (it : VIter α) (m : List α) (hm : Has v it m) :
    ∃ it', step s it = .ok ((takeEnd s m).1, it') ∧ Has v it' (takeEnd s m).2 := by
  obtain ⟨h1, h2, rfl, hf⟩ := hm
  have hlt := i.lt
  rw [i.len] at hlt
  by_cases hc : it.front = it.back
  · have e0 : (v.toList.take it.back).drop it.front = [] := List.drop_of_length_le (by simp; omega)
    rw [e0, takeEnd_nil]
    refine ⟨it, ?_, h1, h2, e0.symm, hf⟩
    cases s <;> simp [step, next, nextBack, hc]
  · cases s with
    | front =>
      obtain ⟨f', e, hf'⟩ := Focus.get_ok i hf it.front (by omega)
      rw [if_pos (by omega), Nat.zero_add, List.getElem?_eq_getElem (by omega)] at e
      have e1 : (v.toList.take it.back).drop it.front =
          v.toList[it.front] :: (v.toList.take it.back).drop (it.front + 1) := by
        rw [List.drop_eq_getElem_cons (by simp; omega)]
        simp
      rw [e1]
      exact ⟨⟨it.front + 1, it.back, f'⟩, by simp [step, next, hc, e, takeEnd], by simp; omega, h2,
        by simp [takeEnd], hf'⟩
    | back =>
      obtain ⟨f', e, hf'⟩ := Focus.get_ok i hf (it.back - 1) (by omega)
      rw [if_pos (by omega), Nat.zero_add, List.getElem?_eq_getElem (by omega)] at e
      have e1 : (v.toList.take it.back).drop it.front =
          (v.toList.take (it.back - 1)).drop it.front ++ [v.toList[it.back - 1]] := by
        conv => lhs; rw [show it.back = it.back - 1 + 1 by omega]
        rw [List.take_succ_eq_append_getElem (by omega), List.drop_append_of_le_length (by simp; omega)]
      rw [e1]
      exact ⟨⟨it.front, it.back - 1, f'⟩, by simp [step, nextBack, hc, usub_ok (show 1 ≤ it.back by omega), e, takeEnd],
        by simp; omega, by simp; omega, by simp [takeEnd], hf'⟩

end VIter

theorem RVec.intoIterStep_ok {v : RVec α} {h : Nat} (i : InvH v h) (s : Side) :
    ∃ v' h', v.intoIterStep s = .ok ((takeEnd s v.toList).1, v') ∧ InvH v' h' ∧ v'.toList = (takeEnd s v.toList).2 := by
  have e0 : v.intoIterStep s = v.popSide s := by cases s <;> rfl
  rw [e0]
  by_cases hn : v.toList = []
  · rw [hn, takeEnd_nil]
    exact ⟨v, h, popSide_empty i s hn, i, hn⟩
  · obtain ⟨x, l, e⟩ := s.exists_cons hn
    obtain ⟨v', h', e1, i', t, -⟩ := popSide_ok i s e
    rw [e, takeEnd_cons]
    exact ⟨v', h', e1, i', t⟩

end Librrb
