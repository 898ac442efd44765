import Verif.Proof.Places

/-! # When exactly a mutable focus panics -/
namespace Librrb
open RVec

namespace FMut

/-- A leaf among the nodes is the first or the last of them, and these two are leaves, on `a` and on
`c` items. -/
def Tops (ns : List (BNode κ)) (a c : Nat) : Prop :=
  ∀ (ps : List (BNode κ × List κ)) (p : BNode κ × List κ) (qs : List (BNode κ × List κ)),
    ns = (ps ++ p :: qs).map Prod.fst → NodesOk (ps ++ p :: qs) →
    ((∃ b, p.1 = .leaf b) ↔ ps = [] ∨ qs = []) ∧ (ps = [] → p.2.length = a) ∧ (qs = [] → p.2.length = c)

theorem Tops.front {a c : Nat} {ps qs : List (BNode κ × List κ)} {p : BNode κ × List κ}
    (h : Tops ((ps ++ p :: qs).map Prod.fst) a c) (hN : NodesOk (ps ++ p :: qs)) (hp : ps ≠ []) : a ≤ (flat ps).length := by
  cases ps with
  | nil => exact absurd rfl hp
  | cons q ps =>
    have := (h [] q (ps ++ p :: qs) rfl hN).2.1 rfl
    simp; omega

theorem Tops.back {a c : Nat} {ps qs : List (BNode κ × List κ)} {p : BNode κ × List κ}
    (h : Tops ((ps ++ p :: qs).map Prod.fst) a c) (hN : NodesOk (ps ++ p :: qs)) (hq : qs ≠ []) : c ≤ (flat qs).length := by
  rcases List.eq_nil_or_concat qs with rfl | ⟨qs, q, rfl⟩
  · exact absurd rfl hq
  · have e : ps ++ p :: qs.concat q = (ps ++ p :: qs) ++ q :: [] := by simp
    rw [e] at h hN
    have := (h (ps ++ p :: qs) q [] rfl hN).2.2 rfl
    simp; omega

theorem At.ends {f : FMut κ} {l : List κ} {a c j : Nat} (h : At f l) (ht : Tops f.nodes a c) (hr : f.root ≠ none)
    (h1 : f.llo ≤ j) (h2 : j < f.lhi) (i : Nat) (hi : i < l.length) :
    (f.leaf = none ∧ inRange f.llo f.lhi i = true) ↔ InEnd a c l.length i j := by
  rcases h with ⟨r1, -⟩ | ⟨ps, p, qs, r1, r2, r3, r4, r5, r6, r7⟩
  · exact absurd r1 hr
  rw [r2] at ht
  have hl : l.length = (flat ps).length + p.2.length + (flat qs).length := by rw [r3]; simp [Nat.add_assoc]
  obtain ⟨t1, t2, t3⟩ := ht ps p qs rfl r4
  have tf := ht.front r4
  have tb := ht.back r4
  rw [inRange_iff]
  unfold InEnd
  cases hf : f.leaf with
  | some b =>
    rw [hf] at r6
    obtain ⟨pre, m, post, -, -, s1, s2⟩ := r6
    simp only at s1 s2
    have hn : ¬ (ps = [] ∨ qs = []) := by
      rw [← t1]
      rintro ⟨b', e⟩
      obtain ⟨i', e'⟩ := r7 (.inr (by simp [hf]))
      rw [e] at e'; cases e'
    rw [not_or] at hn
    have := tf hn.1
    have := tb hn.2
    simp; omega
  | none =>
    rw [hf] at r6
    obtain ⟨hb, e1, e2⟩ := r6
    have hn : ps = [] ∨ qs = [] := by
      rw [← t1]
      obtain ⟨x, y⟩ := p
      cases hb
      exact ⟨_, rfl⟩
    simp only [true_and]
    by_cases hp : ps = []
    · have := t2 hp
      have hp' : (flat ps).length = 0 := by rw [hp]; rfl
      by_cases hq : qs = []
      · have := t3 hq
        have hq' : (flat qs).length = 0 := by rw [hq]; rfl
        omega
      · have := tb hq
        omega
    · have hq : qs = [] := hn.resolve_left hp
      have := t3 hq
      have hq' : (flat qs).length = 0 := by rw [hq]; rfl
      have := tf hp
      omega

/-- What a focus remembers: the last index in range it was asked for, and whether one out of range
was asked for since. -/
structure Recalls (f : FMut κ) (a c n : Nat) (last : Option Nat) (out : Bool) : Prop where
  tops : Tops f.nodes a c
  root : f.root = none ↔ out = true ∨ last = none
  stale : ∀ i, i < n → ((f.leaf = none ∧ inRange f.llo f.lhi i = true) ↔ ∃ j, last = some j ∧ InEnd a c n i j)

theorem Ok.leaf_none {f : FMut κ} {l : List κ} (h : Ok f l) (hr : f.root = none) : f.leaf = none := by
  rcases h.pos with ⟨-, -, h, -⟩ | ⟨ps, p, qs, r1, -⟩
  · exact h
  · rw [r1] at hr; cases hr

theorem get_recalls {f : FMut κ} {l : List κ} (h : Ok f l) {a c : Nat} {last : Option Nat} {out : Bool}
    (hr : Recalls f a c l.length last out) {i : Nat} (hi : i < l.length) :
    ((out = true → ∀ j, last = some j → ¬ InEnd a c l.length i j) →
      ∃ f', f.get i = .ok (some l[i], f') ∧ Ok f' l ∧ Recalls f' a c l.length (some i) false) ∧
    (¬ (out = true → ∀ j, last = some j → ¬ InEnd a c l.length i j) → f.get i = .error .panic) := by
  constructor
  · intro hs
    obtain ⟨f', e, ho, g1, g2, g3, g4⟩ := get_at h hi (by
      intro hn
      by_contra hx
      obtain ⟨j, hj, hj'⟩ := (hr.stale i hi).1 ⟨h.leaf_none hn, by simpa using hx⟩
      rcases hr.root.1 hn with ho | ho
      · exact hs ho j hj hj'
      · rw [ho] at hj; cases hj)
    refine ⟨f', e, ho, by rw [g4]; exact hr.tops, by simp [g1], ?_⟩
    intro i' hi'
    rw [ho.pos.ends (by rw [g4]; exact hr.tops) g1 g2 g3 i' hi']
    simp
  · intro hs
    simp only [not_forall, Classical.not_not] at hs
    obtain ⟨ho, j, hj, hj'⟩ := hs
    exact get_stale h (hr.root.2 (.inl ho)) ((hr.stale i hi).2 ⟨j, hj, hj'⟩).2

theorem out_recalls {f : FMut κ} {l : List κ} (h : Ok f l) {a c : Nat} {last : Option Nat} {out : Bool}
    (hr : Recalls f a c l.length last out) {i : Nat} (hi : l.length ≤ i) :
    ∃ f', f.get i = .ok (none, f') ∧ Ok f' l ∧ Recalls f' a c l.length last true := by
  obtain ⟨f', e, ho, g1, g2, g3, g4⟩ := get_away h hi
  refine ⟨f', e, ho, by rw [g2]; exact hr.tops, by simp [g1], ?_⟩
  intro i' hi'
  rw [g4, ← hr.stale i' hi']
  simp [g3]

end FMut

/-! ### The nodes of a fresh focus -/

theorem RVec.borrowNodes_append : ∀ {as bs : List (Node κ)} {ns : List (BNode κ)}, borrowNodes (as ++ bs) = .ok ns →
    ∃ ps qs, borrowNodes as = .ok ps ∧ borrowNodes bs = .ok qs ∧ ns = ps ++ qs
  | [], bs, ns, e => ⟨[], ns, rfl, e, rfl⟩
  | x :: as, bs, ns, e => by
    rw [List.cons_append, borrowNodes] at e
    obtain ⟨k, e1, e⟩ := bind_ok e
    by_cases hk : k = true
    · subst hk
      simp only [Bool.not_true, Bool.false_eq_true, if_false] at e
      obtain ⟨ps, qs, e2, e3, e4⟩ := borrowNodes_append e
      exact ⟨ps, qs, by rw [borrowNodes, e1, ok_bind]; simpa using e2, e3, e4⟩
    · have hk : k = false := by simpa using hk
      subst hk
      simp only [Bool.not_false, if_true] at e
      obtain ⟨b, e5, e⟩ := bind_ok e
      obtain ⟨r, e6, e⟩ := bind_ok e
      cases e
      obtain ⟨ps, qs, e2, e3, e4⟩ := borrowNodes_append e6
      exact ⟨b :: ps, qs, by rw [borrowNodes, e1, ok_bind]; simp [e5, e2], e3, by rw [e4]; rfl⟩

theorem RVec.borrowNodes_internal : ∀ {as : List (Node κ)} {ns : List (BNode κ)}, borrowNodes as = .ok ns →
    (∀ x ∈ as, ∃ n, x.Wf (n + 1)) → ∀ b ∈ ns, ∃ i, b = .internal i
  | [], ns, e, _ => by cases e; simp
  | x :: as, ns, e, h => by
    rw [borrowNodes] at e
    obtain ⟨k, e1, e⟩ := bind_ok e
    by_cases hk : k = true
    · subst hk
      simp only [Bool.not_true, Bool.false_eq_true, if_false] at e
      exact borrowNodes_internal e fun x hx => h x (by simp [hx])
    · have hk : k = false := by simpa using hk
      subst hk
      simp only [Bool.not_false, if_true] at e
      obtain ⟨b, e5, e⟩ := bind_ok e
      obtain ⟨r, e6, e⟩ := bind_ok e
      cases e
      intro b' hb
      rcases List.mem_cons.1 hb with rfl | hb
      · obtain ⟨n, hn⟩ := h x (by simp)
        cases x with
        | leaf c => exact absurd hn (by simp [Node.Wf])
        | internal s l c =>
          rw [Node.borrow] at e5
          obtain ⟨v, -, e5⟩ := bind_ok e5
          cases e5
          exact ⟨_, rfl⟩
      · exact borrowNodes_internal e6 (fun x hx => h x (by simp [hx])) b' hb

theorem RVec.borrowNodes_leaf {x : Node κ} (hw : x.Wf 0) (hs : x.slots ≠ 0) (hlt : x.toList.length < USIZE_LIMIT) :
    ∃ b, borrowNodes [x] = .ok [.leaf b] := by
  have hne : x.toList ≠ [] := by
    intro h
    exact hs ((hw.slots_eq_zero).2 h)
  obtain ⟨b, e, hb⟩ := Node.borrow_ok hw hne hlt
  cases hb with
  | leaf hb =>
    rename_i b pre post
    refine ⟨b, ?_⟩
    rw [borrowNodes, hw.isEmpty, ok_bind]
    simp [hne, e, borrowNodes]

/-- The nodes of the fresh focus of a vector with items. -/
theorem RVec.focusMut_shape {v : RVec κ} {h : Nat} (i : InvH v h) (hne : v.toList ≠ []) {f : FMut κ}
    (e : v.focusMut = .ok f) : (∃ b, f.nodes = [.leaf b]) ∨
      ∃ b M b', f.nodes = .leaf b :: M ++ [.leaf b'] ∧ ∀ x ∈ M, ∃ i, x = .internal i := by
  have hlt := i.lt
  rw [i.len] at hlt
  rw [focusMut] at e
  obtain ⟨ns, e, e'⟩ := bind_ok e
  have hf : f.nodes = ns := by
    rw [FMut.fromNodes] at e'
    obtain ⟨n, -, e'⟩ := bind_ok e'
    cases e'; rfl
  rw [hf]
  clear hf e'
  have ht : v.toList = v.left.flatMap Node.toList ++ v.root.toList ++ v.right.reverse.flatMap Node.toList := by simp [toList]
  cases h with
  | zero =>
    have h1 : v.left = [] := List.eq_nil_of_length_eq_zero (i.length .front)
    have h2 : v.right = [] := List.eq_nil_of_length_eq_zero (i.length .back)
    simp only [h1, h2, List.reverse_nil, List.nil_append, List.append_nil, List.flatMap_nil] at e ht
    obtain ⟨b, eb⟩ := borrowNodes_leaf i.root (by
      intro hs
      exact hne (ht.trans ((i.root.slots_eq_zero).1 hs))) (by rw [← ht]; exact hlt)
    rw [eb] at e
    cases e
    exact .inl ⟨b, rfl⟩
  | succ h =>
    right
    have hl := i.length .front
    have hs := i.spine .front
    have hh := i.head .front
    have hl' := i.length .back
    have hs' := i.spine .back
    have hh' := i.head .back
    simp only [spine_front, spine_back] at hl hs hh hl' hs' hh'
    match hx : v.left, hl with
    | x :: xs, _ =>
      match hy : v.right, hl' with
      | y :: ys, _ =>
        rw [hx] at hs hh
        rw [hy] at hs' hh'
        rw [headOk_cons] at hh hh'
        rw [hx, hy] at ht e
        have e0 : (x :: xs) ++ [v.root] ++ (y :: ys).reverse = ([x] ++ (xs ++ [v.root] ++ ys.reverse)) ++ [y] := by simp
        rw [e0] at e
        obtain ⟨ps, qs, e1, e2, rfl⟩ := borrowNodes_append e
        obtain ⟨ps, rs, e3, e4, rfl⟩ := borrowNodes_append e1
        have hlx : x.toList.length < USIZE_LIMIT ∧ y.toList.length < USIZE_LIMIT := by
          have := congrArg List.length ht
          simp at this
          omega
        obtain ⟨b, eb⟩ := borrowNodes_leaf hs.1 hh hlx.1
        obtain ⟨b', eb'⟩ := borrowNodes_leaf hs'.1 hh' hlx.2
        rw [eb] at e3; cases e3
        rw [eb'] at e2; cases e2
        refine ⟨b, rs, b', by simp, borrowNodes_internal e4 ?_⟩
        intro z hz
        simp only [List.mem_append, List.mem_singleton, List.mem_reverse] at hz
        rcases hz with (hz | rfl) | hz
        · obtain ⟨k, hk, rfl⟩ := List.getElem_of_mem hz
          have := (hs.getElem (i := k + 1) (by simpa using hk)).1
          exact ⟨k, by simpa using this⟩
        · exact ⟨h, i.root⟩
        · obtain ⟨k, hk, rfl⟩ := List.getElem_of_mem hz
          have := (hs'.getElem (i := k + 1) (by simpa using hk)).1
          exact ⟨k, by simpa using this⟩

theorem FMut.leaf_length {b : BBuf κ} {l : List κ} {n : Nat} (h : BNode.Has n (.leaf b) l) : l.length = b.length ∧ l.length ≤ 64 := by
  cases h with
  | leaf h => exact ⟨h.length.symm, by have := h.le; omega⟩

/-- The first and the last node of a fresh focus. -/
theorem RVec.focusMut_tops {v : RVec κ} {h : Nat} (i : InvH v h) {f : FMut κ} (e : v.focusMut = .ok f) :
    ∃ a c, FMut.Tops f.nodes a c ∧ (v.toList ≠ [] → 0 < a ∧ a ≤ 64 ∧ 0 < c ∧ c ≤ 64 ∧
      (a = v.toList.length ∧ c = v.toList.length ∨ a + c ≤ v.toList.length)) := by
  obtain ⟨f', e', ho, -⟩ := focusMut_ok i
  rw [e] at e'; cases e'
  obtain ⟨ps, n1, n2, n3⟩ := ho.nodes
  by_cases hne : v.toList = []
  · refine ⟨0, 0, ?_, fun h => absurd hne h⟩
    have : ps = [] := by
      cases ps with
      | nil => rfl
      | cons p ps =>
        rw [hne] at n2
        have := (n3 p (by simp)).1
        simp at n2
        exact absurd n2.1 this
    rw [n1, this]
    intro ps p qs e
    simp at e
  · rcases focusMut_shape i hne e with ⟨b, hb⟩ | ⟨b, M, b', hb, hM⟩
    · refine ⟨b.length, b.length, ?_, fun _ => ?_⟩
      · rw [hb]
        intro ps p qs e hN
        have hl := congrArg List.length e
        simp only [List.length_cons, List.length_nil, List.length_map, List.length_append] at hl
        have h1 : ps = [] := List.eq_nil_of_length_eq_zero (by omega)
        have h2 : qs = [] := List.eq_nil_of_length_eq_zero (by omega)
        subst h1 h2
        simp at e
        obtain ⟨n, hn⟩ := (hN p (by simp)).2
        rw [← e] at hn
        have := FMut.leaf_length hn
        exact ⟨⟨fun _ => .inl rfl, fun _ => ⟨b, e.symm⟩⟩, fun _ => this.1, fun _ => this.1⟩
      · rw [n1] at hb
        have hp1 := congrArg List.length hb
        simp only [List.length_map, List.length_cons, List.length_nil] at hp1
        obtain ⟨p, rfl⟩ := List.length_eq_one_iff.1 hp1
        · simp at hb
          obtain ⟨h1, n, hn⟩ := n3 p (by simp)
          rw [hb] at hn
          have := FMut.leaf_length hn
          have := List.length_pos_of_ne_nil h1
          simp at n2
          rw [n2]
          omega
    · have hfst : ∀ p ∈ ps, ∀ b, p.1 = .leaf b → p.2.length = b.length ∧ p.2.length ≤ 64 ∧ 0 < p.2.length := by
        intro p hp b hb
        obtain ⟨h1, n, hn⟩ := n3 p hp
        rw [hb] at hn
        have := FMut.leaf_length hn
        exact ⟨this.1, this.2, List.length_pos_of_ne_nil h1⟩
      refine ⟨b.length, b'.length, ?_, fun _ => ?_⟩
      · rw [hb]
        intro ps p qs e hN
        have hlen : ∀ b, p.1 = .leaf b → p.2.length = b.length := by
          intro b hb
          obtain ⟨n, hn⟩ := (hN p (by simp)).2
          rw [hb] at hn
          exact (FMut.leaf_length hn).1
        cases ps with
        | nil =>
          simp at e
          have hp := e.1.symm
          refine ⟨⟨fun _ => .inl rfl, fun _ => ⟨b, hp⟩⟩, fun _ => hlen b hp, fun hq => ?_⟩
          subst hq
          simp at e
        | cons q ps =>
          rcases List.eq_nil_or_concat qs with rfl | ⟨qs, z, rfl⟩
          · have e : (.leaf b :: M) ++ [.leaf b'] = (q :: ps).map Prod.fst ++ [p.1] := by rw [e]; simp
            have hp := (List.append_inj' e rfl).2
            simp at hp
            exact ⟨⟨fun _ => .inr rfl, fun _ => ⟨b', hp.symm⟩⟩, by simp, fun _ => hlen b' hp.symm⟩
          · have e : .leaf b :: M ++ [.leaf b'] = (q :: ps ++ p :: qs).map Prod.fst ++ [z.1] := by rw [e]; simp
            have h1 := (List.append_inj' e rfl).1
            simp at h1
            have hp : p.1 ∈ M := by rw [h1.2]; simp
            obtain ⟨i, hi⟩ := hM _ hp
            refine ⟨⟨fun ⟨b, hb⟩ => ?_, fun h => ?_⟩, by simp, by simp⟩
            · rw [hi] at hb; cases hb
            · rcases h with h | h
              · cases h
              · simp at h
      · rw [n1] at hb
        match ps, hb with
        | p :: ps, hb =>
          rcases List.eq_nil_or_concat ps with rfl | ⟨qs, z, rfl⟩
          · simp at hb
          · have hb' : (p :: qs).map Prod.fst ++ [z.1] = .leaf b :: M ++ [.leaf b'] := by rw [← hb]; simp
            obtain ⟨h1, h2⟩ := List.append_inj' hb' rfl
            simp at h1 h2
            have f1 := hfst p (by simp) b h1.1
            have f2 := hfst z (by simp) b' h2
            have := congrArg List.length n2
            simp at this
            omega

/-! ### Scripts -/

theorem Careful.mono {same same' : Nat → Nat → Prop} {n : Nat} (h : ∀ i j, i < n → j < n → same i j → same' i j) :
    ∀ {last : Option Nat} {out : Bool} {is : List Nat}, (∀ j, last = some j → j < n) →
    Careful same' n last out is → Careful same n last out is
  | _, _, [], _, _ => trivial
  | last, out, i :: is, hl, hc => by
    refine ⟨fun hi => ⟨fun ho j hj hs => (hc.1 hi).1 ho j hj (h i j hi (hl j hj) hs),
      Careful.mono h (by rintro j ⟨⟩; exact hi) (hc.1 hi).2⟩, fun hi => Careful.mono h hl (hc.2 hi)⟩

theorem FOp.run_of_get {v : RVec α} {l : List α} (b : Built v) (h : Shows v l) {f f' : FMut Cell} (o : FOp α)
    (hi : o.index < l.length) {c : Cell} (hc : v.cells.toList[o.index]? = some c) (e : f.get o.index = .ok (some c, f')) :
    ∃ v', o.run (v, f) = .ok ((o.spec l).1, (v', f')) ∧ Built v' ∧ Shows v' (o.spec l).2 ∧
      v'.cells.toList = v.cells.toList := by
  cases o with
  | read i =>
    simp only [FOp.index] at hc e hi
    obtain ⟨e1, -⟩ := b.write h hi hc l[i]
    refine ⟨v, ?_, b, h, rfl⟩
    simp only [FOp.run, FOp.index, e, ok_bind, FOp.access, e1, FOp.spec]
    rw [List.getElem?_eq_getElem hi]
  | write i x =>
    simp only [FOp.index] at hc e hi
    obtain ⟨e1, v', e2, b', h', hc'⟩ := b.write h hi hc x
    refine ⟨v', ?_, b', h', hc'⟩
    simp only [FOp.run, FOp.index, e, ok_bind, FOp.access, e1, e2, FOp.spec]
    rw [List.getElem?_eq_getElem hi]

theorem FOp.runAll_exact {a c : Nat} {cs : List Cell} : ∀ (ops : List (FOp α)) {v : RVec α} {l : List α} {f : FMut Cell}
    {last : Option Nat} {out : Bool}, Built v → Shows v l → v.cells.toList = cs → FMut.Ok f cs →
    FMut.Recalls f a c cs.length last out →
    (Careful (InEnd a c cs.length) cs.length last out (ops.map FOp.index) →
      ∃ v' f', runAll FOp.run ops (v, f) = .ok ((FOp.specAll ops l).1, (v', f')) ∧ Built v' ∧
        Shows v' (FOp.specAll ops l).2) ∧
    (¬ Careful (InEnd a c cs.length) cs.length last out (ops.map FOp.index) →
      runAll FOp.run ops (v, f) = .error .panic) := by
  intro ops
  induction ops with
  | nil => intro v l f last out b h _ _ _; exact ⟨fun _ => ⟨v, f, rfl, b, h⟩, fun h => absurd trivial h⟩
  | cons o os ih =>
    intro v l f last out b h hc ho hr
    have hcl := b.cells_length h
    rw [hc] at hcl
    by_cases hi : o.index < cs.length
    · obtain ⟨g1, g2⟩ := FMut.get_recalls ho hr hi
      by_cases hs : out = true → ∀ j, last = some j → ¬ InEnd a c cs.length o.index j
      · obtain ⟨f1, e1, o1, r1⟩ := g1 hs
        obtain ⟨v1, e2, b1, h1, c1⟩ := FOp.run_of_get b h o (by omega) (by rw [hc]; exact List.getElem?_eq_getElem hi) e1
        obtain ⟨i1, i2⟩ := ih b1 h1 (c1.trans hc) o1 r1
        have hx : Careful (InEnd a c cs.length) cs.length last out ((o :: os).map FOp.index) ↔
            Careful (InEnd a c cs.length) cs.length (some o.index) false (os.map FOp.index) := by
          simp only [List.map_cons, Careful]
          exact ⟨fun x => (x.1 hi).2, fun x => ⟨fun _ => ⟨hs, x⟩, fun x => by omega⟩⟩
        rw [hx]
        constructor
        · intro hca
          obtain ⟨v2, f2, e3, b2, h2⟩ := i1 hca
          refine ⟨v2, f2, ?_, b2, h2⟩
          rw [runAll, e2, ok_bind]
          simp only
          rw [e3, ok_bind]
          rfl
        · intro hca
          rw [runAll, e2, ok_bind]
          simp only
          rw [i2 hca]
          rfl
      · have e1 := g2 hs
        have e2 : runAll FOp.run (o :: os) (v, f) = .error .panic := by rw [runAll, FOp.run]; simp only; rw [e1]; rfl
        refine ⟨fun hca => absurd (hca.1 hi).1 hs, fun _ => e2⟩
    · obtain ⟨f1, e1, o1, r1⟩ := FMut.out_recalls ho hr (i := o.index) (by omega)
      have e2 : o.run (v, f) = .ok (none, (v, f1)) := by simp only [FOp.run, e1, ok_bind, FOp.access]
      have hsp : o.spec l = (none, l) := by
        cases o with
        | read i => simp only [FOp.spec, FOp.index] at *; rw [List.getElem?_eq_none (by omega)]
        | write i x =>
          simp only [FOp.spec, FOp.index] at *
          rw [List.getElem?_eq_none (by omega), List.set_eq_of_length_le (by omega)]
      obtain ⟨i1, i2⟩ := ih b h hc o1 r1
      have hx : Careful (InEnd a c cs.length) cs.length last out ((o :: os).map FOp.index) ↔
          Careful (InEnd a c cs.length) cs.length last true (os.map FOp.index) := by
        simp only [List.map_cons, Careful]
        exact ⟨fun x => x.2 (by omega), fun x => ⟨fun h => by omega, fun _ => x⟩⟩
      rw [hx]
      constructor
      · intro hca
        obtain ⟨v2, f2, e3, b2, h2⟩ := i1 hca
        refine ⟨v2, f2, ?_, b2, by rw [FOp.specAll, hsp]; exact h2⟩
        rw [runAll, e2, ok_bind]
        simp only
        rw [e3, ok_bind, FOp.specAll, hsp]
      · intro hca
        rw [runAll, e2, ok_bind]
        simp only
        rw [i2 hca]
        rfl

end Librrb
