import Verif.Proof.AnnotatedAddr
import Verif.Proof.Places

/-!
# What a mutable focus has borrowed, and that it covers all wrong sums
-/
namespace Librrb

/-! ### Writing does not move places -/

theorem Node.writeAt_cells {x : α} : ∀ {path : List Nat} {nd nd' : Node α} (g : List Nat → β), nd.writeAt x path = .ok nd' →
    (nd'.mapAddr fun q _ => g q) = nd.mapAddr fun q _ => g q
  | [], nd, nd', g, h => by cases nd <;> cases h
  | [p], .leaf b, nd', g, h => by
    rw [Node.writeAt] at h
    obtain ⟨d, e, h⟩ := RVec.bind_ok h
    cases h
    obtain ⟨rfl, y, hy⟩ := assignSlot_eq e
    simp only [Node.mapAddr]
    congr 2
    apply List.ext_getElem?
    intro j
    simp only [List.getElem?_mapIdx, List.getElem?_set]
    by_cases hj : p = j
    · subst hj
      obtain ⟨hlt, -⟩ := List.getElem?_eq_some_iff.1 hy
      rw [if_pos rfl, if_pos hlt, hy]; rfl
    · rw [if_neg hj]
  | [p], .internal s t c, nd', g, h => by cases h
  | p :: q :: path, .leaf b, nd', g, h => by cases h
  | p :: q :: path, .internal s t c, nd', g, h => by
    rw [Node.writeAt] at h
    obtain ⟨k, e1, h⟩ := RVec.bind_ok h
    obtain ⟨k', e2, h⟩ := RVec.bind_ok h
    obtain ⟨d, e3, h⟩ := RVec.bind_ok h
    cases h
    obtain ⟨rfl, -⟩ := assignSlot_eq e3
    have e1 := readSlot_eq e1
    have ih := Node.writeAt_cells (fun r => g (p :: r)) e2
    simp only [Node.mapAddr]
    congr 2
    apply List.ext_getElem?
    intro j
    rw [mapAddrList_getElem?, mapAddrList_getElem?, List.getElem?_set]
    by_cases hj : p = j
    · subst hj
      obtain ⟨hlt, -⟩ := List.getElem?_eq_some_iff.1 e1
      rw [if_pos rfl, if_pos hlt, e1]
      simpa using ih
    · rw [if_neg hj]

theorem RVec.writeCell_cells {v v' : RVec α} {x : α} {c : Cell} (h : v.writeCell x c = .ok v') : v'.cells = v.cells := by
  obtain ⟨pos, path⟩ := c
  obtain ⟨nd, e1, h⟩ := RVec.bind_ok h
  obtain ⟨nd', e2, h⟩ := RVec.bind_ok h
  cases h
  have hg := Node.writeAt_cells (fun q => (pos, q)) e2
  rcases pos with _ | ⟨_ | _, i⟩
  · cases e1
    simp only [cells, mapAddr, withNodeAt, hg]
  · have e1 := RVec.unwrap_eq e1
    simp only [cells, mapAddr, withNodeAt]
    congr 1
    apply List.ext_getElem?
    intro j
    simp only [List.getElem?_mapIdx, List.getElem?_set]
    by_cases hj : i = j
    · subst hj
      obtain ⟨hlt, -⟩ := List.getElem?_eq_some_iff.1 e1
      rw [if_pos rfl, if_pos hlt, e1]
      simpa using hg
    · rw [if_neg hj]
  · have e1 := RVec.unwrap_eq e1
    simp only [cells, mapAddr, withNodeAt]
    congr 1
    apply List.ext_getElem?
    intro j
    simp only [List.getElem?_mapIdx, List.getElem?_set]
    by_cases hj : i = j
    · subst hj
      obtain ⟨hlt, -⟩ := List.getElem?_eq_some_iff.1 e1
      rw [if_pos rfl, if_pos hlt, e1]
      simpa using hg
    · rw [if_neg hj]

theorem AVec.writeCell_broken {v v' : AVec} {x : Nat} {c : Cell} (h : v.writeCell x c = .ok v') {a : Home}
    (hb : v'.Broken a) : a = (c.1, c.2.dropLast) ∨ v.Broken a := by
  unfold AVec.writeCell at h
  split at h
  · obtain ⟨k, k', e1, e2, -, e4⟩ := AVec.modifyAt_broken h
    cases k with
    | internal _ _ _ _ => cases e2
    | leaf b s =>
      rw [ANode.putItem] at e2
      obtain ⟨d, -, e2⟩ := RVec.bind_ok e2
      cases e2
      rcases e4 a hb with ⟨q, rfl, k2, h3, h4⟩ | ⟨-, h3⟩ | h3
      · cases q with
        | nil => simp
        | cons p q => cases h3
      · exact absurd rfl h3
      · exact .inr h3
  · cases h

/-! ### What is borrowed -/

/-- The nodes of the path are views of a node, its parent and so on, the last below a spine node. -/
def PathOk (w : RVec Cell) (pos : Option (Side × Nat)) : List (BInternal Cell × Nat × Nat) → List Nat → Prop
  | [], path => path = []
  | q :: rest, path => Portrays w (pos, path) (.internal q.1) ∧ ∃ path' p, path = path' ++ [p] ∧ PathOk w pos rest path'

/-- The focus is below the spine node at `pos`, and its path ends at `path`. -/
structure Sits (w : RVec Cell) (f : FMut Cell) (pos : Option (Side × Nat)) (steps : List Nat) : Prop where
  root : ∃ i lo hi b, f.root = some (i, lo, hi) ∧ f.nodes[i]? = some b ∧ Portrays w (pos, []) b
  path : PathOk w pos f.path steps
  leaf : ∀ c, f.leaf = some c → ∃ p : Nat, Portrays w (pos, steps ++ [p]) (.leaf c)

/-- All that a focus has borrowed are views of whole nodes. -/
structure Rests (w : RVec Cell) (f : FMut Cell) : Prop where
  nodes : ∀ b ∈ f.nodes, ∃ pos, Portrays w (pos, []) b
  rest : (f.root = none ∧ f.path = [] ∧ f.leaf = none) ∨ ∃ pos path, Sits w f pos path

/-- Every wrong sum belongs to a node that the focus has borrowed. -/
def Covers (w : RVec Cell) (v : AVec) (f : FMut Cell) : Prop := ∀ a, v.Broken a → ∃ b ∈ f.nodes ++ f.pathNodes, Portrays w a b

theorem PathOk.dropWhile {w : RVec Cell} {pos : Option (Side × Nat)} (P : BInternal Cell × Nat × Nat → Bool) :
    ∀ {l : List (BInternal Cell × Nat × Nat)} {path : List Nat}, PathOk w pos l path → ∃ path', PathOk w pos (l.dropWhile P) path'
  | [], path, h => ⟨path, h⟩
  | q :: rest, path, h => by
    rw [List.dropWhile_cons]
    split
    · obtain ⟨-, path', p, -, h⟩ := h
      exact PathOk.dropWhile P h
    · exact ⟨path, h⟩

theorem childForPosition_slot {b : BInternal κ} {i : Nat} {k : Node κ} {lo hi : Nat}
    (h : b.childForPosition i = .ok (some (k, lo, hi))) : ∃ p : Nat, b.children.data[p]? = some (some k) := by
  unfold BInternal.childForPosition at h
  obtain ⟨o, -, h⟩ := RVec.bind_ok h
  cases o with
  | none => cases h
  | some o =>
    dsimp only at h
    unfold BInternal.childAtSlot at h
    obtain ⟨j, -, h⟩ := RVec.bind_ok h
    obtain ⟨r, -, h⟩ := RVec.bind_ok h
    cases r with
    | none => cases h
    | some r =>
      dsimp only at h
      obtain ⟨l1, -, h⟩ := RVec.bind_ok h
      obtain ⟨l2, -, h⟩ := RVec.bind_ok h
      obtain ⟨l3, -, h⟩ := RVec.bind_ok h
      obtain ⟨k', e, h⟩ := RVec.bind_ok h
      cases k' with
      | none => cases h
      | some k' =>
        cases h
        unfold BBuf.get at e
        obtain ⟨i', -, e⟩ := RVec.bind_ok e
        split at e
        · obtain ⟨x, e1, e⟩ := RVec.bind_ok e
          cases e
          unfold BBuf.derefSlot at e1
          split at e1
          · next y hy => cases e1; exact ⟨_, hy⟩
          · cases e1
        · cases e

theorem descend_sits {w : RVec Cell} {pos : Option (Side × Nat)} : ∀ {fuel : Nat} {f f' : FMut Cell} {i : Nat} {path : List Nat},
    Sits w f pos path → f.leaf = none → FMut.descend fuel f i = .ok f' →
    f'.nodes = f.nodes ∧ (∃ ext, f'.path = ext ++ f.path) ∧ ∃ path', Sits w f' pos path'
  | 0, f, f', i, path, _, _, h => by cases h
  | fuel + 1, f, f', i, path, hs, hl, h => by
    rw [FMut.descend] at h
    split at h
    · cases h
    · next parent plo phi rest hp =>
      obtain ⟨o, e0, h⟩ := RVec.bind_ok h
      obtain ⟨r, e1, h⟩ := RVec.bind_ok h
      rw [RVec.unwrap_eq e1] at e0
      obtain ⟨i', -, h⟩ := RVec.bind_ok h
      obtain ⟨lo, -, h⟩ := RVec.bind_ok h
      obtain ⟨hi, -, h⟩ := RVec.bind_ok h
      obtain ⟨child, e2, h⟩ := RVec.bind_ok h
      obtain ⟨p, hk⟩ := childForPosition_slot e0
      have hpath := hs.path
      rw [hp] at hpath
      have hv := hpath.1.child hk e2
      cases child with
      | internal b =>
        dsimp only at h
        have hs' : Sits w { f with path := (b, lo, hi) :: f.path } pos (path ++ [p]) :=
          ⟨hs.root, ⟨hv, path, p, rfl, hs.path⟩, by intro c hc; dsimp only at hc; rw [hl] at hc; cases hc⟩
        obtain ⟨g1, ⟨ext, g2⟩, g3⟩ := descend_sits hs' hl h
        exact ⟨g1, ⟨ext ++ [(b, lo, hi)], by rw [g2]; simp⟩, g3⟩
      | leaf b =>
        cases h
        exact ⟨rfl, ⟨[], rfl⟩, path, hs.root, hs.path, by intro c hc; cases hc; exact ⟨p, hv⟩⟩

theorem enter_sits {w : RVec Cell} {pos : Option (Side × Nat)} {f f' : FMut Cell} {idx rs : Nat} {path : List Nat}
    (hs : Sits w f pos path) (hl : f.leaf = none) (h : f.enter idx rs = .ok f') :
    f'.nodes = f.nodes ∧ (∃ ext, f'.path = ext ++ f.path) ∧ ∃ path', Sits w f' pos path' := by
  unfold FMut.enter at h
  split at h
  · obtain ⟨i, -, h⟩ := RVec.bind_ok h
    exact descend_sits hs hl h
  · obtain ⟨i, -, h⟩ := RVec.bind_ok h
    exact descend_sits hs hl h

theorem moveFrom_sits {w : RVec Cell} {pos : Option (Side × Nat)} {f f' : FMut Cell} {idx : Nat} {root : Nat × Nat × Nat}
    {path : List Nat} (hs : Sits w f pos path) (hr : f.root = some root) (hl : f.leaf = none) (h : f.moveFrom idx root = .ok f') :
    f'.nodes = f.nodes ∧ (∃ ext, f'.path = ext ++ f.path.dropWhile fun p => !inRange p.2.1 p.2.2 idx) ∧
      ∃ path', Sits w f' pos path' := by
  unfold FMut.moveFrom at h
  obtain ⟨path1, hp1⟩ := hs.path.dropWhile fun p => !inRange p.2.1 p.2.2 idx
  dsimp only at h
  have hs1 : Sits w { f with path := f.path.dropWhile fun p => !inRange p.2.1 p.2.2 idx } pos path1 :=
    ⟨hs.root, hp1, by intro c hc; dsimp only at hc; rw [hl] at hc; cases hc⟩
  split at h
  · next hem =>
    have hem : (f.path.dropWhile fun p => !inRange p.2.1 p.2.2 idx) = [] := by simpa using hem
    obtain ⟨nd, e1, h⟩ := RVec.bind_ok h
    have e1 := RVec.unwrap_eq e1
    obtain ⟨i, lo, hi, b, r1, r2, r3⟩ := hs.root
    rw [hr] at r1
    cases r1
    dsimp only at e1
    rw [e1] at r2
    cases r2
    rw [hem] at hp1
    cases hp1
    cases nd with
    | leaf b =>
      cases h
      exact ⟨rfl, ⟨[], rfl⟩, [], hs1.root, hs1.path, hs1.leaf⟩
    | internal b =>
      dsimp only at h
      obtain ⟨j, -, h⟩ := RVec.bind_ok h
      obtain ⟨o, e0, h⟩ := RVec.bind_ok h
      obtain ⟨r, e2, h⟩ := RVec.bind_ok h
      rw [RVec.unwrap_eq e2] at e0
      obtain ⟨clo, -, h⟩ := RVec.bind_ok h
      obtain ⟨chi, -, h⟩ := RVec.bind_ok h
      obtain ⟨child, e3, h⟩ := RVec.bind_ok h
      obtain ⟨p, hk⟩ := childForPosition_slot e0
      have hv := r3.child hk e3
      cases child with
      | internal b' =>
        dsimp only at h
        have hs' : Sits w { f with path := [(b', clo, chi)] } pos [p] :=
          ⟨hs.root, ⟨hv, [], p, rfl, rfl⟩, by intro c hc; dsimp only at hc; rw [hl] at hc; cases hc⟩
        obtain ⟨g1, ⟨ext, g2⟩, g3⟩ := enter_sits hs' hl h
        exact ⟨g1, ⟨f'.path, by rw [hem, List.append_nil]⟩, g3⟩
      | leaf b' =>
        cases h
        refine ⟨rfl, ⟨[], rfl⟩, [], hs1.root, hs1.path, ?_⟩
        intro c hc
        cases hc
        exact ⟨p, hv⟩
  · exact enter_sits hs1 hl h

theorem PathOk.unique {v : RVec α} {h : Nat} (i : RVec.InvH v h) {pos : Option (Side × Nat)}
    {l : List (BInternal Cell × Nat × Nat)} {path path' : List Nat} (h1 : PathOk v.cells pos l path)
    (h2 : PathOk v.cells pos l path') : path = path' := by
  cases l with
  | nil => exact h1.trans h2.symm
  | cons q rest =>
    have := h1.1.unique i h2.1
    injection this

theorem AVec.dropBorrowed_append : ∀ (xs ys : List (BNode Cell)) (v : AVec),
    v.dropBorrowed (xs ++ ys) = (v.dropBorrowed xs >>= fun v => v.dropBorrowed ys)
  | [], ys, v => rfl
  | x :: xs, ys, v => by
    simp only [List.cons_append, AVec.dropBorrowed, bind_assoc]
    congr 1
    funext a
    congr 1
    funext v1
    exact AVec.dropBorrowed_append xs ys v1

/-- Dropping one view. -/
theorem AVec.dropOne {v v' : AVec} {h : Nat} (i : RVec.InvH v.erase h) {a : Home} {b : BNode Cell} {bs : List (BNode Cell)}
    (hv : Portrays v.erase.cells a b) (e : v.dropBorrowed (b :: bs) = .ok v') :
    ∃ v1 : AVec, v1.dropBorrowed bs = .ok v' ∧ v1.erase = v.erase ∧
      (∀ a2, v1.Broken a2 → (∃ p, a = (a2.1, a2.2 ++ [p])) ∨ v.Broken a2 ∧ a2 ≠ a) ∧
      (¬ v.Broken a → ∀ a2, v1.Broken a2 → v.Broken a2) := by
  rw [AVec.dropBorrowed] at e
  obtain ⟨a', e1, e⟩ := RVec.bind_ok e
  obtain ⟨v1, e2, e3⟩ := RVec.bind_ok e
  have := hv.home i
  rw [e1] at this
  cases this
  exact ⟨v1, e3, AVec.modifyAt_quiet (ANode.refresh_quiet b) e2, AVec.refresh_broken i hv e2⟩

theorem dropPath {pos : Option (Side × Nat)} (P : BInternal Cell × Nat × Nat → Bool) {w : RVec Cell} :
    ∀ {l : List (BInternal Cell × Nat × Nat)} {v v1 : AVec} {h : Nat} {path path' : List Nat}, RVec.InvH v.erase h →
      v.erase.cells = w → PathOk w pos l path → PathOk w pos (l.dropWhile P) path' →
      v.dropBorrowed ((l.takeWhile P).map fun p => BNode.internal p.1) = .ok v1 →
      ∀ a, v1.Broken a → a = (pos, path') ∨ v.Broken a ∧ ∀ q ∈ l.takeWhile P, ¬ Portrays w a (.internal q.1)
  | [], v, v1, h, path, path', i, hw, h1, h2, e => by cases e; intro a ha; exact .inr ⟨ha, by simp⟩
  | q :: rest, v, v1, h, path, path', i, hw, h1, h2, e => by
    rw [List.takeWhile_cons] at e ⊢
    rw [List.dropWhile_cons] at h2
    by_cases hP : P q = true
    · rw [if_pos hP] at e ⊢
      rw [if_pos hP] at h2
      rw [List.map_cons] at e
      obtain ⟨hq, path'', p, rfl, hrest⟩ := h1
      obtain ⟨v2, e2, hv2, hb, -⟩ := AVec.dropOne i (by rw [hw]; exact hq) e
      have ih := dropPath P (v := v2) (by rw [hv2]; exact i) (by rw [hv2]; exact hw) hrest h2 e2
      intro a ha
      rcases ih a ha with rfl | ⟨h3, h4⟩
      · exact .inl rfl
      · rcases hb a h3 with ⟨p', hp'⟩ | ⟨h5, h6⟩
        · have : a = (pos, path'') := by
            simp only [Prod.mk.injEq, List.append_inj_right'] at hp'
            obtain ⟨r1, r2⟩ := hp'
            have := List.append_inj_left' r2 rfl
            rw [r1, this]
          subst this
          cases rest with
          | nil =>
            cases hrest
            cases h2
            exact .inl rfl
          | cons q' rest =>
            rw [List.takeWhile_cons] at h4
            rw [List.dropWhile_cons] at h2
            by_cases hP' : P q' = true
            · rw [if_pos hP'] at h4
              exact absurd hrest.1 (h4 q' (by simp))
            · rw [if_neg hP'] at h2
              subst hw
              rw [PathOk.unique i hrest h2]
              exact .inl rfl
        · refine .inr ⟨h5, ?_⟩
          intro q' hq'
          rcases List.mem_cons.1 hq' with rfl | hq'
          · intro h7
            subst hw
            exact h6 (h7.unique i hq)
          · exact h4 q' hq'
    · rw [if_neg hP] at e ⊢
      cases e
      intro a ha
      exact .inr ⟨ha, by simp⟩

/-- The leaf and the end of the path are dropped. -/
theorem dropEnd {pos : Option (Side × Nat)} (P : BInternal Cell × Nat × Nat → Bool) {w : RVec Cell} {f : FMut Cell} {path : List Nat}
    {v v1 : AVec} {h : Nat} (i : RVec.InvH v.erase h) (hw : v.erase.cells = w) (hs : Sits w f pos path)
    (hn : ∀ b ∈ f.nodes, ∃ pos, Portrays w (pos, []) b) (hc : Covers w v f)
    (e : v.dropBorrowed (f.leaf.toList.map BNode.leaf ++ (f.path.takeWhile P).map fun p => BNode.internal p.1) = .ok v1) :
    ∀ a, v1.Broken a → ∃ b ∈ f.nodes ++ (f.path.dropWhile P).map (fun p => BNode.internal p.1), Portrays w a b := by
  obtain ⟨path', hp'⟩ := hs.path.dropWhile P
  have hend : ∃ b ∈ f.nodes ++ (f.path.dropWhile P).map (fun p => BNode.internal p.1), Portrays w (pos, path') b := by
    cases hd : f.path.dropWhile P with
    | nil =>
      rw [hd] at hp'
      cases hp'
      obtain ⟨j, lo, hi, b, -, r2, r3⟩ := hs.root
      exact ⟨b, by simp [List.mem_of_getElem? r2], r3⟩
    | cons q rest =>
      rw [hd] at hp'
      exact ⟨_, by simp, hp'.1⟩
  have hold : ∀ a, v.Broken a → (∀ c, f.leaf = some c → ¬ Portrays w a (.leaf c)) →
      (∀ q ∈ f.path.takeWhile P, ¬ Portrays w a (.internal q.1)) →
      ∃ b ∈ f.nodes ++ (f.path.dropWhile P).map (fun p => BNode.internal p.1), Portrays w a b := by
    intro a ha h1 h2
    obtain ⟨b, hb, hv⟩ := hc a ha
    rw [FMut.pathNodes, List.mem_append, List.mem_append, List.mem_map, List.mem_map] at hb
    rcases hb with hb | ⟨c, hc', rfl⟩ | ⟨q, hq, rfl⟩
    · exact ⟨b, by simp [hb], hv⟩
    · exact absurd hv (h1 c (by simpa using hc'))
    · rw [← List.takeWhile_append_dropWhile (p := P) (l := f.path), List.mem_append] at hq
      rcases hq with hq | hq
      · exact absurd hv (h2 q hq)
      · exact ⟨_, List.mem_append_right _ (List.mem_map_of_mem hq), hv⟩
  intro a ha
  cases hl : f.leaf with
  | none =>
    rw [hl] at e
    rcases dropPath P i hw hs.path hp' e a ha with rfl | ⟨h1, h2⟩
    · exact hend
    · exact hold a h1 (by simp [hl]) h2
  | some c =>
    rw [hl] at e
    obtain ⟨p, hv⟩ := hs.leaf c hl
    obtain ⟨v2, e2, hv2, hb, -⟩ := AVec.dropOne i (by rw [hw]; exact hv) e
    rcases dropPath P (v := v2) (by rw [hv2]; exact i) (by rw [hv2]; exact hw) hs.path hp' e2 a ha with rfl | ⟨h1, h2⟩
    · exact hend
    · rcases hb a h1 with ⟨p', hp1⟩ | ⟨h3, h4⟩
      · have : a = (pos, path) := by
          simp only [Prod.mk.injEq] at hp1
          obtain ⟨r1, r2⟩ := hp1
          have := List.append_inj_left' r2 rfl
          rw [r1, this]
        subst this
        cases hpa : f.path with
        | nil =>
          have h5 := hs.path
          rw [hpa] at h5
          cases h5
          rw [hpa] at hp'
          cases hp'
          rw [hpa] at hend
          exact hend
        | cons q rest =>
          have h5 := hs.path
          rw [hpa] at h5 h2
          rw [List.takeWhile_cons] at h2
          by_cases hP : P q = true
          · rw [if_pos hP] at h2
            exact absurd h5.1 (h2 q (by simp))
          · refine ⟨_, ?_, h5.1⟩
            rw [List.dropWhile_cons, if_neg hP]
            simp
      · refine hold a h3 ?_ h2
        intro c' hc'
        rw [hl] at hc'
        cases hc'
        intro h5
        subst hw
        exact h4 (h5.unique i hv)

theorem mem_pathNodes_ext {f : FMut Cell} {ext l : List (BInternal Cell × Nat × Nat)} (h : f.path = ext ++ l) {b : BNode Cell}
    (hb : b ∈ l.map fun p => BNode.internal p.1) : b ∈ f.pathNodes := by
  rw [FMut.pathNodes, h]
  simp only [List.map_append, List.mem_append]
  exact .inr (.inr hb)

/-- The second half of `moveFocus`. -/
def FMut.lodge (g : FMut Cell) (idx : Nat) : M (FMut Cell) :=
  match g.root with
  | some root => g.moveFrom idx root
  | none =>
    if idx < g.len then do
      let p ← unwrap (← g.findNodeInfoForIndex idx)
      let start ← usub idx p.2
      let nd ← unwrap g.nodes[p.1]?
      let n ← nd.len
      let stop ← uadd start n
      { g with root := some (p.1, start, stop) }.moveFrom idx (p.1, start, stop)
    else .ok g

theorem settle_fresh {w : RVec Cell} {f g f' : FMut Cell} {idx : Nat} {v1 : AVec} (hr : Rests w f) (g1 : g.nodes = f.nodes)
    (g2 : g.root = none) (g3 : g.path = []) (g4 : g.leaf = none) (hb : ∀ a, v1.Broken a → ∃ b ∈ f.nodes, Portrays w a b)
    (em : g.lodge idx = .ok f') : Rests w f' ∧ Covers w v1 f' ∧ f'.nodes = f.nodes := by
  unfold FMut.lodge at em
  rw [g2] at em
  dsimp only at em
  split at em
  · obtain ⟨o, -, em⟩ := RVec.bind_ok em
    obtain ⟨p, -, em⟩ := RVec.bind_ok em
    obtain ⟨start, -, em⟩ := RVec.bind_ok em
    obtain ⟨nd, e1, em⟩ := RVec.bind_ok em
    have e1 := RVec.unwrap_eq e1
    obtain ⟨n, -, em⟩ := RVec.bind_ok em
    obtain ⟨stop, -, em⟩ := RVec.bind_ok em
    obtain ⟨pos, hv⟩ := hr.nodes nd (by rw [← g1]; exact List.mem_of_getElem? e1)
    have hs : Sits w { g with root := some (p.1, start, stop) } pos [] :=
      ⟨⟨_, _, _, nd, rfl, e1, hv⟩, by dsimp only; rw [g3]; rfl, by intro c hc; dsimp only at hc; rw [g4] at hc; cases hc⟩
    obtain ⟨m1, -, path', m3⟩ := moveFrom_sits hs rfl g4 em
    have m1 : f'.nodes = f.nodes := m1.trans g1
    refine ⟨⟨by rw [m1]; exact hr.nodes, .inr ⟨pos, path', m3⟩⟩, ?_, m1⟩
    intro a ha
    obtain ⟨b, hb1, hb2⟩ := hb a ha
    exact ⟨b, by rw [m1]; exact List.mem_append_left _ hb1, hb2⟩
  · cases em
    refine ⟨⟨by rw [g1]; exact hr.nodes, .inl ⟨g2, g3, g4⟩⟩, ?_, g1⟩
    intro a ha
    obtain ⟨b, hb1, hb2⟩ := hb a ha
    exact ⟨b, by rw [g1]; exact List.mem_append_left _ hb1, hb2⟩

/-- The first half of `moveFocus`. -/
def FMut.leave (g : FMut Cell) (idx : Nat) : FMut Cell :=
  match g.root with
  | some (_, lo, hi) => if !inRange lo hi idx then g.dropPathNodes else g
  | none => g

theorem FMut.moveFocus_steps (f : FMut Cell) (idx : Nat) (h : ¬ inRange f.llo f.lhi idx = true) :
    f.moveFocus idx = ((if f.leaf.isSome then { f with leaf := none, llo := 0, lhi := 0 } else f).leave idx).lodge idx := by
  unfold FMut.moveFocus
  rw [if_neg h]
  rfl

/-- `move_focus` drops what it leaves, and all wrong sums stay covered. -/
theorem moveFocus_covers {w : RVec Cell} {f f' : FMut Cell} {idx : Nat} {v v1 : AVec} {h : Nat} (i : RVec.InvH v.erase h)
    (hw : v.erase.cells = w) (hr : Rests w f) (hc : Covers w v f) (e : v.dropBorrowed (f.moveDrops idx) = .ok v1)
    (em : f.moveFocus idx = .ok f') : Rests w f' ∧ Covers w v1 f' ∧ f'.nodes = f.nodes := by
  unfold FMut.moveDrops at e
  by_cases hin : inRange f.llo f.lhi idx = true
  · unfold FMut.moveFocus at em
    rw [if_pos hin] at e em
    cases e
    cases em
    exact ⟨hr, hc, rfl⟩
  · rw [FMut.moveFocus_steps f idx hin] at em
    rw [if_neg hin] at e
    -- the focus without its leaf
    obtain ⟨g, hg, g1, g2, g3, g4⟩ : ∃ g : FMut Cell, (if f.leaf.isSome then { f with leaf := none, llo := 0, lhi := 0 } else f) = g ∧
        g.nodes = f.nodes ∧ g.root = f.root ∧ g.path = f.path ∧ g.leaf = none := by
      refine ⟨_, rfl, ?_⟩
      cases hl : f.leaf with
      | none => rw [if_neg (by simp)]; exact ⟨rfl, rfl, rfl, hl⟩
      | some c => rw [if_pos (by simp)]; exact ⟨rfl, rfl, rfl, rfl⟩
    rw [hg] at em
    unfold FMut.leave at em
    rw [g2] at em
    rcases hr.rest with ⟨r1, r2, r3⟩ | ⟨pos, path, hs⟩
    · rw [r1] at e em
      rw [r2, r3] at e
      dsimp only at e em
      have hv1 : v1 = v := by
        split at e <;> (cases e; rfl)
      subst hv1
      refine settle_fresh hr g1 (g2.trans r1) (g3.trans r2) g4 ?_ em
      intro a ha
      obtain ⟨b, hb1, hb2⟩ := hc a ha
      rw [FMut.pathNodes, r2, r3] at hb1
      exact ⟨b, by simpa using hb1, hb2⟩
    · obtain ⟨ri, lo, hi, rb, r1, r2, r3⟩ := hs.root
      rw [r1] at e em
      dsimp only at e em
      by_cases hroot : (!inRange lo hi idx) = true
      · rw [if_pos hroot] at e em
        have ht : ∀ l : List (BInternal Cell × Nat × Nat), l.takeWhile (fun _ => true) = l := by
          intro l; induction l with
          | nil => rfl
          | cons q l ih => rw [List.takeWhile_cons, if_pos rfl, ih]
        have hd : ∀ l : List (BInternal Cell × Nat × Nat), l.dropWhile (fun _ => true) = [] := by
          intro l; induction l with
          | nil => rfl
          | cons q l ih => rw [List.dropWhile_cons, if_pos rfl, ih]
        have key := dropEnd (fun _ => true) i hw hs hr.nodes hc (by rw [ht]; exact e)
        rw [hd] at key
        have hdp : g.dropPathNodes = { g with root := none, path := [] } := by
          unfold FMut.dropPathNodes; rw [g4]
        rw [hdp] at em
        refine settle_fresh hr (by exact g1) rfl rfl (by exact g4) ?_ em
        intro a ha
        simpa using key a ha
      · rw [if_neg hroot] at e em
        unfold FMut.lodge at em
        rw [g2, r1] at em
        dsimp only at em
        have key := dropEnd (fun p => !inRange p.2.1 p.2.2 idx) i hw hs hr.nodes hc e
        have hs' : Sits w g pos path :=
          ⟨by rw [g1, g2]; exact hs.root, by rw [g3]; exact hs.path, by rw [g4]; intro c hc; cases hc⟩
        obtain ⟨m1, ⟨ext, m2⟩, path', m3⟩ := moveFrom_sits hs' (g2.trans r1) g4 em
        rw [g1] at m1
        rw [g3] at m2
        refine ⟨⟨by rw [m1]; exact hr.nodes, .inr ⟨pos, path', m3⟩⟩, ?_, m1⟩
        intro a ha
        obtain ⟨b, hb1, hb2⟩ := key a ha
        refine ⟨b, ?_, hb2⟩
        rw [m1, List.mem_append]
        rcases List.mem_append.1 hb1 with hb1 | hb1
        · exact .inl hb1
        · exact .inr (mem_pathNodes_ext m2 hb1)

/-! ### The place that is handed out -/

theorem Portrays.slot {w : RVec α} {h : Nat} (_ : RVec.InvH w h) {a : Home} {b : BBuf Cell} (hv : Portrays w.cells a (.leaf b)) {p : Nat}
    {c : Cell} (hp : b.data[p]? = some (some c)) : c = (a.1, a.2 ++ [p]) := by
  obtain ⟨nd, e1, e2⟩ := hv
  rw [RVec.at?_cells] at e1
  cases e3 : w.at? a with
  | none => rw [e3] at e1; cases e1
  | some k =>
    rw [e3] at e1
    cases e1
    cases k with
    | internal s t c =>
      obtain ⟨c1, c2, c3⟩ := c
      simp only [Node.mapAddr, Node.borrow] at e2
      obtain ⟨u, -, e2⟩ := RVec.bind_ok e2
      cases e2
    | leaf q =>
      obtain ⟨q1, q2, q3⟩ := q
      simp only [Node.mapAddr, Node.borrow] at e2
      obtain ⟨u, e4, e2⟩ := RVec.bind_ok e2
      cases e2
      obtain ⟨_, -, e4⟩ := RVec.bind_ok e4
      cases e4
      simp only [List.getElem?_mapIdx, Option.map_eq_some_iff] at hp
      obtain ⟨o, -, y, -, rfl⟩ := hp
      rfl

theorem BBuf.get_slot {b : BBuf κ} {i : Nat} {x : κ} (h : b.get i = .ok (some x)) : ∃ p : Nat, b.data[p]? = some (some x) := by
  unfold BBuf.get at h
  obtain ⟨i', -, h⟩ := RVec.bind_ok h
  split at h
  · obtain ⟨y, e1, h⟩ := RVec.bind_ok h
    cases h
    unfold BBuf.derefSlot at e1
    split at e1
    · next z hz => cases e1; exact ⟨_, hz⟩
    · cases e1
  · cases h

/-- The focus has nothing borrowed below the spine. -/
def FMut.Bare (f : FMut Cell) : Prop := f.leaf = none ∧ f.path = []

theorem get_place {v : RVec α} {h : Nat} (i : RVec.InvH v h) {f f' : FMut Cell} {idx : Nat} {c : Cell}
    (hm : ∀ g, f.moveFocus idx = .ok g → Rests v.cells g) (e : f.get idx = .ok (some c, f')) :
    f.moveFocus idx = .ok f' ∧ (∃ b ∈ f'.nodes ++ f'.pathNodes, Portrays v.cells (c.1, c.2.dropLast) b) ∧
      (c.2.length = 1 → f'.Bare) := by
  unfold FMut.get at e
  obtain ⟨g, e1, e⟩ := RVec.bind_ok e
  have hr := hm g e1
  split at e
  · obtain ⟨pos, -, e⟩ := RVec.bind_ok e
    split at e
    · next leaf hl =>
      obtain ⟨x, e2, e⟩ := RVec.bind_ok e
      cases e
      obtain ⟨p, hp⟩ := BBuf.get_slot e2
      rcases hr.rest with ⟨-, -, r3⟩ | ⟨sp, path, hs⟩
      · rw [hl] at r3; cases r3
      · obtain ⟨q, hv⟩ := hs.leaf leaf hl
        have hc := hv.slot i hp
        subst hc
        refine ⟨e1, ⟨.leaf leaf, ?_, ?_⟩, ?_⟩
        · simp [FMut.pathNodes, hl]
        · simpa using hv
        · intro hlen; simp at hlen
    · next hl =>
      obtain ⟨root, e3, e⟩ := RVec.bind_ok e
      have e3 := RVec.unwrap_eq e3
      obtain ⟨nd, e4, e⟩ := RVec.bind_ok e
      have e4 := RVec.unwrap_eq e4
      obtain ⟨leaf, e5, e⟩ := RVec.bind_ok e
      obtain ⟨x, e2, e⟩ := RVec.bind_ok e
      cases e
      obtain ⟨p, hp⟩ := BBuf.get_slot e2
      cases nd with
      | internal b => cases e5
      | leaf b =>
        cases e5
        rcases hr.rest with ⟨r1, -, -⟩ | ⟨sp, path, hs⟩
        · rw [e3] at r1; cases r1
        · obtain ⟨ri, lo, hi, rb, r1, r2, r3⟩ := hs.root
          rw [e3] at r1
          cases r1
          rw [e4] at r2
          cases r2
          have hc := r3.slot i hp
          subst hc
          refine ⟨e1, ⟨.leaf leaf, by simp [List.mem_of_getElem? e4], by simpa using r3⟩, fun _ => ⟨hl, ?_⟩⟩
          cases hpa : f'.path with
          | nil => rfl
          | cons q rest =>
            exfalso
            have h5 := hs.path
            rw [hpa] at h5
            obtain ⟨⟨nd1, h6, -⟩, path', p', rfl, -⟩ := h5
            obtain ⟨nd2, h7, h8⟩ := r3
            unfold RVec.at? at h6 h7
            dsimp only at h6 h7
            split at h7
            · next nd3 h9 =>
              rw [h9] at h6
              cases h7
              dsimp only at h6
              cases nd2 with
              | leaf u => cases path' <;> cases h6
              | internal s t u =>
                rw [Node.borrow] at h8
                obtain ⟨_, -, h8⟩ := RVec.bind_ok h8
                cases h8
            · cases h7
  · cases e

/-- A vector and a focus of it in the middle of its work; `w` has the places of the items. -/
structure Works (w : RVec Cell) (v : AVec) (f : FMut Cell) : Prop where
  built : Built v.erase
  cells : v.erase.cells = w
  ok : FMut.Ok f w.toList
  rests : Rests w f
  covers : Covers w v f

theorem Built.shows {v : RVec α} (b : Built v) : Shows v v.toList := by
  obtain ⟨k, i⟩ := b.inv
  exact (RVec.shows_iff i).2 rfl

/-- `get` of a focus. -/
theorem Works.get {w : RVec Cell} {v v1 : AVec} {f f' : FMut Cell} (hw : Works w v f) {idx : Nat} {o : Option Cell}
    (e : v.dropBorrowed (f.moveDrops idx) = .ok v1) (eg : f.get idx = .ok (o, f')) :
    Works w v1 f' ∧ v1.erase = v.erase ∧ o = w.toList[idx]? ∧ (o = none → f'.Bare) ∧
      ∀ c, o = some c → (∃ b ∈ f'.nodes ++ f'.pathNodes, Portrays w (c.1, c.2.dropLast) b) ∧ (c.2.length = 1 → f'.Bare) := by
  obtain ⟨k, i⟩ := hw.built.inv
  have he := AVec.dropBorrowed_erase _ e
  have hm : ∃ g, f.moveFocus idx = .ok g ∧ g = f' := by
    have eg' := eg
    unfold FMut.get at eg'
    obtain ⟨g, e1, eg'⟩ := RVec.bind_ok eg'
    refine ⟨g, e1, ?_⟩
    split at eg'
    · obtain ⟨_, -, eg'⟩ := RVec.bind_ok eg'
      split at eg'
      · obtain ⟨_, -, eg'⟩ := RVec.bind_ok eg'
        cases eg'; rfl
      · obtain ⟨_, -, eg'⟩ := RVec.bind_ok eg'
        obtain ⟨_, -, eg'⟩ := RVec.bind_ok eg'
        obtain ⟨_, -, eg'⟩ := RVec.bind_ok eg'
        obtain ⟨_, -, eg'⟩ := RVec.bind_ok eg'
        cases eg'; rfl
    · cases eg'; rfl
  obtain ⟨_, em, rfl⟩ := hm
  rename_i g
  obtain ⟨h1, h2, -⟩ := moveFocus_covers i hw.cells hw.rests hw.covers e em
  have hok : FMut.Ok g w.toList ∧ o = w.toList[idx]? ∧ (o = none → g.Bare) := by
    by_cases hi : idx < w.toList.length
    · by_cases hst : f.root = none → inRange f.llo f.lhi idx = false
      · obtain ⟨f', e', ho, hr⟩ := FMut.get_ok hw.ok hi hst
        rw [eg] at e'
        cases e'
        exact ⟨ho, by rw [List.getElem?_eq_getElem hi], fun h => by cases h⟩
      · simp only [not_forall, Bool.not_eq_false] at hst
        obtain ⟨s1, s2⟩ := hst
        rw [FMut.get_stale hw.ok s1 s2] at eg
        cases eg
    · obtain ⟨f', e', ho, hr⟩ := FMut.get_out_left hw.ok (idx := idx) (by omega)
      rw [eg] at e'
      cases e'
      refine ⟨ho, by rw [List.getElem?_eq_none (by omega)], fun _ => ?_⟩
      rcases h1.rest with ⟨-, r2, r3⟩ | ⟨pos, path, hs⟩
      · exact ⟨r3, r2⟩
      · obtain ⟨_, _, _, _, r1, -⟩ := hs.root
        rw [hr] at r1; cases r1
  refine ⟨⟨by rw [he]; exact hw.built, by rw [he]; exact hw.cells, hok.1, h1, h2⟩, he, hok.2.1, hok.2.2, ?_⟩
  rintro c rfl
  have := hw.cells
  subst this
  obtain ⟨-, q1, q2⟩ := get_place i (fun g' e' => by rw [em] at e'; cases e'; exact h1) eg
  exact ⟨q1, q2⟩

/-- A write through the place that was handed out. -/
theorem Works.write {w : RVec Cell} {v v' : AVec} {f : FMut Cell} (hw : Works w v f) {idx x : Nat} {c : Cell}
    (hc : w.toList[idx]? = some c) (hb : ∃ b ∈ f.nodes ++ f.pathNodes, Portrays w (c.1, c.2.dropLast) b)
    (e : v.writeCell x c = .ok v') : Works w v' f := by
  have e' := AVec.writeCell_erase _ _ _ _ e
  have h1 := RVec.writeCell_cells e'
  have hl := hw.built.cells_length hw.built.shows
  have hi : idx < v.erase.toList.length := by
    obtain ⟨hi, -⟩ := List.getElem?_eq_some_iff.1 hc
    rw [hw.cells] at hl
    omega
  obtain ⟨-, v2, e2, b2, -, -⟩ := hw.built.write hw.built.shows hi (by rw [hw.cells]; exact hc) x
  rw [e'] at e2
  cases e2
  refine ⟨b2, h1.trans hw.cells, hw.ok, hw.rests, ?_⟩
  intro a ha
  rcases AVec.writeCell_broken e ha with rfl | ha
  · exact hb
  · exact hw.covers a ha

theorem Node.leaf_places {b : CB α} {pos : Option (Side × Nat)} {c : Cell}
    (hc : c ∈ ((Node.leaf b).mapAddr fun q _ => ((pos, q) : Cell)).toList) : c.2.length = 1 := by
  obtain ⟨f, n, d⟩ := b
  rw [Node.mapAddr, Node.toList_leaf, CB.toList, List.mem_filterMap] at hc
  obtain ⟨i, -, hc⟩ := hc
  simp only [List.getElem?_mapIdx] at hc
  cases h1 : d[(f + i) % 64]? with
  | none => rw [h1] at hc; cases hc
  | some o =>
    rw [h1] at hc
    cases o with
    | none => cases hc
    | some x => cases hc; rfl

/-- The first and the last place are in spine nodes. -/
theorem RVec.InvH.end_place {v : RVec α} {h : Nat} (i : RVec.InvH v h) {c : Cell}
    (hc : v.cells.toList.head? = some c ∨ v.cells.toList.getLast? = some c) : c.2.length = 1 := by
  have one : ∀ {nd : Node α} (pos : Option (Side × Nat)), nd.Wf 0 → ∀ c ∈ (nd.mapAddr fun q _ => ((pos, q) : Cell)).toList, c.2.length = 1 := by
    intro nd pos hw c hc
    obtain ⟨l, b, rfl, -⟩ := Node.wf_zero.1 hw
    exact Node.leaf_places hc
  have ne : ∀ {nd : Node α} (pos : Option (Side × Nat)), nd.Wf 0 → nd.slots ≠ 0 → (nd.mapAddr fun q _ => ((pos, q) : Cell)).toList ≠ [] := by
    intro nd pos hw hs e
    obtain ⟨l, b, rfl, hr⟩ := Node.wf_zero.1 hw
    obtain ⟨f, n, d⟩ := b
    have h1 := Node.rep_mapLeaf hr fun q _ => ((pos, q) : Cell)
    rw [Node.mapAddr, Node.toList_leaf, h1.toList] at e
    have h2 := hr.len_eq
    have h3 := congrArg List.length e
    simp [slotted] at h3
    subst h3
    exact hs h2
  cases h with
  | zero =>
    have h1 : v.left = [] := List.eq_nil_of_length_eq_zero (i.length .front)
    have h2 : v.right = [] := List.eq_nil_of_length_eq_zero (i.length .back)
    have ht : v.cells.toList = (v.root.mapAddr fun q _ => ((none, q) : Cell)).toList := by
      simp [RVec.cells, RVec.mapAddr, RVec.toList, h1, h2]
    rw [ht] at hc
    refine one none i.root c ?_
    rcases hc with hc | hc
    · exact List.mem_of_mem_head? hc
    · exact List.mem_of_getLast? hc
  | succ h =>
    rcases hc with hc | hc
    · have hl := i.length .front
      have hs := i.spine .front
      have hh := i.head .front
      simp only [spine_front] at hl hs hh
      match hx : v.left, hl with
      | x :: xs, _ =>
        rw [hx] at hs hh
        rw [headOk_cons] at hh
        have ht : ∃ r, v.cells.toList = (x.mapAddr fun q _ => ((some (.front, 0), q) : Cell)).toList ++ r := by
          refine ⟨((xs.mapIdx fun j nd => nd.mapAddr fun q _ => ((some (.front, j + 1), q) : Cell)).flatMap Node.toList) ++
            (v.cells.root.toList ++ (v.cells.right.reverse.flatMap Node.toList)), ?_⟩
          simp only [RVec.cells, RVec.mapAddr, RVec.toList, hx, List.mapIdx_cons, List.flatMap_cons, List.append_assoc]
        obtain ⟨r, ht⟩ := ht
        rw [ht] at hc
        cases hm : (x.mapAddr fun q _ => ((some (.front, 0), q) : Cell)).toList with
        | nil => exact absurd hm (ne _ hs.1 hh)
        | cons y ys =>
          rw [hm] at hc
          cases hc
          exact one (some (.front, 0)) hs.1 _ (by rw [hm]; simp)
    · have hl := i.length .back
      have hs := i.spine .back
      have hh := i.head .back
      simp only [spine_back] at hl hs hh
      match hx : v.right, hl with
      | x :: xs, _ =>
        rw [hx] at hs hh
        rw [headOk_cons] at hh
        have ht : ∃ r, v.cells.toList = r ++ (x.mapAddr fun q _ => ((some (.back, 0), q) : Cell)).toList := by
          refine ⟨(v.cells.left.flatMap Node.toList) ++ v.cells.root.toList ++ ((xs.mapIdx fun j nd => nd.mapAddr fun q _ => ((some (.back, j + 1), q) : Cell)).reverse.flatMap Node.toList), ?_⟩
          simp only [RVec.cells, RVec.mapAddr, RVec.toList, hx, List.mapIdx_cons, List.reverse_cons, List.flatMap_append, List.flatMap_cons, List.flatMap_nil, List.append_nil, List.append_assoc]
        obtain ⟨r, ht⟩ := ht
        rw [ht] at hc
        rcases List.eq_nil_or_concat (x.mapAddr fun q _ => ((some (.back, 0), q) : Cell)).toList with hm | ⟨ys, y, hm⟩
        · exact absurd hm (ne _ hs.1 hh)
        · rw [hm] at hc
          simp at hc
          subst hc
          exact one (some (.back, 0)) hs.1 _ (by rw [hm]; simp)

/-! ### The end of a focus -/

/-- Dropping spine nodes. -/
theorem dropSpine {w : RVec Cell} : ∀ {bs : List (BNode Cell)} {v v' : AVec} {h : Nat}, RVec.InvH v.erase h → v.erase.cells = w →
    (∀ b ∈ bs, ∃ pos, Portrays w (pos, []) b) → v.dropBorrowed bs = .ok v' →
    ∀ a, v'.Broken a → v.Broken a ∧ ∀ b ∈ bs, ¬ Portrays w a b
  | [], v, v', h, _, _, _, e => by cases e; intro a ha; exact ⟨ha, by simp⟩
  | b :: bs, v, v', h, i, hw, hbs, e => by
    obtain ⟨pos, hv⟩ := hbs b (by simp)
    obtain ⟨v1, e1, he, hb, -⟩ := AVec.dropOne i (by rw [hw]; exact hv) e
    have ih := dropSpine (v := v1) (by rw [he]; exact i) (by rw [he]; exact hw) (fun b hb => hbs b (by simp [hb])) e1
    intro a ha
    obtain ⟨h1, h2⟩ := ih a ha
    rcases hb a h1 with ⟨p, hp⟩ | ⟨h3, h4⟩
    · simp at hp
    · refine ⟨h3, ?_⟩
      intro b' hb'
      rcases List.mem_cons.1 hb' with rfl | hb'
      · intro h5
        subst hw
        exact h4 (h5.unique i hv)
      · exact h2 b' hb'

theorem Works.finish {w : RVec Cell} {v v' : AVec} {f : FMut Cell} (hw : Works w v f) (hb : f.Bare)
    (e : v.dropFoci [f] = .ok v') : ∀ a, ¬ v'.Broken a := by
  obtain ⟨k, i⟩ := hw.built.inv
  have hp : f.pathNodes = [] := by simp [FMut.pathNodes, hb.1, hb.2]
  have hr : f.rootedNodes = f.nodes.reverse := by rw [FMut.rootedNodes, hp, List.append_nil]
  rw [AVec.dropFoci, hr] at e
  intro a ha
  obtain ⟨h1, h2⟩ := dropSpine i hw.cells (fun b hb => hw.rests.nodes b (by simpa using hb)) e a ha
  obtain ⟨b, h3, h4⟩ := hw.covers a h1
  rw [hp, List.append_nil] at h3
  exact h2 b (by simpa using h3) h4

/-! ### Right sums -/

theorem ANode.sumsRight_iff : ∀ {n : Nat} {nd : ANode}, nd.erase.Wf n →
    (nd.sumsRight n = true ↔ ∀ q k, nd.at? q = some k → k.cached = k.lsum)
  | 0, nd, hw => by
    cases nd with
    | internal s t c m => obtain ⟨l, b, e, -⟩ := Node.wf_zero.1 hw; rw [ANode.erase_internal] at e; cases e
    | leaf b m =>
      simp only [ANode.sumsRight, beq_iff_eq]
      constructor
      · intro h q k hk
        cases q with
        | nil => cases hk; exact h
        | cons p q => cases hk
      · intro h; exact h [] _ rfl
  | n + 1, nd, hw => by
    cases nd with
    | leaf b m =>
      have := hw.level
      rw [ANode.erase_leaf] at this
      cases this
    | internal s t c m =>
      rw [ANode.erase_internal] at hw
      obtain ⟨-, -, h3, h4⟩ := hw
      have hc := CB.rep_of_map h3
      rw [CB.map_toList] at h4
      have hk : ∀ k ∈ c.toList, k.erase.Wf n := fun k hk => (h4 _ (List.mem_map_of_mem hk)).1
      simp only [ANode.sumsRight, Bool.and_eq_true, beq_iff_eq, List.all_eq_true]
      constructor
      · rintro ⟨h1, h2⟩ q k hq
        cases q with
        | nil => cases hq; exact h1
        | cons p q =>
          rw [ANode.at?] at hq
          split at hq
          · next k' hk' =>
            have := hc.mem hk'
            exact (ANode.sumsRight_iff (hk k' this)).1 (h2 k' this) q k hq
          · cases hq
      · intro h
        refine ⟨h [] _ rfl, fun k' hk' => ?_⟩
        refine (ANode.sumsRight_iff (hk k' hk')).2 fun q k hq => ?_
        obtain ⟨j, hj, rfl⟩ := List.getElem_of_mem hk'
        have hs := hc.slot j (by have := hc.le; omega)
        rw [List.getElem?_eq_getElem hj] at hs
        refine h (((c.front + j) % 64) :: q) k ?_
        rw [ANode.at?, hs]
        exact hq

namespace AVec

theorem nodes_nodeAt {v : AVec} {nd : ANode} (h : nd ∈ v.nodes) : ∃ pos, v.nodeAt pos = .ok nd := by
  simp only [nodes, List.mem_append, List.mem_cons, List.mem_reverse] at h
  rcases h with h | rfl | h
  · obtain ⟨j, hj, rfl⟩ := List.getElem_of_mem h
    exact ⟨some (.front, j), by simp [nodeAt, List.getElem?_eq_getElem hj]⟩
  · exact ⟨none, rfl⟩
  · obtain ⟨j, hj, rfl⟩ := List.getElem_of_mem h
    exact ⟨some (.back, j), by simp [nodeAt, List.getElem?_eq_getElem hj]⟩

theorem wf_nodeAt {v : AVec} {h : Nat} (i : RVec.InvH v.erase h) {pos : Option (Side × Nat)} {nd : ANode} (e : v.nodeAt pos = .ok nd) :
    nd.erase.Wf nd.level ∧ nd.level ≤ h := by
  have e' : v.erase.nodeAt pos = .ok nd.erase := by rw [nodeAt_erase_eq, e]; rfl
  rcases pos with _ | ⟨_ | _, j⟩
  · cases e
    have := i.root.level
    rw [show v.erase.root = v.root.erase from rfl, ANode.erase_level] at this
    rw [this]
    exact ⟨i.root, Nat.le_refl _⟩
  · obtain ⟨hj, h1⟩ := List.getElem?_eq_some_iff.1 (RVec.unwrap_eq e')
    have := ((i.spine .front).getElem hj).1
    have hl := i.length .front
    simp only [RVec.spine_front] at this hl
    rw [h1] at this
    have h2 := this.level
    rw [ANode.erase_level] at h2
    rw [h2]
    exact ⟨this, by omega⟩
  · obtain ⟨hj, h1⟩ := List.getElem?_eq_some_iff.1 (RVec.unwrap_eq e')
    have := ((i.spine .back).getElem hj).1
    have hl := i.length .back
    simp only [RVec.spine_back] at this hl
    rw [h1] at this
    have h2 := this.level
    rw [ANode.erase_level] at h2
    rw [h2]
    exact ⟨this, by omega⟩

theorem cached_iff {v : AVec} {h m : Nat} (i : RVec.InvH v.erase h) : v.Cached m ↔ h ≤ m ∧ ∀ a, ¬ v.Broken a := by
  constructor
  · intro hc
    refine ⟨?_, ?_⟩
    · have := (hc v.root (by simp [nodes])).1
      have h2 := i.root.level
      rw [show v.erase.root = v.root.erase from rfl, ANode.erase_level] at h2
      omega
    · rintro ⟨pos, q⟩ ⟨k, hk, hne⟩
      unfold at? at hk
      dsimp only at hk
      split at hk
      · next nd e =>
        obtain ⟨hw, -⟩ := wf_nodeAt i e
        exact hne ((ANode.sumsRight_iff hw).1 (hc nd (nodeAt_mem e)).2 q k hk)
      · cases hk
  · rintro ⟨hm, hb⟩ nd hnd
    obtain ⟨pos, e⟩ := nodes_nodeAt hnd
    obtain ⟨hw, hl⟩ := wf_nodeAt i e
    refine ⟨by omega, (ANode.sumsRight_iff hw).2 fun q k hk => ?_⟩
    by_contra hne
    exact hb (pos, q) ⟨k, by unfold at?; dsimp only; rw [e]; exact hk, hne⟩

theorem height_eq {v v' : AVec} {h h' : Nat} (i : RVec.InvH v.erase h) (i' : RVec.InvH v'.erase h')
    (hc : v'.erase.cells = v.erase.cells) : h' = h := by
  have h1 := i.length .front
  have h2 := i'.length .front
  have h3 : v'.erase.cells.left.length = v.erase.cells.left.length := by rw [hc]
  simp only [RVec.cells, RVec.mapAddr, List.length_mapIdx] at h3
  simp only [RVec.spine_front] at h1 h2
  omega

end AVec

theorem Works.cached {w : RVec Cell} {v v' : AVec} {f : FMut Cell} (hw : Works w v f) (hb : f.Bare)
    (e : v.dropFoci [f] = .ok v') {v0 : AVec} {h m : Nat} (i : RVec.InvH v0.erase h) (h0 : v0.erase.cells = w) (hc : v0.Cached m) :
    v'.Cached m := by
  obtain ⟨k, i'⟩ := hw.built.inv
  have he := AVec.dropFoci_erase _ e
  rw [← he] at i'
  have hk := AVec.height_eq i i' (by rw [he, hw.cells, h0])
  subst hk
  exact (AVec.cached_iff i').2 ⟨((AVec.cached_iff i).1 hc).1, hw.finish hb e⟩

/-! ### The start -/

theorem borrowNodes_mem {κ : Type} : ∀ {nds : List (Node κ)} {bs : List (BNode κ)}, RVec.borrowNodes nds = .ok bs →
    ∀ b ∈ bs, ∃ nd ∈ nds, nd.borrow = .ok b
  | [], bs, h => by cases h; simp
  | nd :: nds, bs, h => by
    rw [RVec.borrowNodes] at h
    obtain ⟨e, -, h⟩ := RVec.bind_ok h
    split at h
    · obtain ⟨b, e1, h⟩ := RVec.bind_ok h
      obtain ⟨bs', e2, h⟩ := RVec.bind_ok h
      cases h
      intro b' hb'
      rcases List.mem_cons.1 hb' with rfl | hb'
      · exact ⟨nd, by simp, e1⟩
      · obtain ⟨nd', h1, h2⟩ := borrowNodes_mem e2 b' hb'
        exact ⟨nd', by simp [h1], h2⟩
    · intro b' hb'
      obtain ⟨nd', h1, h2⟩ := borrowNodes_mem h b' hb'
      exact ⟨nd', by simp [h1], h2⟩

theorem RVec.mem_nodeAt {w : RVec κ} {nd : Node κ} (h : nd ∈ w.left ++ [w.root] ++ w.right.reverse) : ∃ pos, w.nodeAt pos = .ok nd := by
  simp only [List.mem_append, List.mem_singleton, List.mem_reverse] at h
  rcases h with (h | rfl) | h
  · obtain ⟨j, hj, rfl⟩ := List.getElem_of_mem h
    exact ⟨some (.front, j), by simp [nodeAt, List.getElem?_eq_getElem hj]⟩
  · exact ⟨none, rfl⟩
  · obtain ⟨j, hj, rfl⟩ := List.getElem_of_mem h
    exact ⟨some (.back, j), by simp [nodeAt, List.getElem?_eq_getElem hj]⟩

theorem Works.start {v : AVec} (b : Built v.erase) {h m : Nat} (i : RVec.InvH v.erase h) (hc : v.Cached m) {f : FMut Cell}
    (e : v.erase.cells.focusMut = .ok f) : Works v.erase.cells v f ∧ f.Bare := by
  obtain ⟨f', e', ho, -⟩ := RVec.focusMut_ok (i.mapAddr fun c _ => c)
  rw [show v.erase.mapAddr (fun c _ => c) = v.erase.cells from rfl, e] at e'
  cases e'
  unfold RVec.focusMut at e
  obtain ⟨bs, e1, e⟩ := RVec.bind_ok e
  unfold FMut.fromNodes at e
  obtain ⟨n, -, e⟩ := RVec.bind_ok e
  cases e
  refine ⟨⟨b, rfl, ho, ⟨?_, .inl ⟨rfl, rfl, rfl⟩⟩, fun a ha => absurd ha (((AVec.cached_iff i).1 hc).2 a)⟩, rfl, rfl⟩
  intro b' hb'
  obtain ⟨nd, h1, h2⟩ := borrowNodes_mem e1 b' hb'
  obtain ⟨pos, h3⟩ := RVec.mem_nodeAt h1
  exact ⟨pos, nd, by unfold RVec.at?; dsimp only; rw [h3]; rfl, h2⟩

/-! ### Operations -/

theorem Works.ends {w : RVec Cell} {v : AVec} {f : FMut Cell} (hw : Works w v f) {idx : Nat}
    (hx : w.toList.length ≤ idx ∨ idx = 0 ∨ idx + 1 = w.toList.length) {c : Cell} (hc : w.toList[idx]? = some c) : c.2.length = 1 := by
  obtain ⟨k, i⟩ := hw.built.inv
  have hlt : idx < w.toList.length := (List.getElem?_eq_some_iff.1 hc).1
  have := hw.cells
  subst this
  refine i.end_place (c := c) ?_
  rcases hx with hx | hx | hx
  · omega
  · left; rw [List.head?_eq_getElem?, ← hc, hx]
  · right; rw [List.getLast?_eq_getElem?, ← hc, ← hx]; rfl

theorem Works.op {w : RVec Cell} {v : AVec} {f : FMut Cell} (hw : Works w v f) {o : FOp Nat} {r : Option Nat × (AVec × FMut Cell)}
    (e : o.runA (v, f) = .ok r) : Works w r.2.1 r.2.2 ∧ ((∀ c, w.toList[o.index]? = some c → c.2.length = 1) → r.2.2.Bare) := by
  unfold FOp.runA AVec.focusGet at e
  obtain ⟨q, e1, e⟩ := RVec.bind_ok e
  obtain ⟨v1, e2, e1⟩ := RVec.bind_ok e1
  obtain ⟨p, e3, e1⟩ := RVec.bind_ok e1
  cases e1
  obtain ⟨a, e4, e⟩ := RVec.bind_ok e
  cases e
  obtain ⟨c?, f'⟩ := p
  obtain ⟨h1, h2, h3, h4, h5⟩ := hw.get e2 e3
  obtain ⟨k, i⟩ := hw.built.inv
  dsimp only at e4 ⊢
  have bare : (∀ c, w.toList[o.index]? = some c → c.2.length = 1) → f'.Bare := by
    intro hx
    cases c? with
    | none => exact h4 rfl
    | some c => exact (h5 c rfl).2 (hx c h3.symm)
  refine ⟨?_, bare⟩
  cases c? with
  | none => cases e4; exact h1
  | some c =>
    rw [FOp.accessA] at e4
    obtain ⟨x, -, e4⟩ := RVec.bind_ok e4
    cases o with
    | read j => cases e4; exact h1
    | write j y =>
      dsimp only at e4
      obtain ⟨v2, e5, e4⟩ := RVec.bind_ok e4
      cases e4
      exact h1.write h3.symm (h5 c rfl).1 e5

theorem Works.ops {w : RVec Cell} : ∀ {ops : List (FOp Nat)} {v : AVec} {f : FMut Cell} {r : List (Option Nat) × (AVec × FMut Cell)},
    Works w v f → runAll FOp.runA ops (v, f) = .ok r → Works w r.2.1 r.2.2
  | [], v, f, r, hw, e => by cases e; exact hw
  | o :: ops, v, f, r, hw, e => by
    rw [runAll] at e
    obtain ⟨q, e1, e⟩ := RVec.bind_ok e
    obtain ⟨q', e2, e⟩ := RVec.bind_ok e
    cases e
    exact Works.ops (r := q') (hw.op e1).1 e2

theorem runAll_concat {ι σ ρ : Type} {g : ι → σ → M (ρ × σ)} : ∀ {is : List ι} {i : ι} {s : σ} {r : List ρ × σ},
    runAll g (is ++ [i]) s = .ok r → ∃ q p, runAll g is s = .ok q ∧ g i q.2 = .ok p ∧ r = (q.1 ++ [p.1], p.2)
  | [], i, s, r, h => by
    rw [List.nil_append, runAll] at h
    obtain ⟨p, e1, h⟩ := RVec.bind_ok h
    cases h
    exact ⟨([], s), p, rfl, e1, rfl⟩
  | j :: is, i, s, r, h => by
    rw [List.cons_append, runAll] at h
    obtain ⟨p, e1, h⟩ := RVec.bind_ok h
    obtain ⟨q, e2, h⟩ := RVec.bind_ok h
    cases h
    obtain ⟨q', p', h1, h2, rfl⟩ := runAll_concat e2
    exact ⟨(p.1 :: q'.1, q'.2), p', by simp only [runAll, e1, ok_bind, h1], h2, rfl⟩

/-- A focus whose last operation is outside of the vector or at one of its ends leaves all sums right. -/
theorem AVec.editFocus_cached {v : AVec} (b : Built v.erase) {m : Nat} (hc : v.Cached m) {ops : List (FOp Nat)} {o : FOp Nat}
    (ho : v.erase.toList.length ≤ o.index ∨ o.index = 0 ∨ o.index + 1 = v.erase.toList.length) {x : Answer Nat} {v' : AVec} {ws : List AVec}
    (e : (AAct.editFocus (ops ++ [o])).run v = .ok (x, v', ws)) : v'.Cached m := by
  obtain ⟨h, i⟩ := b.inv
  unfold AAct.run at e
  obtain ⟨f, e1, e⟩ := RVec.bind_ok e
  obtain ⟨r, e2, e⟩ := RVec.bind_ok e
  obtain ⟨v2, e3, e⟩ := RVec.bind_ok e
  cases e
  obtain ⟨hw, -⟩ := Works.start b i hc e1
  obtain ⟨q, p, e4, e5, rfl⟩ := runAll_concat e2
  obtain ⟨h1, h2⟩ := (Works.ops hw e4).op e5
  rw [← b.cells_length b.shows] at ho
  exact h1.cached (h2 fun c hc => h1.ends ho hc) e3 i rfl hc

/-! ### A whole pass -/

theorem Works.mapStep {w : RVec Cell} {v : AVec} {it : VIterMut Cell} (hw : Works w v it.focus) (g : Nat → Nat) (s : Side)
    {r : Option Nat × (AVec × VIterMut Cell)} (e : mapStepA g s (v, it) = .ok r) (h1 : it.front ≤ it.back) (h2 : it.back ≤ w.toList.length) :
    Works w r.2.1 r.2.2.focus ∧
    (it.front = it.back → r.2.2 = it) ∧ (it.front ≠ it.back → (r.2.2.front, r.2.2.back) = (match s with
        | .front => (it.front + 1, it.back)
        | .back => (it.front, it.back - 1)) ∧
      ((∀ c, w.toList[(match s with | .front => it.front | .back => it.back - 1)]? = some c → c.2.length = 1) →
        r.2.2.focus.Bare)) := by
  have main : ∀ idx : Nat, it.front ≠ it.back → idx < w.toList.length → ∀ (f' : FMut Cell) (it' : VIterMut Cell) (c? : Option Cell) (v1 : AVec),
      v.dropBorrowed (it.focus.moveDrops idx) = .ok v1 → it.focus.get idx = .ok (c?, f') → it'.focus = f' →
      (match c? with
        | none => (.ok (none, (v1, it')) : M _)
        | some c => do
          let x ← v1.erase.readCell c
          let v ← v1.writeCell (g x) c
          .ok (some x, (v, it'))) = .ok r → Works w r.2.1 r.2.2.focus ∧ r.2.2 = it' ∧
        ((∀ c, w.toList[idx]? = some c → c.2.length = 1) → r.2.2.focus.Bare) := by
    intro idx hne hlt f' it' c? v1 e1 e2 hf e
    obtain ⟨h1, h2, h3, h4, h5⟩ := hw.get e1 e2
    obtain ⟨k, i⟩ := hw.built.inv
    cases c? with
    | none => rw [List.getElem?_eq_getElem hlt] at h3; cases h3
    | some c =>
      dsimp only at e
      obtain ⟨x, -, e⟩ := RVec.bind_ok e
      obtain ⟨v2, e3, e⟩ := RVec.bind_ok e
      cases e
      refine ⟨by rw [hf]; exact h1.write h3.symm (h5 c rfl).1 e3, rfl, ?_⟩
      intro hx
      rw [hf]
      exact (h5 c rfl).2 (hx c h3.symm)
  unfold mapStepA at e
  dsimp only at e
  by_cases hne : it.front = it.back
  · rw [if_neg (by simp [hne]), ok_bind] at e
    have hs : VIterMut.step s it = .ok (none, it) := by
      cases s <;> simp [VIterMut.step, VIterMut.next, VIterMut.nextBack, hne]
    rw [hs, ok_bind] at e
    cases e
    exact ⟨hw, fun _ => rfl, fun h => absurd hne h⟩
  · rw [if_pos (by simp [hne])] at e
    obtain ⟨v1, e1, e⟩ := RVec.bind_ok e
    obtain ⟨q, e2, e⟩ := RVec.bind_ok e
    cases s with
    | front =>
      simp only [VIterMut.step, VIterMut.next] at e2
      rw [if_pos (by simp [hne])] at e2
      obtain ⟨p, e3, e2⟩ := RVec.bind_ok e2
      obtain ⟨c, e4, e2⟩ := RVec.bind_ok e2
      cases e2
      obtain ⟨c?, f'⟩ := p
      have e4 := RVec.unwrap_eq e4
      dsimp only at e4
      subst e4
      obtain ⟨g1, g2, g3⟩ := main it.front hne (by omega) f' ⟨it.front + 1, it.back, f'⟩ (some c) v1 e1 e3 rfl e
      exact ⟨g1, fun h => absurd h hne, fun _ => ⟨by rw [g2], g3⟩⟩
    | back =>
      simp only [VIterMut.step, VIterMut.nextBack] at e2
      rw [if_pos (by simp [hne]), usub_ok (by omega), ok_bind] at e2
      obtain ⟨p, e3, e2⟩ := RVec.bind_ok e2
      cases e2
      obtain ⟨c?, f'⟩ := p
      obtain ⟨g1, g2, g3⟩ := main (it.back - 1) hne (by omega) f' ⟨it.front, it.back - 1, f'⟩ c? v1 e1 e3 rfl e
      exact ⟨g1, fun h => absurd h hne, fun _ => ⟨by rw [g2], g3⟩⟩

theorem Works.pass {w : RVec Cell} (g : Nat → Nat) (s : Side) : ∀ {n : Nat} {v : AVec} {it : VIterMut Cell}
    {r : List (Option Nat) × (AVec × VIterMut Cell)}, Works w v it.focus →
    (match s with | .front => it.back = w.toList.length | .back => it.front = 0) → it.front ≤ it.back → it.back ≤ w.toList.length →
    it.back - it.front ≤ n → (it.front = it.back → it.focus.Bare) →
    runScript (mapStepA g) (List.replicate n s) (v, it) = .ok r → Works w r.2.1 r.2.2.focus ∧ r.2.2.focus.Bare
  | 0, v, it, r, hw, h0, h1, h2, h3, h4, e => by
    cases e
    exact ⟨hw, h4 (by omega)⟩
  | n + 1, v, it, r, hw, h0, h1, h2, h3, h4, e => by
    rw [List.replicate_succ, runScript] at e
    obtain ⟨q, e1, e⟩ := RVec.bind_ok e
    obtain ⟨q', e2, e⟩ := RVec.bind_ok e
    cases e
    obtain ⟨g1, g2, g3⟩ := hw.mapStep g s e1 h1 h2
    by_cases hne : it.front = it.back
    · have := g2 hne
      refine Works.pass (r := q') g s (it := q.2.2) g1 ?_ ?_ ?_ ?_ ?_ e2
      all_goals rw [this]
      · exact h0
      · exact h1
      · exact h2
      · omega
      · exact h4
    · obtain ⟨g4, g5⟩ := g3 hne
      cases s with
      | front =>
        simp only [Prod.mk.injEq] at g4 h0
        obtain ⟨g6, g7⟩ := g4
        refine Works.pass (r := q') g .front (it := q.2.2) g1 (by dsimp only; omega) (by omega) (by omega) (by omega) (fun h => g5 fun c hc => hw.ends (.inr (.inr ?_)) hc) e2
        dsimp only
        omega
      | back =>
        simp only [Prod.mk.injEq] at g4 h0
        obtain ⟨g6, g7⟩ := g4
        refine Works.pass (r := q') g .back (it := q.2.2) g1 (by dsimp only; omega) (by omega) (by omega) (by omega) (fun h => g5 fun c hc => hw.ends (.inr (.inl ?_)) hc) e2
        dsimp only
        omega

/-- A pass over all items from one end leaves all sums right. -/
theorem AVec.mapEnds_cached {v : AVec} (b : Built v.erase) {m : Nat} (hc : v.Cached m) (g : Nat → Nat) (s : Side) {n : Nat}
    (hn : v.erase.toList.length ≤ n) {x : Answer Nat} {v' : AVec} {ws : List AVec}
    (e : (AAct.mapEnds g (List.replicate n s)).run v = .ok (x, v', ws)) : v'.Cached m := by
  obtain ⟨h, i⟩ := b.inv
  unfold AAct.run at e
  obtain ⟨it, e1, e⟩ := RVec.bind_ok e
  obtain ⟨r, e2, e⟩ := RVec.bind_ok e
  obtain ⟨v2, e3, e⟩ := RVec.bind_ok e
  cases e
  have e1' := e1
  unfold VIterMut.new at e1
  obtain ⟨f, e4, e1⟩ := RVec.bind_ok e1
  cases e1
  obtain ⟨hw, hb⟩ := Works.start b i hc e4
  obtain ⟨it', e5, -, h1, h2⟩ := VIterMut.new_ok i
  rw [e1'] at e5
  cases e5
  dsimp only at h2
  have hl := b.cells_length b.shows
  obtain ⟨h3, h4⟩ := Works.pass g s (it := ⟨0, v.erase.cells.len, f⟩) hw (by cases s; exact h2; rfl) (Nat.zero_le _) (by dsimp only; omega)
    (by dsimp only; omega) (fun _ => hb) e2
  exact h3.cached h4 e3 i rfl hc

/-! ### No write -/

/-- With right sums, dropping views of whole nodes keeps them right. -/
theorem dropQuiet {w : RVec Cell} : ∀ {bs : List (BNode Cell)} {v v' : AVec} {h : Nat}, RVec.InvH v.erase h → v.erase.cells = w →
    (∀ b ∈ bs, ∃ a, Portrays w a b) → (∀ a, ¬ v.Broken a) → v.dropBorrowed bs = .ok v' → ∀ a, ¬ v'.Broken a
  | [], v, v', h, _, _, _, hb, e => by cases e; exact hb
  | b :: bs, v, v', h, i, hw, hbs, hb, e => by
    obtain ⟨a, hv⟩ := hbs b (by simp)
    obtain ⟨v1, e1, he, -, hk⟩ := AVec.dropOne i (by rw [hw]; exact hv) e
    exact dropQuiet (v := v1) (by rw [he]; exact i) (by rw [he]; exact hw) (fun b hb => hbs b (by simp [hb]))
      (fun a2 ha2 => hb a2 (hk (hb a) a2 ha2)) e1

theorem PathOk.views {w : RVec Cell} {pos : Option (Side × Nat)} : ∀ {l : List (BInternal Cell × Nat × Nat)} {path : List Nat},
    PathOk w pos l path → ∀ q ∈ l, ∃ a, Portrays w a (.internal q.1)
  | [], _, _, q, hq => by simp at hq
  | q' :: rest, path, h, q, hq => by
    obtain ⟨h1, path', p, -, h2⟩ := h
    rcases List.mem_cons.1 hq with rfl | hq
    · exact ⟨_, h1⟩
    · exact h2.views q hq

theorem Rests.views {w : RVec Cell} {f : FMut Cell} (h : Rests w f) : ∀ b ∈ f.pathNodes, ∃ a, Portrays w a b := by
  intro b hb
  rw [FMut.pathNodes, List.mem_append, List.mem_map, List.mem_map] at hb
  rcases h.rest with ⟨-, r2, r3⟩ | ⟨pos, path, hs⟩
  · rw [r2, r3] at hb; simp at hb
  · rcases hb with ⟨c, hc, rfl⟩ | ⟨q, hq, rfl⟩
    · obtain ⟨p, hp⟩ := hs.leaf c (by simpa using hc)
      exact ⟨_, hp⟩
    · exact hs.path.views q hq

theorem moveDrops_subset {κ : Type} {f : FMut κ} {idx : Nat} {b : BNode κ} (h : b ∈ f.moveDrops idx) : b ∈ f.pathNodes := by
  unfold FMut.moveDrops at h
  split at h
  · simp at h
  · unfold FMut.pathNodes
    rw [List.mem_append] at h ⊢
    have tw : ∀ P : BInternal κ × Nat × Nat → Bool, b ∈ (f.path.takeWhile P).map (fun p => BNode.internal p.1) →
        b ∈ f.path.map fun p => BNode.internal p.1 := by
      intro P h
      obtain ⟨q, hq, rfl⟩ := List.mem_map.1 h
      exact List.mem_map_of_mem ((List.takeWhile_sublist P).subset hq)
    rcases h with h | h
    · exact .inl h
    · right
      split at h
      · split at h
        · exact h
        · exact tw _ h
      · split at h
        · exact tw _ h
        · simp at h

theorem Works.look {w : RVec Cell} {v : AVec} {f : FMut Cell} (hw : Works w v f) (hb : ∀ a, ¬ v.Broken a) {j : Nat}
    {r : Option Nat × (AVec × FMut Cell)} (e : (FOp.read j).runA (v, f) = .ok r) : Works w r.2.1 r.2.2 ∧ ∀ a, ¬ r.2.1.Broken a := by
  refine ⟨(hw.op e).1, ?_⟩
  obtain ⟨k, i⟩ := hw.built.inv
  unfold FOp.runA AVec.focusGet at e
  obtain ⟨q, e1, e⟩ := RVec.bind_ok e
  obtain ⟨v1, e2, e1⟩ := RVec.bind_ok e1
  obtain ⟨p, e3, e1⟩ := RVec.bind_ok e1
  cases e1
  obtain ⟨a, e4, e⟩ := RVec.bind_ok e
  cases e
  have h1 := dropQuiet i hw.cells (fun b hb => hw.rests.views b (moveDrops_subset hb)) hb e2
  have h2 : a.2 = v1 := by
    obtain ⟨c?, f'⟩ := p
    dsimp only at e4
    rcases c? with _ | c
    · cases e4; rfl
    · rw [FOp.accessA] at e4
      obtain ⟨x, -, e4⟩ := RVec.bind_ok e4
      cases e4; rfl
  dsimp only
  rw [h2]
  exact h1

theorem Works.looks {w : RVec Cell} : ∀ {is : List Nat} {v : AVec} {f : FMut Cell} {r : List (Option Nat) × (AVec × FMut Cell)},
    Works w v f → (∀ a, ¬ v.Broken a) → runAll FOp.runA (is.map FOp.read) (v, f) = .ok r → Works w r.2.1 r.2.2 ∧ ∀ a, ¬ r.2.1.Broken a
  | [], v, f, r, hw, hb, e => by cases e; exact ⟨hw, hb⟩
  | o :: ops, v, f, r, hw, hb, e => by
    rw [List.map_cons, runAll] at e
    obtain ⟨q, e1, e⟩ := RVec.bind_ok e
    obtain ⟨q', e2, e⟩ := RVec.bind_ok e
    cases e
    obtain ⟨h1, h2⟩ := hw.look hb e1
    exact Works.looks (r := q') h1 h2 e2

/-- Reading through a mutable focus leaves all sums right. -/
theorem AVec.lookFocus_cached {v : AVec} (b : Built v.erase) {m : Nat} (hc : v.Cached m) {is : List Nat} {x : Answer Nat} {v' : AVec}
    {ws : List AVec} (e : (AAct.editFocus (is.map FOp.read)).run v = .ok (x, v', ws)) : v'.Cached m := by
  obtain ⟨h, i⟩ := b.inv
  unfold AAct.run at e
  obtain ⟨f, e1, e⟩ := RVec.bind_ok e
  obtain ⟨r, e2, e⟩ := RVec.bind_ok e
  obtain ⟨v2, e3, e⟩ := RVec.bind_ok e
  cases e
  obtain ⟨hw, -⟩ := Works.start b i hc e1
  obtain ⟨h1, h2⟩ := Works.looks hw ((AVec.cached_iff i).1 hc).2 e2
  obtain ⟨k, i'⟩ := h1.built.inv
  have he := AVec.dropFoci_erase _ e3
  have hk := AVec.height_eq i (v' := v') (by rw [he]; exact i') (by rw [he]; exact h1.cells)
  subst hk
  refine (AVec.cached_iff (v := v') (by rw [he]; exact i')).2 ⟨((AVec.cached_iff i).1 hc).1, ?_⟩
  refine dropQuiet i' h1.cells ?_ h2 e3
  intro b hb
  rw [FMut.rootedNodes, List.mem_append] at hb
  rcases hb with hb | hb
  · obtain ⟨pos, hp⟩ := h1.rests.nodes b (by simpa using hb)
    exact ⟨_, hp⟩
  · exact h1.rests.views b hb

end Librrb
