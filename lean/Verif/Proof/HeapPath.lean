import Verif.Proof.HeapJoin
import Verif.Model.HeapFocusMut

/-!
# Unshared paths

What a mutable focus relies on: that it alone owns the nodes it has gone down through. `UPath h a π b` is a way
from `a` to `b` on which no node is shared. Copying any other shared node (`load_mut`), and writing an item, keeps
all such ways (`Later`).
-/
namespace Librrb

theorem Heap.put_self {h : Heap α} {a : Addr} {c : RcBox α} (e : h.cell a = some c) : h.put a (some c) = h := by
  unfold Heap.put
  rw [set_same (Heap.getElem?_of_cell e)]

/-- When all ways from these entries are kept. -/
theorem Later.of {E : Addr → Prop} {h h' : Heap α} (hc : ∀ e ρ x, E e → UPath h e ρ x → h'.count x = 1)
    (hN : ∀ e ρ x s t (c : CB Addr) i k, E e → UPath h e ρ x → h.node x = some (.internal s t c) → c.data[i]? = some (some k) →
      UPath h e (ρ ++ [i]) k → ∃ c', h'.node x = some (.internal s t c') ∧ c'.data[i]? = some (some k)) : Later E h h' := by
  intro a ha ρ b u
  have key : ∀ {x ρ b}, UPath h x ρ b → ∀ {σ}, UPath h a σ x → UPath h' x ρ b := by
    intro x ρ b u
    induction u with
    | nil e => exact fun v => .nil (hc _ _ _ ha v)
    | cons e1 e ek r ih =>
      intro σ v
      have v' := v.snoc e ek r.count_start
      obtain ⟨c', e', ek'⟩ := hN _ _ _ _ _ _ _ _ ha v e ek v'
      exact .cons (hc _ _ _ ha v) e' ek' (ih v')
  exact key u (.nil u.count_start)

theorem UPath.reach {h : Heap α} {L : Ctx α} {e b : Addr} {π : List Nat} (u : UPath h e π b) (hs : L.starts e) : L.reach h b := by
  refine ⟨e, hs, ?_⟩
  clear hs
  induction u with
  | nil _ => exact .refl _
  | cons _ e ek _ ih => exact .cons e (Heap.mem_kids ek) ih

/-- Nothing on an unshared way is a child of a shared node. -/
theorem UPath.not_below {h : Heap α} {L F : Ctx α} (w : World h (L + F)) {k : Addr} (hk : h.count k ≠ 1) {n : Body α Addr}
    (en : h.node k = some n) {e b : Addr} {π : List Nat} (u : UPath h e π b) (hs : L.starts e) : b ∉ n.kids := by
  have key : ∀ {x ρ b}, UPath h x ρ b → x ∉ n.kids → b ∉ n.kids := by
    intro x ρ b u
    induction u with
    | nil _ => exact id
    | @cons x i π j b s t c e1 e ek r ih =>
      intro _
      refine ih fun hm => ?_
      have hxk : x ≠ k := by rintro rfl; exact hk e1
      have := Heap.uses_two hxk e en (Heap.mem_kids ek) hm
      have := w.counts j
      have := r.count_start
      omega
  refine key u fun hm => ?_
  have h1 := World.used_of_kid en hm
  have h2 := w.counts e
  have h3 := u.count_start
  have : 1 ≤ L.refs e := hs
  rw [refs_add] at h2
  omega

/-- `load_mut` on an entry that is owned. -/
theorem loadMut_later {h : Heap α} {a : Addr} {nd : Node α} {R F : Ctx α} (w : World h (has (a, nd) + R + F)) :
    Runs (fun r L' h' => ∃ b, r = .ok b ∧ L' = has (b, nd) + R ∧ h'.count b = 1 ∧ Later R.starts h h' ∧ ∃ F', World h' (L' + F'))
      (loadMut a) (has (a, nd) + R) h := by
  refine (loadMut_runs a nd h (R + F) (by rw [← add_assoc]; exact w)).frame_kept (.refl R h) fun r L' h' F' q k w' => ?_
  obtain ⟨b, e, rfl, hc⟩ := q
  exact ⟨b, e, rfl, hc, k.later, F', w'⟩

/-- An entry of a node may change places with an owned entry of an equal node. -/
theorem World.swap_ok {h : Heap α} {F : Ctx α} {a b k : Addr} {nd : Node α} (w : World h (has (b, nd) + F))
    {n : Nat} {s t} {c : CB Addr} (ec : h.cell a = some { count := n, node := .internal s t c }) {i : Nat}
    (ek : c.data[i]? = some (some k)) (hka : k ≠ a) (hba : b ≠ a) (hn : h.node b = h.node k)
    (hF : (a, none) ∉ F) :
    World (h.put a (some { count := n, node := .internal s t { c with data := c.data.set i (some b) } }))
      (has (k, nd) + F) := by
  have hlt := (List.getElem?_eq_some_iff.1 ek).1
  generalize hh' : h.put a (some { count := n, node := .internal s t { c with data := c.data.set i (some b) } }) = h'
  have hnode : ∀ x, x ≠ a → h'.node x = h.node x := by
    intro x hx
    rw [← hh', Heap.node_put ec, if_neg (Ne.symm hx)]
  have hnodea : h'.node a = some (.internal s t { c with data := c.data.set i (some b) }) := by
    rw [← hh', Heap.node_put ec, if_pos rfl]
  have hmove : ∀ {x y m}, x ≠ a → y ≠ a → h.node x = h.node y → Den h' x m → Den h' y m := by
    intro x y m hx hy e d
    obtain ⟨P, eP, rfl, hk⟩ := d.inv
    refine .mk P ?_ hk
    rw [hnode _ hy, ← e, ← hnode _ hx, eP]
  have hden : ∀ {x m}, Den h x m → Den h' x m := by
    intro x m d
    induction d with
    | @mk x P e hk ih =>
      by_cases hx : x = a
      · subst hx
        rw [Heap.node_of_cell ec] at e
        cases P with
        | leaf _ => simp at e
        | internal s' t' C =>
          simp only [Body.map_internal, Option.some.injEq, Body.internal.injEq] at e
          obtain ⟨rfl, rfl, rfl⟩ := e
          simp only [CB.map_data, List.getElem?_map] at ek
          cases hC : C.data[i]? with
          | none => rw [hC] at ek; simp at ek
          | some o =>
            cases o with
            | none => rw [hC] at ek; simp at ek
            | some p =>
              rw [hC] at ek
              simp at ek
              subst ek
              have hp : p ∈ (Body.internal s t C : Body α _).kids := Heap.mem_kids hC
              have hb : Den h' b p.2 := hmove hka hba hn.symm (ih p hp)
              have hgoal := Den.mk (h := h') (a := x)
                (Body.internal s t { C with data := C.data.set i (some (b, p.2)) }) (by
                  rw [hnodea]
                  simp [CB.map, List.map_set]) (by
                  intro q hq
                  have : q ∈ (C.data.set i (some (b, p.2))).filterMap id := hq
                  rw [List.mem_filterMap] at this
                  obtain ⟨o, ho, hoq⟩ := this
                  simp at hoq
                  subst hoq
                  rcases List.mem_or_eq_of_mem_set ho with ho | ho
                  · exact ih q (List.mem_filterMap.2 ⟨some q, ho, rfl⟩)
                  · cases ho; exact hb)
              have e : (C.data.set i (some (b, p.2))).map (Option.map Prod.snd) = C.data.map (Option.map Prod.snd) := by
                rw [List.map_set]
                exact set_same (by rw [List.getElem?_map, hC]; rfl)
              simpa [CB.map, e] using hgoal
      · exact .mk P (by rw [hnode _ hx]; exact e) ih
  have huses : ∀ x, h'.uses x + (if x = k then 1 else 0) = h.uses x + (if x = b then 1 else 0) := by
    intro x
    have h1 := Heap.uses_put ec (some { count := n, node := .internal s t { c with data := c.data.set i (some b) } }) x
    rw [hh'] at h1
    simp only [Heap.kidsOf, Option.map_some, Option.getD_some, Body.kids] at h1
    have h2 := (slot_perm c.data i (some k) (some b) ek).count_eq x
    simp only [Option.toList_some, List.count_append, List.count_singleton, beq_iff_eq] at h2
    have e1 : ∀ y, (if y = x then 1 else 0) = if x = y then 1 else 0 := fun y => by simp only [eq_comm]
    rw [e1, e1] at h2
    omega
  have hcount : ∀ x, h'.count x = h.count x := by
    intro x
    rw [← hh', Heap.count_put ec]
    split
    next hx => subst hx; rw [Heap.count_of_cell ec]
    next => rfl
  refine ⟨fun x => ?_, fun x c' e' => ?_, fun x m e' => ?_, fun x m hm => ?_, fun x hm => ?_⟩
  · have h1 := w.counts x
    have h2 := huses x
    rw [refs_add, refs_has] at h1 ⊢
    rw [hcount]
    simp only at h1 ⊢
    omega
  · rw [← hh', Heap.cell_put (Heap.cell_lt ec)] at e'
    split at e'
    · cases e'; exact (w.pos a _ ec : 1 ≤ n)
    · exact w.pos x c' e'
  · by_cases hx : x = a
    · subst hx
      obtain ⟨m, d⟩ := w.den x _ (Heap.node_of_cell ec)
      exact ⟨m, hden d⟩
    · rw [hnode _ hx] at e'
      obtain ⟨m, d⟩ := w.den x _ e'
      exact ⟨m, hden d⟩
  · rcases Multiset.mem_add.1 hm with hm | hm
    · rw [mem_has] at hm
      cases hm
      exact hmove hba hka hn (hden (w.mem b nd (by simp)))
    · exact hden (w.mem x m (Multiset.mem_add.2 (.inr hm)))
  · rcases Multiset.mem_add.1 hm with hm | hm
    · rw [mem_has] at hm; cases hm
    · have hb := w.hole x (Multiset.mem_add.2 (.inr hm))
      rw [← hh', Heap.cell_put (Heap.cell_lt ec), if_neg, hb]
      intro e; subst e; exact hF hm

theorem readSlot_of {d : List (Option κ)} {i : Nat} {x : κ} (e : d[i]? = some (some x)) : readSlot d i = .ok x := by
  unfold readSlot; rw [e]

theorem assignSlot_of {d : List (Option κ)} {i : Nat} {x : κ} (e : d[i]? = some (some x)) (y : κ) :
    assignSlot d i y = .ok (d.set i (some y)) := by
  unfold assignSlot; rw [e]

/-- `load_mut` on an entry in a slot of a node at the end of an unshared way. -/
theorem loadMutSlot_runs {h0 : Heap α} {L F0 : Ctx α} (w0 : World h0 (L + F0)) {e a k : Addr} {π : List Nat} {i : Nat} {s t}
    {c : CB Addr} (he : L.starts e) (u : UPath h0 e π a) (en : h0.node a = some (.internal s t c))
    (ek : c.data[i]? = some (some k)) :
    Runs (fun r L' h' => ∃ b, r = .ok b ∧ L' = L ∧ Later L.starts h0 h' ∧ UPath h' e (π ++ [i]) b ∧ ∃ F, World h' (L + F))
      (loadMutSlot ⟨a, i⟩) L h0 := by
  have ra : L.reach h0 a := u.reach he
  have hm : k ∈ (Body.internal s t c : Body α Addr).kids := Heap.mem_kids ek
  have rk : L.reach h0 k := Ctx.reach_kid ra en hm
  refine .load fun h1 F1 k1 w1 => ⟨k1.reach ra, fun n en1 => ?_⟩
  have en1' := k1.node _ _ ra en
  rw [en1] at en1'
  cases en1'
  show Runs _ ((liftM (readSlot c.data i) : HM α _) >>= _) _ _
  rw [readSlot_of ek]
  refine .isOne fun h2 F2 k2 w2 => ⟨(k1.trans k2).reach rk, ?_⟩
  have k02 := k1.trans k2
  show Runs _ (if (h2.count k == 1) = true then _ else _) _ _
  by_cases hc : h2.count k = 1
  · rw [if_pos (by simp [hc])]
    refine .ret fun h3 F3 k3 w3 => ⟨k, rfl, rfl, (k02.trans k3).later, ?_, F3, w3⟩
    exact k3.later _ he _ _ ((k02.later _ he _ _ u).snoc (k02.node _ _ ra en) ek hc)
  · rw [if_neg (by simp [hc])]
    have hk0 : h0.count k ≠ 1 := fun h => hc (k02.later _ he _ _ (u.snoc en ek h)).count_end
    obtain ⟨ck, eck⟩ := Heap.exists_cell_count (h := h0) (a := k) (by
      have := w0.counts k
      have := World.used_of_kid en hm
      omega)
    obtain ⟨nd, d0⟩ := w0.den k _ (Heap.node_of_cell eck)
    obtain ⟨P, eP, hnd, hk⟩ := d0.inv
    refine .load fun h3 F3 k3 w3 => ⟨(k02.trans k3).reach rk, fun n en3 => ?_⟩
    have k03 := k02.trans k3
    have en3' := k03.node _ _ rk eP
    rw [en3] at en3'
    cases en3'
    show Runs _ (cloneEntries (P.map Prod.fst).kids >>= _) _ _
    rw [Body.kids_map]
    have hz : (0 : Ctx α) + L = L := zero_add L
    rw [← hz]
    refine Runs.clones (I := fun h => Kept L h0 h) (L0 := L) (R := 0) (fun h h' a b => a.trans b) P.kids
      (fun p hp h h' kh hnode hcount => ?_) k03 (fun p hp => ?_) (fun h4 F4 k4 w4 => ?_) F3 (by rw [zero_add]; exact w3)
    · refine ⟨fun b n r e => by rw [hnode]; exact kh.node b n r e, Later.of (fun e ρ x hs v => ?_)
        (fun e ρ x s t c i j hs v en ej _ => ⟨c, by rw [hnode]; exact kh.node _ _ (v.reach hs) en, ej⟩)⟩
      rw [hcount, (kh.later _ hs _ _ v).count_end]
      rintro rfl
      refine UPath.not_below w0 hk0 eP v hs ?_
      rw [Body.kids_map]
      exact List.mem_map_of_mem hp
    · rw [hz]
      have hpk : p.1 ∈ (P.map Prod.fst).kids := by
        rw [Body.kids_map]; exact List.mem_map_of_mem hp
      exact .inr ⟨⟨k, _, k03.reach rk, en3, hpk⟩, k03.den (hk p hp) (Ctx.reach_kid rk eP hpk)⟩
    · rw [hz]
      refine .alloc fun b h5 F5 k5 h5c h5n w5 => ?_
      have k05 : Kept L h0 h5 := k4.trans k5.right
      rw [← hnd] at w5 ⊢
      have hsb : (has (b, nd)).starts b := Ctx.starts_of_mem (s := some nd) (by simp)
      show Runs _ (.poke a (Body.withKid i b) _) _ _
      refine .next rfl fun h6 F6 k6 w6 => ?_
      have k06 : Kept L h0 h6 := k05.trans k6.right
      have u6 := k06.later _ he _ _ u
      refine ⟨⟨e, π, Ctx.starts_add.2 (.inr he), u6⟩, fun q hq => ?_⟩
      have en6 := k06.node _ _ ra en
      obtain ⟨ca, eca, hca⟩ := Heap.exists_cell en6
      have ha1 := u6.count_end
      have eca : h6.cell a = some { count := 1, node := .internal s t c } := by
        rw [eca]; rw [Heap.count_of_cell eca] at ha1; cases ca; simp at hca ha1 ⊢; exact ⟨ha1, hca⟩
      simp only [HM.step, eca] at hq
      cases hq
      have h6c : h6.count b = 1 := k6.left.one hsb h5c
      rw [add_assoc] at w6
      have hba : b ≠ a := by
        rintro rfl
        refine w6.sole_reach hsb h6c (Ctx.reach_mono (fun x hx => Ctx.starts_add.2 (.inl hx)) (u6.reach he))
      have hka : k ≠ a := by
        rintro rfl
        exact hk0 u.count_end
      have hL : (a, none) ∉ L + F6 := by
        intro hm
        have hx := w6.hole a (Multiset.mem_add.2 (.inr hm))
        rw [eca] at hx
        cases hx
      have w7 := w6.swap_ok eca ek hka hba (by
        rw [k6.left.node _ _ (Ctx.reach_start hsb) h5n, k06.node _ _ rk eP]) hL
      have hlt := (List.getElem?_eq_some_iff.1 ek).1
      generalize hh7 : h6.put a (some { count := 1, node := .internal s t { c with data := c.data.set i (some b) } }) = h7 at w7
      have l07 : Later L.starts h0 h7 := by
        refine Later.of (fun e' ρ x hs v => ?_) fun e' ρ x s' t' c' i' j hs v en' ej v' => ?_
        · rw [← hh7, Heap.count_put eca]
          split
          · rfl
          · exact (k06.later _ hs _ _ v).count_end
        · rw [← hh7, Heap.node_put eca]
          split
          next hxa =>
            subst hxa
            rw [en] at en'
            cases en'
            refine ⟨_, rfl, ?_⟩
            simp only
            rw [List.getElem?_set_ne, ej]
            rintro rfl
            rw [ek] at ej
            cases ej
            exact hk0 v'.count_end
          next => exact ⟨c', k06.node _ _ (v.reach hs) en', ej⟩
      have u7 : UPath h7 e (π ++ [i]) b := by
        refine (l07 e he π a u).snoc (s := s) (t := t) (c := { c with data := c.data.set i (some b) }) ?_ ?_ ?_
        · rw [← hh7, Heap.node_put eca, if_pos rfl]
        · simp [hlt]
        · rw [← hh7, Heap.count_put eca, if_neg (Ne.symm hba), h6c]
      have hh7' : h6.put a (some { count := 1, node := Body.withKid i b (.internal s t c) }) = h7 := hh7
      refine ⟨has (k, nd) + L, by rw [hh7', add_assoc]; exact w7, ?_⟩
      show Runs _ ((HM.bind (liftM (assignSlot c.data i b) : HM α _) _).bind _) _ _
      rw [assignSlot_of ek b, hh7']
      have := Runs.drops (h0 := h7) (R := L) (k := HM.ret b)
        (Q := fun r L' h' => ∃ b, r = .ok b ∧ L' = L ∧ Later L.starts h0 h' ∧ UPath h' e (π ++ [i]) b ∧ ∃ F, World h' (L + F))
        (fun h8 F8 k8 w8 => .ret fun h9 F9 k9 w9 =>
          ⟨b, rfl, rfl, l07.trans (k8.trans k9).later, (k8.trans k9).later _ he _ _ u7, F9, w9⟩)
        [(k, nd)] h7 (.refl _ _)
      simp only [own_cons, own_nil, add_zero] at this
      exact this

/-! ### What is at the end of a way -/

/-- The node below, through these slots. -/
def Node.sub : List Nat → Node α → Option (Node α)
  | [], nd => some nd
  | i :: π, .internal _ _ c =>
    match c.data[i]? with
    | some (some k) => Node.sub π k
    | _ => none
  | _ :: _, .leaf _ => none

theorem den_sub {h : Heap α} {e b : Addr} {π : List Nat} (u : UPath h e π b) :
    ∀ {nd : Node α}, Den h e nd → ∃ m, nd.sub π = some m ∧ Den h b m := by
  induction u with
  | nil _ => intro nd d; exact ⟨nd, by cases nd <;> rfl, d⟩
  | @cons a i _ k b s t c e1 e ek r ih =>
    intro nd d
    obtain ⟨P, eP, rfl, hk⟩ := d.inv
    rw [e] at eP
    cases P with
    | leaf _ => simp at eP
    | internal s t C =>
      simp only [Body.map_internal, Option.some.injEq, Body.internal.injEq] at eP
      obtain ⟨rfl, rfl, rfl⟩ := eP
      simp only [CB.map_data, List.getElem?_map] at ek
      cases hC : C.data[i]? with
      | none => rw [hC] at ek; simp at ek
      | some o =>
        cases o with
        | none => rw [hC] at ek; simp at ek
        | some p =>
          rw [hC] at ek
          simp at ek
          subst ek
          obtain ⟨m, em, dm⟩ := ih (hk p (Heap.mem_kids hC))
          refine ⟨m, ?_, dm⟩
          simp only [Body.map_internal, Body.node, Node.sub, CB.map_data, List.getElem?_map, hC]
          exact em

theorem Node.readAt_sub (i : Nat) : ∀ (π : List Nat) {nd m : Node α}, nd.sub π = some m →
    nd.readAt (π ++ [i]) = m.readAt [i]
  | [], nd, m, e => by cases nd <;> cases e <;> rfl
  | j :: π, .leaf b, m, e => by cases e
  | j :: π, .internal s t c, m, e => by
    unfold Node.sub at e
    split at e
    next k hk =>
      have ih := Node.readAt_sub i π e
      cases π with
      | nil =>
        simp only [List.cons_append, List.nil_append] at ih ⊢
        rw [Node.readAt, readSlot_of hk, ok_bind, ih]
      | cons p π =>
        simp only [List.cons_append] at ih ⊢
        rw [Node.readAt, readSlot_of hk, ok_bind, ih]
    · cases e

theorem readPtr_looks {h : Heap α} {L : Ctx α} {e b : Addr} {π : List Nat} {i : Nat} {nd : Node α} {x : α} (u : UPath h e π b)
    (hs : L.starts e) (d : Den h e nd) (ex : nd.readAt (π ++ [i]) = .ok x) : Looks (h.part L) (readPtr ⟨b, i⟩) (.ok x) := by
  obtain ⟨m, em, dm⟩ := den_sub u d
  rw [Node.readAt_sub i π em] at ex
  obtain ⟨P, eP, rfl, -⟩ := dm.inv
  refine .load (Heap.node_part.2 ⟨u.reach hs, eP⟩) ?_
  cases P with
  | leaf B =>
    simp only [Body.map_leaf, Body.node, Node.readAt] at ex ⊢
    show Looks _ (liftM (readSlot B.data i) : HM α _) _
    rw [ex]
    exact .ret x
  | internal s t C =>
    simp only [Body.map_internal, Body.node, Node.readAt] at ex
    cases ex

/-- A way does not come back to an owned entry. -/
theorem UPath.put_frame {h : Heap α} {e : Addr} (hu : h.uses e = 0) {c : RcBox α} (hc : h.cell e = some c) (c' : RcBox α)
    {k b : Addr} {π : List Nat} (u : UPath h k π b) : k ≠ e → UPath (h.put e (some c')) k π b ∧ b ≠ e := by
  induction u with
  | nil e1 =>
    intro hk
    exact ⟨.nil (by rw [Heap.count_put hc, if_neg (Ne.symm hk), e1]), hk⟩
  | cons e1 en ek r ih =>
    intro hk
    obtain ⟨r', hb⟩ := ih (World.kid_ne hu en _ (Heap.mem_kids ek))
    exact ⟨.cons (by rw [Heap.count_put hc, if_neg (Ne.symm hk), e1])
      (by rw [Heap.node_put hc, if_neg (Ne.symm hk), en]) ek r', hb⟩

theorem assignSlot_inv {d d' : List (Option κ)} {i : Nat} {x : κ} (e : assignSlot d i x = .ok d') :
    (∃ y, d[i]? = some (some y)) ∧ d' = d.set i (some x) := by
  unfold assignSlot at e
  split at e
  · cases e
  · cases e
  next y h => cases e; exact ⟨⟨y, h⟩, rfl⟩

/-- Writing an item at the end of an unshared way changes the node it starts from, and no other owned entry. -/
theorem write_world {b : Addr} {x : α} {i : Nat} : ∀ (π : List Nat) {h : Heap α} {e : Addr} {nd nd' : Node α} {R : Ctx α},
    World h (has (e, nd) + R) → UPath h e π b → nd.writeAt x (π ++ [i]) = .ok nd' →
    ∃ B : CB α, h.cell b = some { count := 1, node := .leaf B } ∧ (∃ y, B.data[i]? = some (some y)) ∧
      World (h.put b (some { count := 1, node := .leaf { B with data := B.data.set i (some x) } })) (has (e, nd') + R)
  | [], h, e, nd, nd', R, w, u, ew => by
    have h1 := u.count_start
    have hbe : b = e := by cases u; rfl
    subst hbe
    obtain ⟨P, eP, rfl, hk⟩ := (w.mem b nd (by simp)).inv
    obtain ⟨c, ec, hc⟩ := Heap.exists_cell eP
    have hc1 : c = { count := 1, node := P.map Prod.fst } := by
      rw [Heap.count_of_cell ec] at h1
      cases c; simp at hc h1 ⊢; exact ⟨h1, hc⟩
    subst hc1
    cases P with
    | internal s t C => simp only [Body.map_internal, Body.node, List.nil_append, Node.writeAt] at ew; cases ew
    | leaf B =>
      simp only [Body.map_leaf, Body.node, List.nil_append, Node.writeAt] at ew
      obtain ⟨d', e1, e2⟩ := RVec.bind_ok ew
      cases e2
      obtain ⟨hy, rfl⟩ := assignSlot_inv e1
      have w1 := w.take_ok hk ec
      have w2 := World.give_ok (P := .leaf { B with data := B.data.set i (some x) }) w1
      rw [Heap.put_put] at w2
      exact ⟨B, ec, hy, w2⟩
  | j :: π, h, e, nd, nd', R, w, u, ew => by
    cases u with
    | @cons _ _ _ k _ s t c h1 en ek r =>
    obtain ⟨P, eP, rfl, hk⟩ := (w.mem e nd (by simp)).inv
    obtain ⟨c, ec, hc⟩ := Heap.exists_cell eP
    have hc1 : c = { count := 1, node := P.map Prod.fst } := by
      rw [Heap.count_of_cell ec] at h1
      cases c; simp at hc h1 ⊢; exact ⟨h1, hc⟩
    subst hc1
    cases P with
    | leaf B => rw [en] at eP; simp at eP
    | internal s' t' C =>
      rw [en] at eP
      simp only [Body.map_internal, Option.some.injEq, Body.internal.injEq] at eP
      obtain ⟨rfl, rfl, rfl⟩ := eP
      simp only [CB.map_data, List.getElem?_map] at ek
      cases hC : C.data[j]? with
      | none => rw [hC] at ek; simp at ek
      | some o =>
        cases o with
        | none => rw [hC] at ek; simp at ek
        | some p =>
          rw [hC] at ek
          simp at ek
          subst ek
          have hw : ∃ m', p.2.writeAt x (π ++ [i]) = .ok m' ∧
              nd' = .internal s t { C.map Prod.snd with data := (C.map Prod.snd).data.set j (some m') } := by
            have hslot : (C.map Prod.snd).data[j]? = some (some p.2) := by simp [CB.map_data, hC]
            cases π with
            | nil =>
              simp only [Body.map_internal, Body.node, List.cons_append, List.nil_append, Node.writeAt, readSlot_of hslot, ok_bind] at ew
              obtain ⟨m', e1, e2⟩ := RVec.bind_ok ew
              rw [assignSlot_of hslot, ok_bind] at e2
              cases e2
              exact ⟨m', e1, rfl⟩
            | cons q π =>
              simp only [Body.map_internal, Body.node, List.cons_append, Node.writeAt, readSlot_of hslot, ok_bind] at ew
              obtain ⟨m', e1, e2⟩ := RVec.bind_ok ew
              rw [assignSlot_of hslot, ok_bind] at e2
              cases e2
              exact ⟨m', e1, rfl⟩
          obtain ⟨m', em', rfl⟩ := hw
          obtain ⟨-, hu⟩ := w.sole (Heap.count_of_cell ec) (by rw [refs_add, refs_has, if_pos rfl]; omega)
          have hpe : p.1 ≠ e := World.kid_ne hu en p.1 (Heap.mem_kids (i := j) (by simp [CB.map_data, hC]))
          obtain ⟨r', hbe⟩ := r.put_frame hu ec { count := 1, node := Body.emptyLeaf } hpe
          have w1 := w.take_ok hk ec
          have hperm := slot_perm C.data j (some p) none hC
          have hperm' : (Body.internal s t C : Body α _).kids.Perm (p :: (C.data.set j none).filterMap id) := hperm.symm
          rw [own_perm hperm', own_cons] at w1
          have w1' : World (h.put e (some { count := 1, node := Body.emptyLeaf }))
              (has (p.1, p.2) + (hole e + own ((C.data.set j none).filterMap id) + R)) := by
            have e0 : hole e + (has p + own ((C.data.set j none).filterMap id)) + R =
              has (p.1, p.2) + (hole e + own ((C.data.set j none).filterMap id) + R) := by
              show _ = has p + _
              abel
            rw [← e0]; exact w1
          obtain ⟨B, eB, hy, w2⟩ := write_world π w1' r' em'
          rw [Heap.cell_put (Heap.cell_lt ec), if_neg (Ne.symm hbe)] at eB
          refine ⟨B, eB, hy, ?_⟩
          have hlt := (List.getElem?_eq_some_iff.1 hC).1
          have hperm2 : (Body.internal s t { C with data := C.data.set j (some (p.1, m')) } : Body α _).kids.Perm
              ((p.1, m') :: (C.data.set j none).filterMap id) := by
            have := slot_perm (C.data.set j none) j none (some (p.1, m')) (by simp [hlt])
            rw [List.set_set] at this
            exact this
          have w3 := World.give_ok (P := .internal s t { C with data := C.data.set j (some (p.1, m')) }) (F := R) (a := e)
            (h := (h.put e (some { count := 1, node := Body.emptyLeaf })).put b
              (some { count := 1, node := .leaf { B with data := B.data.set i (some x) } })) (by
            rw [own_perm hperm2, own_cons]
            have e0 : hole e + (has (p.1, m') + own ((C.data.set j none).filterMap id)) + R =
              has (p.1, m') + (hole e + own ((C.data.set j none).filterMap id) + R) := by abel
            rw [e0]; exact w2)
          have efst : (Body.internal s t { C with data := C.data.set j (some (p.1, m')) } : Body α (Addr × Node α)).map Prod.fst =
              (Body.internal s t C : Body α _).map Prod.fst := by
            have : (C.data.set j (some (p.1, m'))).map (Option.map Prod.fst) = C.data.map (Option.map Prod.fst) := by
              rw [List.map_set]
              exact set_same (by rw [List.getElem?_map, hC]; rfl)
            simp [CB.map, this]
          have esnd : ((Body.internal s t { C with data := C.data.set j (some (p.1, m')) } : Body α (Addr × Node α)).map Prod.snd).node =
              .internal s t { C.map Prod.snd with data := (C.map Prod.snd).data.set j (some m') } := by
            simp [CB.map, List.map_set, Body.node]
          rw [Heap.put_comm hbe, Heap.put_put, efst, Heap.put_comm (Ne.symm hbe), esnd] at w3
          have hbl : (h.put b (some { count := 1, node := Body.leaf { B with data := B.data.set i (some x) } })).put e
              (some { count := 1, node := (Body.internal s t C : Body α (Addr × Node α)).map Prod.fst }) =
              h.put b (some { count := 1, node := Body.leaf { B with data := B.data.set i (some x) } }) := by
            exact Heap.put_self (by rw [Heap.cell_put (Heap.cell_lt eB), if_neg hbe, ec])
          rw [hbl] at w3
          exact w3

/-- `*place = x` behind an unshared way. -/
theorem writePtr_runs {h : Heap α} {e b : Addr} {π : List Nat} {i : Nat} {nd nd' : Node α} {x : α} {R : Ctx α}
    (u : UPath h e π b) (ex : nd.writeAt x (π ++ [i]) = .ok nd') :
    Runs (fun r L' h' => r = .ok () ∧ L' = has (e, nd') + R ∧ Later (has (e, nd) + R).starts h h' ∧ ∃ F, World h' (L' + F))
      (writePtr x ⟨b, i⟩) (has (e, nd) + R) h := by
  have hs : (has (e, nd) + R).starts e := Ctx.starts_of_mem (s := some nd) (by simp)
  show Runs _ (.poke b (Body.withItem i x) _) _ _
  refine .next rfl fun h1 F k1 w => ?_
  have u1 := k1.later _ hs _ _ u
  refine ⟨⟨e, π, hs, u1⟩, fun q hq => ?_⟩
  rw [add_assoc] at w
  obtain ⟨B, eB, ⟨y, hy⟩, w'⟩ := write_world π w u1 ex
  simp only [HM.step, eB] at hq
  cases hq
  refine ⟨has (e, nd') + R, by rw [add_assoc]; exact w', ?_⟩
  show Runs _ ((liftM (assignSlot B.data i x) : HM α _) >>= _) _ _
  rw [assignSlot_of hy x]
  refine .ret fun h3 F3 k3 w3 => ⟨rfl, rfl, k1.later.trans (Later.trans ?_ (k3.later.mono fun a ha => ?_)), F3, w3⟩
  · intro e' _ ρ z u'
    refine u'.keep (I := fun _ => True) (fun z _ h1 => ?_) (fun z s t c j k _ h1 en ek _ => ⟨trivial, c, ?_, ek⟩) trivial
    · rw [Heap.count_put eB]
      split
      · rfl
      · exact h1
    · rw [Heap.node_put eB]
      split
      next hb => subst hb; rw [Heap.node_of_cell eB] at en; simp at en
      next => exact en
  · have ha : 1 ≤ Ctx.refs (has (e, nd) + R) a := ha
    show 1 ≤ Ctx.refs (has (e, nd') + R) a
    rw [refs_add, refs_has] at ha ⊢
    exact ha

end Librrb
