import Verif.Proof.FocusMut
import Mathlib.Data.List.Nodup

/-! # The places of the items of a vector -/
namespace Librrb

/-! ### Lists -/

theorem flatMap_zip (ps : List σ) (A : σ → List τ) (L : σ → List α) (g : σ → τ → τ') (f : τ' → α → β)
    (h : ∀ p ∈ ps, (A p).length = (L p).length) :
    (ps.flatMap fun p => List.zipWith (fun q => f (g p q)) (A p) (L p)) =
      List.zipWith f (ps.flatMap fun p => (A p).map (g p)) (ps.flatMap L) := by
  induction ps with
  | nil => rfl
  | cons p ps ih =>
    rw [List.flatMap_cons, List.flatMap_cons, List.flatMap_cons, ih fun q hq => h q (by simp [hq]),
      List.zipWith_append (by simp [h p (by simp)]), List.zipWith_map_left]

theorem nodup_labels (ps : List σ) (A : σ → List τ) (g : σ → τ → τ') (lab : σ → ρ)
    (hg : ∀ p q x y, g p x = g q y → lab p = lab q ∧ x = y)
    (hl : (ps.map lab).Nodup) (h : ∀ p ∈ ps, (A p).Nodup) :
    (ps.flatMap fun p => (A p).map (g p)).Nodup := by
  rw [List.nodup_flatMap]
  refine ⟨fun p hp => (h p hp).map fun x y e => (hg _ _ _ _ e).2, ?_⟩
  rw [List.nodup_iff_pairwise_ne, List.pairwise_map] at hl
  refine hl.imp ?_
  intro p q hpq x hx hy
  simp only [List.mem_map] at hx hy
  obtain ⟨a, -, rfl⟩ := hx
  obtain ⟨b, -, e⟩ := hy
  exact hpq (hg _ _ _ _ e).1.symm

theorem zipWith_snd (l : List α) (A : List β) (h : A.length = l.length) :
    List.zipWith (fun _ x => x) A l = l := by
  induction l generalizing A with
  | nil => simp
  | cons x l ih =>
    cases A with
    | nil => simp at h
    | cons a A => simp [ih A (by simpa using h)]

theorem zipWith_fst (l : List α) (A : List β) (h : A.length = l.length) (f : β → γ) :
    List.zipWith (fun a _ => f a) A l = A.map f := by
  induction l generalizing A with
  | nil => cases A <;> simp_all
  | cons x l ih =>
    cases A with
    | nil => simp at h
    | cons a A => simp [ih A (by simpa using h)]

theorem map_mapIdx' (l : List α) (f : Nat → α → β) (g : β → γ) :
    (l.mapIdx f).map g = l.mapIdx fun i x => g (f i x) := by
  apply List.ext_getElem?
  intro i
  simp only [List.getElem?_map, List.getElem?_mapIdx, Option.map_map]
  rfl

/-- The elements with the physical slots they are in. -/
def slotted (front : Nat) (ks : List ν) : List (Nat × ν) := ks.mapIdx fun i k => ((front + i) % 64, k)

theorem slotted_snd (front : Nat) (ks : List ν) : (slotted front ks).map Prod.snd = ks := by
  apply List.ext_getElem?
  intro i
  simp only [slotted, List.getElem?_map, List.getElem?_mapIdx, Option.map_map]
  cases ks[i]? <;> rfl

theorem slotted_nodup {front : Nat} {ks : List ν} (h : ks.length ≤ 64) :
    ((slotted front ks).map Prod.fst).Nodup := by
  have : (slotted front ks).map Prod.fst = (List.range ks.length).map fun i => (front + i) % 64 := by
    apply List.ext_getElem?
    intro i
    simp only [slotted, List.getElem?_map, List.getElem?_mapIdx, Option.map_map]
    by_cases hi : i < ks.length
    · simp [hi]
    · rw [List.getElem?_eq_none (by omega), List.getElem?_eq_none (by simp; omega)]; rfl
  rw [this, List.nodup_iff_pairwise_ne, List.pairwise_map]
  refine (List.nodup_iff_pairwise_ne.1 List.nodup_range).imp_of_mem ?_
  intro a b ha hb hab e
  rw [List.mem_range] at ha hb
  omega

theorem slotted_mid (front : Nat) (A : List ν) (k : ν) (B : List ν) :
    slotted front (A ++ k :: B) = slotted front A ++ ((front + A.length) % 64, k) ::
      B.mapIdx fun i k => ((front + (i + 1 + A.length)) % 64, k) := by
  simp [slotted, List.mapIdx_append, List.mapIdx_cons]

theorem mem_slotted {front : Nat} {ks : List ν} {p : Nat × ν} (h : p ∈ slotted front ks) : p.2 ∈ ks := by
  rw [← slotted_snd front ks]
  exact List.mem_map_of_mem h

/-! ### Nodes -/
namespace Node

/-- The places of the items below a node, in order. -/
def addrs (nd : Node α) : List (List Nat) := (nd.mapAddr fun p _ => p).toList

theorem mapAddrList_getElem? (f : List Nat → α → β) (l : List (Option (Node α))) (p j : Nat) :
    (mapAddrList f p l)[j]? = l[j]?.map (Option.map fun k => k.mapAddr fun q => f ((p + j) :: q)) := by
  induction l generalizing p j with
  | nil => simp [mapAddrList]
  | cons o l ih =>
    cases o with
    | none =>
      rw [mapAddrList]
      cases j with
      | zero => simp
      | succ j => simp [ih, Nat.add_comm, Nat.add_left_comm]
    | some k =>
      rw [mapAddrList]
      cases j with
      | zero => simp
      | succ j => simp [ih, Nat.add_comm, Nat.add_left_comm]

theorem mapAddrList_length (f : List Nat → α → β) (l : List (Option (Node α))) (p : Nat) :
    (mapAddrList f p l).length = l.length := by
  induction l generalizing p with
  | nil => simp [mapAddrList]
  | cons o l ih => cases o <;> simp [mapAddrList, ih]

theorem rep_mapAddr {c : CB (Node α)} {ks : List (Node α)} (h : c.Rep ks) (f : List Nat → α → β) :
    CB.Rep ⟨c.front, c.len, mapAddrList f 0 c.data⟩
      ((slotted c.front ks).map fun p => p.2.mapAddr fun q => f (p.1 :: q)) := by
  refine ⟨by simp [mapAddrList_length, h.size], h.front_lt, by simp [slotted, h.len_eq], by simpa [slotted] using h.le, ?_⟩
  intro i hi
  simp only
  rw [mapAddrList_getElem?, h.slot i hi]
  simp only [slotted, Nat.zero_add, List.getElem?_map, List.getElem?_mapIdx, Option.map_map, Option.map_some]
  rfl

theorem rep_mapLeaf {b : CB α} {l : List α} (h : b.Rep l) (f : List Nat → α → β) :
    CB.Rep ⟨b.front, b.len, b.data.mapIdx fun p o => o.map (f [p])⟩ ((slotted b.front l).map fun p => f [p.1] p.2) := by
  refine ⟨by simp [h.size], h.front_lt, by simp [slotted, h.len_eq], by simpa [slotted] using h.le, ?_⟩
  intro i hi
  simp only
  rw [List.getElem?_mapIdx, h.slot i hi]
  simp only [slotted, List.getElem?_map, List.getElem?_mapIdx, Option.map_map, Option.map_some]
  rfl

/-- What there is to say about the places of the items below a node. -/
structure AddrOk (n : Nat) (nd : Node α) : Prop where
  map : ∀ {β : Type} (f : List Nat → α → β), Wf n (nd.mapAddr f) ∧
    (nd.mapAddr f).toList = List.zipWith f nd.addrs nd.toList ∧ (nd.mapAddr f).slots = nd.slots
  nodup : nd.addrs.Nodup
  length : nd.addrs.length = nd.toList.length
  place : ∀ i (h : i < nd.toList.length), ∃ p, nd.addrs[i]? = some p ∧ p ≠ [] ∧
    readAt p nd = .ok nd.toList[i] ∧ ∀ x, ∃ nd', nd.set i x = .ok (some nd') ∧ writeAt x p nd = .ok nd' ∧
      nd'.addrs = nd.addrs

theorem addrs_leaf {b : CB α} {l : List α} (h : b.Rep l) :
    (leaf b).addrs = (slotted b.front l).map fun p => [p.1] := by
  rw [addrs, mapAddr]
  exact (toList_leaf _).trans (rep_mapLeaf h fun p _ => p).toList

theorem addrOk_leaf {b : CB α} {l : List α} (h : b.Rep l) : AddrOk 0 (leaf b) := by
  have ha := addrs_leaf h
  have hle := h.le
  have htl : (leaf b).toList = l := by rw [toList_leaf, h.toList]
  refine ⟨?_, ?_, ?_, ?_⟩
  · intro β f
    have hI : Items ((leaf b).mapAddr f) ((slotted b.front l).map fun p => f [p.1] p.2) :=
      ⟨_, by rw [mapAddr], rep_mapLeaf h f⟩
    refine ⟨hI.wf, ?_, ?_⟩
    · rw [hI.toList, ha, htl, List.zipWith_map_left]
      apply List.ext_getElem?
      intro i
      by_cases hi : i < l.length <;> simp [slotted, hi]
    · rw [hI.slots]
      simp [slotted, slots, h.len_eq]
  · rw [ha]
    have := slotted_nodup (front := b.front) hle
    rw [List.nodup_iff_pairwise_ne, List.pairwise_map] at this ⊢
    exact this.imp fun h e => h (by simpa using e)
  · rw [ha, htl]; simp [slotted]
  · intro i hi
    have hi' : i < l.length := by rwa [htl] at hi
    refine ⟨[(b.front + i) % 64], by rw [ha]; simp [slotted, hi'], by simp, ?_, ?_⟩
    · rw [readAt, h.read hi']; simp [htl]
    · intro x
      obtain ⟨d, e, hr⟩ := CB.assignSlot_ok h hi' x
      refine ⟨leaf { b with data := d }, ?_, ?_, ?_⟩
      · rw [set, level, setAux, CB.set, if_pos (by rw [h.len_eq]; exact hi'), e]; rfl
      · rw [writeAt]
        rw [CB.indexFor] at e
        rw [e]; rfl
      · rw [ha, addrs_leaf hr]
        simp only [slotted, map_mapIdx']
        apply List.ext_getElem?
        intro j
        rw [List.getElem?_mapIdx, List.getElem?_mapIdx]
        by_cases hj : j < l.length
        · simp [hj]
        · rw [List.getElem?_eq_none (by simpa using hj), List.getElem?_eq_none (by simpa using hj)]

theorem addrs_internal {n : Nat} {s t} {c : CB (Node α)} {ks : List (Node α)} (h : c.Rep ks)
    (ih : ∀ k ∈ ks, AddrOk n k) :
    (internal s t c).addrs = (slotted c.front ks).flatMap fun p => p.2.addrs.map (p.1 :: ·) := by
  rw [addrs, mapAddr, toList_internal, (rep_mapAddr h _).toList, List.flatMap_map]
  apply List.flatMap_congr
  intro p hp
  have hk := ih p.2 (mem_slotted hp)
  rw [(hk.map _).2.1, zipWith_fst _ _ hk.length]

theorem addrOk_internal {n : Nat} {nd : Node α} {ks : List (Node α)} (hK : Kids n nd ks)
    (ih : ∀ k : Node α, Wf n k → AddrOk n k) : AddrOk (n + 1) nd := by
  have htl := hK.toList
  have hK' := hK
  obtain ⟨s, c, rfl, h1, h2, h3⟩ := hK
  have ih' : ∀ k ∈ ks, AddrOk n k := fun k hk => ih k (h3 k hk).1
  have ha := addrs_internal (s := s) (t := tagFor (n + 1)) h2 ih'
  have hfl : ks.flatMap Node.toList = (slotted c.front ks).flatMap fun p => p.2.toList := by
    conv => lhs; rw [← slotted_snd c.front ks, List.flatMap_map]
  refine ⟨?_, ?_, ?_, ?_⟩
  · intro β f
    have hr := rep_mapAddr h2 f
    have hKm : Kids n ((internal s (tagFor (n + 1)) c).mapAddr f)
        ((slotted c.front ks).map fun p => p.2.mapAddr fun q => f (p.1 :: q)) := by
      refine ⟨s, _, by rw [mapAddr], ?_, hr, ?_⟩
      · have : ((slotted c.front ks).map fun p => p.2.mapAddr fun q => f (p.1 :: q)).map size = ks.map size := by
          rw [List.map_map]
          conv => rhs; rw [← slotted_snd c.front ks, List.map_map]
          apply List.map_congr_left
          intro p hp
          have hk := ih' p.2 (mem_slotted hp)
          simp [size, (hk.map _).2.1, hk.length]
        rw [this]; exact h1
      · intro k hk
        simp only [List.mem_map] at hk
        obtain ⟨p, hp, rfl⟩ := hk
        have hk := ih' p.2 (mem_slotted hp)
        refine ⟨(hk.map _).1, ?_⟩
        have := (h3 p.2 (mem_slotted hp)).2
        rw [(hk.map _).2.1]
        intro e
        have := congrArg List.length e
        simp [hk.length] at this
        contradiction
    refine ⟨hKm.wf, ?_, ?_⟩
    · rw [hKm.toList, htl, ha, hfl, List.flatMap_map,
        ← flatMap_zip _ (fun p : Nat × Node α => p.2.addrs) (fun p : Nat × Node α => p.2.toList) (fun p q => p.1 :: q)]
      · apply List.flatMap_congr
        intro p hp
        exact ((ih' p.2 (mem_slotted hp)).map _).2.1
      · intro p hp
        exact (ih' p.2 (mem_slotted hp)).length
    · rw [hKm.slots, hK'.slots]; simp [slotted]
  · rw [ha]
    exact nodup_labels _ (fun p : Nat × Node α => p.2.addrs) (fun p q => p.1 :: q) Prod.fst
      (by intro p q x y e; simpa using e) (slotted_nodup h2.le) fun p hp => (ih' p.2 (mem_slotted hp)).nodup
  · rw [ha, htl, hfl, List.length_flatMap, List.length_flatMap]
    congr 1
    apply List.map_congr_left
    intro p hp
    simp [(ih' p.2 (mem_slotted hp)).length]
  · intro i hi
    have hi0 := hi
    rw [htl, flatMap_length] at hi
    cases hp : SizeTable.findPos (ks.map size) i with
    | none => rw [SizeTable.findPos_none] at hp; omega
    | some p =>
      obtain ⟨a, j⟩ := p
      have hp' := SizeTable.positionInfoFor_ok h1 i
      rw [hp] at hp'
      obtain ⟨A, k, B, rfl, rfl, rfl, hj⟩ := findPos_kids hp
      have hk := ih' k (by simp)
      obtain ⟨p, e1, e2, e3, e4⟩ := hk.place j hj
      have hlt : A.length < (A ++ k :: B).length := by simp
      have hslot := h2.read hlt
      rw [show (A ++ k :: B)[A.length] = k by simp] at hslot
      have hAl : ((slotted c.front A).flatMap fun p => p.2.addrs.map (p.1 :: ·)).length = (A.flatMap Node.toList).length := by
        conv => rhs; rw [← slotted_snd c.front A, List.flatMap_map]
        rw [List.length_flatMap, List.length_flatMap]
        congr 1
        apply List.map_congr_left
        intro p hp
        simp [(ih' p.2 (by have := mem_slotted hp; simp [this])).length]
      obtain ⟨q, ps, rfl⟩ : ∃ q ps, p = q :: ps := by
        cases p with
        | nil => simp at e2
        | cons q ps => exact ⟨q, ps, rfl⟩
      refine ⟨((c.front + A.length) % 64) :: q :: ps, ?_, by simp, ?_, ?_⟩
      · rw [ha, slotted_mid, List.flatMap_append, List.flatMap_cons, List.getElem?_append_right (by omega), hAl,
          Nat.add_sub_cancel_left, List.getElem?_append_left (by simp [hk.length, hj]), List.getElem?_map, e1]
        rfl
      · rw [readAt, hslot, ok_bind, e3]
        congr 1
        have : (internal s (tagFor (n + 1)) c).toList[(A.flatMap Node.toList).length + j]? = some k.toList[j] := by
          rw [htl, List.flatMap_append, List.flatMap_cons, List.getElem?_append_right (by omega),
            Nat.add_sub_cancel_left, List.getElem?_append_left hj, List.getElem?_eq_getElem hj]
        rw [List.getElem?_eq_getElem hi0] at this
        exact (Option.some.inj this).symm
      · intro x
        obtain ⟨k', f1, f2, f3⟩ := e4 x
        obtain ⟨d, e, hr⟩ := CB.assignSlot_ok h2 hlt k'
        rw [show (A ++ k :: B).set A.length k' = A ++ k' :: B by simp] at hr
        have hwk : Wf n k' := by
          obtain ⟨z, z1, z2, -⟩ := Node.set_ok (h3 k (by simp)).1 x hj
          rw [f1] at z1; cases z1; exact z2
        refine ⟨.internal s (tagFor (n + 1)) { c with data := d }, ?_, ?_, ?_⟩
        · have hlv : k.set j x = setAux (n + 1) k j x := by rw [set, (h3 k (by simp)).1.level]
          rw [set, hK'.wf.level, setAux, hp', ok_bind]
          simp only
          rw [CB.get_ok h2, ok_bind, show (A ++ k :: B)[A.length]? = some k by simp, unwrap_some, ok_bind, ← hlv,
            f1, ok_bind]
          simp only
          rw [CB.set, if_pos (by rw [h2.len_eq]; exact hlt), e]
          rfl
        · rw [writeAt, hslot, ok_bind, f2, ok_bind]
          rw [CB.indexFor] at e
          rw [e]; rfl
        · rw [ha, addrs_internal (n := n) hr]
          · simp only
            rw [slotted_mid, slotted_mid]
            simp only [List.flatMap_append, List.flatMap_cons, f3]
          · intro z hz
            rw [List.mem_append, List.mem_cons] at hz
            rcases hz with hz | rfl | hz
            · exact ih' z (by simp [hz])
            · exact ih _ hwk
            · exact ih' z (by simp [hz])

theorem Wf.addrOk : ∀ {n : Nat} {nd : Node α}, Wf n nd → AddrOk n nd
  | 0, _, h => by obtain ⟨l, b, rfl, hb⟩ := wf_zero.1 h; exact addrOk_leaf hb
  | n + 1, _, h => by obtain ⟨ks, hk⟩ := wf_succ.1 h; exact addrOk_internal hk fun k hk => Wf.addrOk hk

end Node

/-! ### Vectors -/
namespace RVec

/-- The nodes of the spines and the root, in the order of the sequence, with their names. -/
def labelled (v : RVec α) : List (Option (Side × Nat) × Node α) :=
  (v.left.mapIdx fun k nd => (some (.front, k), nd)) ++ [(none, v.root)] ++
    (v.right.mapIdx fun k nd => (some (.back, k), nd)).reverse

theorem toList_mapAddr (f : Cell → α → β) (v : RVec α) :
    (v.mapAddr f).toList = v.labelled.flatMap fun p => (p.2.mapAddr fun q => f (p.1, q)).toList := by
  simp only [toList, mapAddr, labelled, List.flatMap_append, List.flatMap_cons, List.flatMap_nil, List.append_nil]
  congr 1
  · congr 1
    rw [List.flatMap_def, List.flatMap_def, map_mapIdx', map_mapIdx']
  · rw [List.flatMap_def, List.flatMap_def, List.map_reverse, List.map_reverse, map_mapIdx', map_mapIdx']

theorem toList_labelled (v : RVec α) : v.toList = v.labelled.flatMap fun p => p.2.toList := by
  simp only [toList, labelled, List.flatMap_append, List.flatMap_cons, List.flatMap_nil, List.append_nil]
  have : ∀ (xs : List (Node α)) (s : Side), (xs.mapIdx fun k nd => (some (s, k), nd)).map Prod.snd = xs := by
    intro xs s
    apply List.ext_getElem?
    intro i
    simp only [List.getElem?_map, List.getElem?_mapIdx, Option.map_map]
    cases xs[i]? <;> rfl
  congr 1
  · congr 1
    conv => lhs; rw [← this v.left .front, List.flatMap_map]
  · conv => lhs; rw [← this v.right .back, ← List.map_reverse, List.flatMap_map]

theorem labelled_nodup (v : RVec α) : (v.labelled.map Prod.fst).Nodup := by
  have key : ∀ (xs : List (Node α)) (s : Side),
      (xs.mapIdx fun k nd => (some (s, k), nd)).map Prod.fst = (List.range xs.length).map fun k => some (s, k) := by
    intro xs s
    apply List.ext_getElem?
    intro i
    simp only [List.getElem?_map, List.getElem?_mapIdx, Option.map_map]
    by_cases hi : i < xs.length
    · simp [hi]
    · rw [List.getElem?_eq_none (by omega), List.getElem?_eq_none (by simp; omega)]; rfl
  have nd : ∀ (n : Nat) (s : Side), ((List.range n).map fun k => some (s, k)).Nodup := by
    intro n s
    exact List.nodup_range.map fun a b e => by simpa using e
  simp only [labelled, List.map_append, List.map_reverse, key, List.map_cons, List.map_nil]
  rw [List.nodup_append, List.nodup_append]
  refine ⟨⟨nd _ _, by simp, ?_⟩, List.nodup_reverse.2 (nd _ _), ?_⟩
  · intro a ha b hb
    simp only [List.mem_map, List.mem_singleton] at ha hb
    obtain ⟨k, -, rfl⟩ := ha
    subst hb
    simp
  · intro a ha b hb
    simp only [List.mem_append, List.mem_map, List.mem_singleton, List.mem_reverse] at ha hb
    obtain ⟨k, -, rfl⟩ := hb
    rcases ha with ⟨j, -, rfl⟩ | rfl <;> simp

theorem InvH.labelled_wf {v : RVec α} {h : Nat} (i : InvH v h) {p} (hp : p ∈ v.labelled) : ∃ n, p.2.Wf n := by
  simp only [labelled, List.mem_append, List.mem_singleton, List.mem_reverse, List.mem_mapIdx] at hp
  rcases hp with (⟨k, hk, rfl⟩ | rfl) | ⟨k, hk, rfl⟩
  · exact ⟨_, ((i.spine .front).getElem hk).1⟩
  · exact ⟨_, i.root⟩
  · exact ⟨_, ((i.spine .back).getElem hk).1⟩

/-- The places of the items of a vector, in order. -/
theorem toList_cells {v : RVec α} {h : Nat} (i : InvH v h) :
    v.cells.toList = v.labelled.flatMap fun p => p.2.addrs.map (Prod.mk p.1) := by
  rw [cells, toList_mapAddr]
  apply List.flatMap_congr
  intro p hp
  obtain ⟨n, hn⟩ := i.labelled_wf hp
  rw [(hn.addrOk.map _).2.1, zipWith_fst _ _ hn.addrOk.length]

theorem cells_length {v : RVec α} {h : Nat} (i : InvH v h) : v.cells.toList.length = v.toList.length := by
  rw [toList_cells i, toList_labelled, List.length_flatMap, List.length_flatMap]
  congr 1
  apply List.map_congr_left
  intro p hp
  obtain ⟨n, hn⟩ := i.labelled_wf hp
  simp [hn.addrOk.length]

theorem mapAddr_toList {v : RVec α} {h : Nat} (i : InvH v h) (f : Cell → α → β) :
    (v.mapAddr f).toList = List.zipWith f v.cells.toList v.toList := by
  rw [toList_mapAddr, toList_cells i, toList_labelled,
    ← flatMap_zip v.labelled (fun p => p.2.addrs) (fun p => p.2.toList) (fun p => Prod.mk p.1)]
  · apply List.flatMap_congr
    intro p hp
    obtain ⟨n, hn⟩ := i.labelled_wf hp
    exact (hn.addrOk.map _).2.1
  · intro p hp
    obtain ⟨n, hn⟩ := i.labelled_wf hp
    exact hn.addrOk.length

theorem cells_nodup {v : RVec α} {h : Nat} (i : InvH v h) : v.cells.toList.Nodup := by
  rw [toList_cells i]
  refine nodup_labels _ (fun p : Option (Side × Nat) × Node α => p.2.addrs) (fun p q => (p.1, q)) Prod.fst
    (by intro p q x y e; simpa using e) v.labelled_nodup ?_
  intro p hp
  obtain ⟨n, hn⟩ := i.labelled_wf hp
  exact hn.addrOk.nodup

theorem spine_mapIdx {n : Nat} {xs : List (Node α)} (h : Spine n xs) (f : Nat → List Nat → α → β) :
    Spine n (xs.mapIdx fun k nd => nd.mapAddr (f k)) := by
  induction xs generalizing n f with
  | nil => simp
  | cons x xs ih =>
    rw [List.mapIdx_cons]
    have := h.1.addrOk.map (f 0)
    exact ⟨this.1, by rw [this.2.2]; exact h.2.1, ih h.2.2 fun k => f (k + 1)⟩

theorem spine_mapAddr (f : Cell → α → β) (v : RVec α) (s : Side) :
    (v.mapAddr f).spine s = (v.spine s).mapIdx fun k nd => nd.mapAddr fun p => f (some (s, k), p) := by
  cases s <;> rfl

theorem InvH.mapAddr {v : RVec α} {h : Nat} (i : InvH v h) (f : Cell → α → β) : InvH (v.mapAddr f) h := by
  have hr := i.root.addrOk.map fun p => f (none, p)
  have hsl : ∀ s k (hk : k < (v.spine s).length) (g : List Nat → α → β),
      ((v.spine s)[k].mapAddr g).slots = (v.spine s)[k].slots := by
    intro s k hk g
    exact (((i.spine s).getElem hk).1.addrOk.map g).2.2
  refine { length := ?_, spine := ?_, root := hr.1, room := ?_, head := ?_, top := ?_, len := ?_, lt := i.lt }
  · intro s; rw [spine_mapAddr, List.length_mapIdx, i.length]
  · intro s; rw [spine_mapAddr]; exact spine_mapIdx (i.spine s) fun k p => f (some (s, k), p)
  · intro h0
    show (v.root.mapAddr _).slots ≤ 62
    rw [hr.2.2]; exact i.room h0
  · intro s x hx
    rw [spine_mapAddr, List.head?_mapIdx] at hx
    have hh := i.head s
    cases e : (v.spine s).head? with
    | none => rw [e] at hx; simp at hx
    | some y =>
      rw [e] at hx
      simp only [Option.map_some, Option.mem_def, Option.some.injEq] at hx
      subst hx
      have hw : y.Wf 0 := by
        cases e' : v.spine s with
        | nil => rw [e'] at e; simp at e
        | cons z zs =>
          rw [e'] at e
          simp at e
          subst e
          have := i.spine s
          rw [e'] at this
          exact this.1
      rw [(hw.addrOk.map _).2.2]
      exact hh y e
  · have hlast : ∀ s a, ((v.mapAddr f).spine s).getLast? = some a →
        ∃ a', (v.spine s).getLast? = some a' ∧ a.slots = a'.slots := by
      intro s a ha
      rw [spine_mapAddr, List.getLast?_eq_getElem?, List.getElem?_mapIdx, List.length_mapIdx] at ha
      rw [List.getLast?_eq_getElem?]
      cases e : (v.spine s)[(v.spine s).length - 1]? with
      | none => rw [e] at ha; simp at ha
      | some y =>
        rw [e] at ha
        simp only [Option.map_some, Option.some.injEq] at ha
        subst ha
        obtain ⟨hk, rfl⟩ := List.getElem?_eq_some_iff.1 e
        exact ⟨_, rfl, hsl _ _ hk _⟩
    intro h0 h1 s a b ha hb
    have h1' : v.root.slots = 0 := by rw [← hr.2.2]; exact h1
    obtain ⟨a', ea, ha'⟩ := hlast s a ha
    obtain ⟨b', eb, hb'⟩ := hlast s.negate b hb
    rw [ha', hb']
    exact i.top h0 h1' s a' b' ea eb
  · rw [mapAddr_toList i, List.length_zipWith, cells_length i, Nat.min_self]
    exact i.len

/-- A place of a vector: reading it gives the item there, and writing it is the same as a write
through `get_mut`; the places stay where they are. -/
theorem place_ok {v : RVec α} {h : Nat} (i : InvH v h) {idx : Nat} (hi : idx < v.toList.length) :
    ∃ c, v.cells.toList[idx]? = some c ∧ v.readCell c = .ok v.toList[idx] ∧
      ∀ x, ∃ v', v.set idx x = .ok (some v') ∧ v.writeCell x c = .ok v' ∧ v'.cells.toList = v.cells.toList := by
  obtain ⟨pos, sub, e, hf⟩ := findNodeInfo_ok i hi
  obtain ⟨nd, n, pre, post, e2, hw, ht, hidx, hs, hput⟩ := hf.node i
  -- the node is one of the labelled nodes
  have hlab : ∃ P Q, v.labelled = P ++ (pos, nd) :: Q ∧ (P.flatMap fun p => p.2.toList).length = pre.length ∧
      ∀ nd', (v.withNodeAt pos nd').labelled = P ++ (pos, nd') :: Q := by
    have hfl : ∀ (xs : List (Node α)) (g : Nat → Option (Side × Nat)),
        ((xs.mapIdx fun k nd => (g k, nd)).flatMap fun p => p.2.toList) = xs.flatMap Node.toList := by
      intro xs g
      have : (xs.mapIdx fun k nd => (g k, nd)).map Prod.snd = xs := by
        apply List.ext_getElem?
        intro i
        simp only [List.getElem?_map, List.getElem?_mapIdx, Option.map_map]
        cases xs[i]? <;> rfl
      conv => rhs; rw [← this, List.flatMap_map]
    have hmid : ∀ (A B : List (Node α)) (z : Node α) (s : Side),
        ((A ++ z :: B).mapIdx fun k nd => (some (s, k), nd)) = (A.mapIdx fun k nd => (some (s, k), nd)) ++ (some (s, A.length), z) ::
          (B.mapIdx fun k nd => (some (s, k + 1 + A.length), nd)) := by
      intro A B z s
      simp [List.mapIdx_append, List.mapIdx_cons]
    cases hf with
    | front A B nd0 sub0 e0 hi0 hs0 =>
      have hnd : nd0 = nd := by simpa [nodeAt, e0] using e2
      subst hnd
      refine ⟨A.mapIdx fun k nd => (some (.front, k), nd),
        (B.mapIdx fun k nd => (some (.front, k + 1 + A.length), nd)) ++ [(none, v.root)] ++
          (v.right.mapIdx fun k nd => (some (.back, k), nd)).reverse, ?_, ?_, ?_⟩
      · rw [labelled, e0, hmid]; simp
      · rw [hfl, ← spineList_front]; omega
      · intro nd'
        have : v.left.set A.length nd' = A ++ nd' :: B := by rw [e0]; simp
        rw [withNodeAt, labelled]
        simp only [this, hmid]; simp
    | root sub0 hi0 hs0 =>
      have hnd : v.root = nd := by simpa [nodeAt] using e2
      subst hnd
      refine ⟨v.left.mapIdx fun k nd => (some (.front, k), nd), (v.right.mapIdx fun k nd => (some (.back, k), nd)).reverse, ?_, ?_, ?_⟩
      · simp [labelled]
      · rw [hfl, ← spineList_front]; omega
      · intro nd'; simp [withNodeAt, labelled]
    | back A B nd0 sub0 e0 hi0 hs0 =>
      have hnd : nd0 = nd := by simpa [nodeAt, e0] using e2
      subst hnd
      refine ⟨(v.left.mapIdx fun k nd => (some (.front, k), nd)) ++ [(none, v.root)] ++
          (B.mapIdx fun k nd => (some (.back, k + 1 + A.length), nd)).reverse,
          (A.mapIdx fun k nd => (some (.back, k), nd)).reverse, ?_, ?_, ?_⟩
      · rw [labelled, e0, hmid]; simp
      · have h2 : ∀ g : Nat → Option (Side × Nat),
            (((B.mapIdx fun k nd => (g k, nd)).reverse).flatMap fun p => p.2.toList).length = (spineList .back B).length := by
          intro g
          rw [spineList_length .back .front, spineList_front, ← hfl B g]
          simp only [List.length_flatMap, List.map_reverse, List.sum_reverse]
        have h3 := h2 fun k => some (Side.back, k + 1 + A.length)
        have h4 := congrArg List.length (hfl v.left fun k => some (Side.front, k))
        rw [← spineList_front] at h4
        simp only [List.flatMap_append, List.flatMap_cons, List.flatMap_nil, List.length_append, List.append_nil]
        rw [h3, h4]
        omega
      · intro nd'
        have : v.right.set A.length nd' = A ++ nd' :: B := by rw [e0]; simp
        rw [withNodeAt, labelled]
        simp only [this, hmid]; simp
  obtain ⟨P, Q, hl, hP, hwith⟩ := hlab
  obtain ⟨p, p1, p2, p3, p4⟩ := hw.addrOk.place sub hs
  have hPa : (P.flatMap fun p => p.2.addrs.map (Prod.mk p.1)).length = pre.length := by
    rw [← hP, List.length_flatMap, List.length_flatMap]
    congr 1
    apply List.map_congr_left
    intro q hq
    obtain ⟨m, hm⟩ := i.labelled_wf (p := q) (by rw [hl]; simp [hq])
    simp [hm.addrOk.length]
  refine ⟨(pos, p), ?_, ?_, ?_⟩
  · rw [toList_cells i, hl, List.flatMap_append, List.flatMap_cons, List.getElem?_append_right (by omega), hPa, hidx,
      Nat.add_sub_cancel_left, List.getElem?_append_left (by simp [hw.addrOk.length, hs]), List.getElem?_map, p1]
    rfl
  · have : v.toList[idx]? = some nd.toList[sub] := by
      rw [ht, hidx, getElem?_mid _ _ _ hs, List.getElem?_eq_getElem hs]
    rw [List.getElem?_eq_getElem hi] at this
    rw [readCell, e2, ok_bind, p3, Option.some.inj this]
  · intro x
    obtain ⟨nd', q1, q2, q3⟩ := p4 x
    obtain ⟨z, z1, w', t', s'⟩ := Node.set_ok hw x hs
    rw [q1] at z1
    cases z1
    obtain ⟨h1, h2⟩ := hput nd' w' s'
    refine ⟨v.withNodeAt pos nd', ?_, ?_, ?_⟩
    · rw [set, e]; simp only [ok_bind, e2, q1, unwrap_some]
    · rw [writeCell, e2, ok_bind, q2, ok_bind]
    · rw [toList_cells (h2 (by rw [t']; simp)), toList_cells i, hl, hwith]
      simp only [List.flatMap_append, List.flatMap_cons, q3]

end RVec
end Librrb
