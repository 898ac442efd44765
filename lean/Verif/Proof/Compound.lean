import Verif.Proof.SplitOff

/-! # Operations built from pushing, popping, appending and splitting -/
namespace Librrb
namespace RVec

theorem singleton_ok (x : α) : ∃ v h, RVec.singleton x = .ok v ∧ InvH v h ∧ v.toList = [x] ∧ h ≤ 1 := by
  obtain ⟨v, h, e, i, t, hh⟩ := pushSide_ok (new_inv (α := α)) .back x (by simp [new_toList])
  exact ⟨v, h, by simp [RVec.singleton, pushBack, e], i, by simp [t, new_toList, Side.cons], hh⟩

theorem prepend_ok {v other : RVec α} {h1 h2 : Nat} (i1 : InvH v h1) (i2 : InvH other h2)
    (hlt : v.toList.length + other.toList.length < USIZE_LIMIT) :
    ∃ v' h', v.prepend other = .ok v' ∧ InvH v' h' ∧ v'.toList = other.toList ++ v.toList ∧
      h' ≤ max h1 h2 + 1 := by
  obtain ⟨v', h', e, r1, r2, r3⟩ := append_ok i2 i1 (by omega)
  exact ⟨v', h', e, r1, r2, by omega⟩

theorem sliceFromStart_ok {v : RVec α} {h : Nat} (i : InvH v h) (k : Nat) :
    ∃ v' h', v.sliceFromStart k = .ok v' ∧ InvH v' h' ∧ v'.toList = v.toList.take k ∧ h' ≤ h := by
  obtain ⟨a, b, ha, hb, e, r1, r2, r3, r4, r5, r6⟩ := splitOff_ok i k
  exact ⟨a, ha, by simp [sliceFromStart, e], r1, r3, r5⟩

theorem sliceToEnd_ok {v : RVec α} {h : Nat} (i : InvH v h) (k : Nat) :
    ∃ v' h', v.sliceToEnd k = .ok v' ∧ InvH v' h' ∧ v'.toList = v.toList.drop k ∧ h' ≤ h := by
  obtain ⟨a, b, ha, hb, e, r1, r2, r3, r4, r5, r6⟩ := splitOff_ok i k
  exact ⟨b, hb, by simp [sliceToEnd, e], r2, r4, r6⟩

theorem extractSlice_ok {v : RVec α} {h : Nat} (i : InvH v h) {sb eb : Bound} {start stop : Nat}
    (hs : rangeStart sb = .ok start) (he : rangeEnd v.len eb = .ok stop) :
    ∃ v' r h' k, v.extractSlice sb eb = .ok (v', r) ∧ InvH v' h' ∧ InvH r k ∧
      v'.toList = (v.toList.take stop).take start ++ v.toList.drop stop ∧
      r.toList = (v.toList.take stop).drop start ∧ h' ≤ h + 1 ∧ k ≤ h := by
  obtain ⟨a, b, ha, hb, e, r1, r2, r3, r4, r5, r6⟩ := splitOff_ok i stop
  obtain ⟨c, d, hc, hd, e', s1, s2, s3, s4, s5, s6⟩ := splitOff_ok r1 start
  have hl := i.len
  have hlt := i.lt
  obtain ⟨v', h', e3, t1, t2, t3⟩ := append_ok s1 r2 (by rw [s3, r3, r4]; simp; omega)
  refine ⟨v', d, h', hd, by simp [extractSlice, hs, he, e, e', e3], t1, s2, ?_, ?_, by omega, by omega⟩
  · rw [t2, s3, r3, r4]
  · rw [s4, r3]

theorem insert_ok {v : RVec α} {h : Nat} (i : InvH v h) (k : Nat) (x : α)
    (hlt : v.toList.length + 1 < USIZE_LIMIT) :
    ∃ v' h', v.insert k x = .ok v' ∧ InvH v' h' ∧
      v'.toList = v.toList.take k ++ x :: v.toList.drop k ∧ h' ≤ h + 2 := by
  obtain ⟨a, b, ha, hb, e, r1, r2, r3, r4, r5, r6⟩ := splitOff_ok i k
  obtain ⟨c, hc, e2, s1, s2, s3⟩ := pushSide_ok r1 .back x (by rw [r3]; simp; omega)
  obtain ⟨v', h', e3, t1, t2, t3⟩ := append_ok s1 r2 (by
    rw [s2, r3, r4]; simp [Side.cons]; omega)
  refine ⟨v', h', by simp [insert, pushBack, e, e2, e3], t1, ?_, by omega⟩
  rw [t2, s2, r3, r4]; simp [Side.cons]

theorem remove_none {v : RVec α} {h : Nat} (i : InvH v h) {k : Nat} (hk : v.toList.length ≤ k) :
    v.remove k = .ok (none, v) := by
  simp [remove, i.len]; omega

theorem remove_ok {v : RVec α} {h : Nat} (i : InvH v h) {k : Nat} (hk : k < v.toList.length) :
    ∃ v' h', v.remove k = .ok (some v.toList[k], v') ∧ InvH v' h' ∧
      v'.toList = v.toList.take k ++ v.toList.drop (k + 1) ∧ h' ≤ h + 1 := by
  obtain ⟨a, b, ha, hb, e, r1, r2, r3, r4, r5, r6⟩ := splitOff_ok i k
  obtain ⟨c, hc, e2, s1, s2, s3⟩ := popSide_ok r2 .front (x := v.toList[k]) (l := v.toList.drop (k + 1))
    (by rw [r4]; exact List.drop_eq_getElem_cons hk)
  have hl := i.len
  have hlt := i.lt
  obtain ⟨v', h', e3, t1, t2, t3⟩ := append_ok r1 s1 (by
    rw [s2, r3]; simp; omega)
  refine ⟨v', h', ?_, t1, by rw [t2, r3, s2], by omega⟩
  simp [remove, popFront, i.len, hk, e, e2, e3]

/-! ### constant_vec_of_length -/

theorem and_two_pow_ne (n i : Nat) : (n &&& 2 ^ i ≠ 0) ↔ n.testBit i = true := by
  constructor
  · intro h
    by_contra hb
    apply h
    apply Nat.eq_of_testBit_eq
    intro j
    simp only [Nat.testBit_and, Nat.testBit_two_pow, Nat.zero_testBit]
    by_cases hj : i = j
    · subst hj; simp at hb; simp [hb]
    · simp [hj]
  · intro hb h
    have := congrArg (fun m => m.testBit i) h
    simp [Nat.testBit_and, hb] at this

theorem mod_two_pow_succ' (n i : Nat) :
    n % 2 ^ (i + 1) = n % 2 ^ i + if n.testBit i then 2 ^ i else 0 := by
  rw [Nat.pow_succ, Nat.mod_mul, Nat.testBit_eq_decide_div_mod_eq]
  have : n / 2 ^ i % 2 = 0 ∨ n / 2 ^ i % 2 = 1 := by omega
  rcases this with h | h <;> simp [h]

theorem constantLoop_ok (x : α) (n : Nat) (hn : n < 2 ^ 63) : ∀ (fuel i : Nat) {store acc : RVec α}
    {hs ha : Nat}, InvH store hs → InvH acc ha → acc.toList = List.replicate (2 ^ i) x →
    store.toList = List.replicate (n % 2 ^ i) x → i + fuel = 64 →
    ∃ v h, constantLoop fuel n store acc = .ok v ∧ InvH v h ∧ v.toList = List.replicate n x := by
  intro fuel
  induction fuel with
  | zero =>
    intro i store acc hs ha is ia ta ts hi
    have hal := ia.len
    have := ia.lt
    rw [ta, List.length_replicate] at hal
    have hi64 : i = 64 := by omega
    have hP : 2 ^ i = 18446744073709551616 := by rw [hi64]
    omega
  | succ fuel ih =>
    intro i store acc hs ha is ia ta ts hi
    have hal := ia.len
    have hlt := ia.lt
    rw [ta, List.length_replicate] at hal
    unfold constantLoop
    by_cases hle : acc.len ≤ n
    · rw [if_pos hle]
      rw [hal] at hle
      have hi62 : i ≤ 62 := by
        by_contra h
        have := Nat.pow_le_pow_right (n := 2) (by omega) (show 63 ≤ i by omega)
        omega
      have hp : 2 ^ i ≤ 2 ^ 62 := Nat.pow_le_pow_right (by omega) hi62
      have hm : n % 2 ^ i < 2 ^ i := Nat.mod_lt _ (Nat.two_pow_pos i)
      obtain ⟨acc', ha', e2, ia', ta', -⟩ := append_ok ia ia (by rw [ta]; simp; omega)
      have ta'' : acc'.toList = List.replicate (2 ^ (i + 1)) x := by
        rw [ta', ta, ← List.replicate_add]; congr 1; rw [Nat.pow_succ]; omega
      rw [hal]
      by_cases hb : n.testBit i = true
      · rw [if_pos (by simpa using (and_two_pow_ne n i).2 hb)]
        obtain ⟨st', hs', e1, is', ts', -⟩ := append_ok is ia (by rw [ta, ts]; simp; omega)
        simp only [e1, e2, ok_bind]
        refine ih (i + 1) is' ia' ta'' ?_ (by omega)
        rw [ts', ts, ta, mod_two_pow_succ', if_pos hb, List.replicate_add]
      · rw [if_neg (by simpa using (not_congr (and_two_pow_ne n i)).2 hb)]
        simp only [e2, ok_bind]
        refine ih (i + 1) is ia' ta'' ?_ (by omega)
        rw [ts, mod_two_pow_succ', if_neg hb, Nat.add_zero]
    · rw [if_neg hle]
      refine ⟨store, hs, rfl, is, ?_⟩
      rw [ts, Nat.mod_eq_of_lt (by omega)]

theorem constantVec_ok (x : α) {n : Nat} (hn : n < 2 ^ 63) :
    ∃ v h, constantVecOfLength x n = .ok v ∧ InvH v h ∧ v.toList = List.replicate n x := by
  obtain ⟨v, h, e, i, t, -⟩ := singleton_ok x
  obtain ⟨v', h', r⟩ := constantLoop_ok x n hn 64 0 new_inv i (by simpa using t)
    (by simp [new_toList, Nat.mod_one]) rfl
  exact ⟨v', h', by simpa [constantVecOfLength, e] using r⟩

theorem append_overflow {v other : RVec α} {h1 h2 : Nat} (i1 : InvH v h1) (i2 : InvH other h2)
    (l1 : 2 ≤ v.toList.length) (l2 : 2 ≤ other.toList.length)
    (hlt : USIZE_LIMIT ≤ v.toList.length + other.toList.length) :
    v.append other = .error .overflow := by
  have n1 : v.toList ≠ [] := by intro e; simp [e] at l1
  have n2 : other.toList ≠ [] := by intro e; simp [e] at l2
  have n3 : v.toList.length ≠ 1 := by omega
  have n4 : other.toList.length ≠ 1 := by omega
  have n5 : ¬ (v.toList.length + other.toList.length < USIZE_LIMIT) := by omega
  simp only [append, i1.isEmpty, i2.isEmpty, i1.len, i2.len, n1, n2, n3, n4, decide_false, beq_iff_eq,
    Bool.false_eq_true, if_false, appendMain, uadd, n5]
  rfl

theorem constantLoop_overflow (x : α) (n : Nat) (hn : 2 ^ 63 ≤ n) :
    ∀ (fuel i : Nat) {store acc : RVec α}
    {hs ha : Nat}, InvH store hs → InvH acc ha → acc.toList = List.replicate (2 ^ i) x →
    store.toList = List.replicate (n % 2 ^ i) x → i + fuel = 64 →
    constantLoop fuel n store acc = .error .overflow := by
  intro fuel
  induction fuel with
  | zero =>
    intro i store acc hs ha is ia ta ts hi
    have hal := ia.len
    have := ia.lt
    rw [ta, List.length_replicate] at hal
    have hi64 : i = 64 := by omega
    have hP : 2 ^ i = 18446744073709551616 := by rw [hi64]
    omega
  | succ fuel ih =>
    intro i store acc hs ha is ia ta ts hi
    have hal := ia.len
    have hlt := ia.lt
    rw [ta, List.length_replicate] at hal
    have hi63 : i ≤ 63 := by omega
    have hp : 2 ^ i ≤ 2 ^ 63 := Nat.pow_le_pow_right (by omega) hi63
    have hm : n % 2 ^ i < 2 ^ i := Nat.mod_lt _ (Nat.two_pow_pos i)
    unfold constantLoop
    rw [if_pos (by omega), hal]
    have hstep : ∃ st hs', (if (n &&& 2 ^ i != 0) = true then store.append acc else .ok store) = .ok st ∧
        InvH st hs' ∧ st.toList = List.replicate (n % 2 ^ (i + 1)) x := by
      by_cases hb : n.testBit i = true
      · rw [if_pos (by simpa using (and_two_pow_ne n i).2 hb)]
        obtain ⟨st', hs', e1, is', ts', -⟩ := append_ok is ia (by rw [ta, ts]; simp; omega)
        exact ⟨st', hs', e1, is', by rw [ts', ts, ta, mod_two_pow_succ', if_pos hb, List.replicate_add]⟩
      · rw [if_neg (by simpa using (not_congr (and_two_pow_ne n i)).2 hb)]
        exact ⟨store, hs, rfl, is, by rw [ts, mod_two_pow_succ', if_neg hb, Nat.add_zero]⟩
    obtain ⟨st, hs', e1, is', ts'⟩ := hstep
    rw [e1]
    simp only [ok_bind]
    by_cases h63 : i = 63
    · have hP : 2 ^ i = 9223372036854775808 := by rw [h63]
      have hl : acc.toList.length = 2 ^ i := by rw [ta, List.length_replicate]
      rw [append_overflow ia ia (by omega) (by omega) (by omega)]
      rfl
    · have hp' : 2 ^ i ≤ 2 ^ 62 := Nat.pow_le_pow_right (by omega) (by omega)
      obtain ⟨acc', ha', e2, ia', ta', -⟩ := append_ok ia ia (by rw [ta]; simp; omega)
      have ta'' : acc'.toList = List.replicate (2 ^ (i + 1)) x := by
        rw [ta', ta, ← List.replicate_add]; congr 1; rw [Nat.pow_succ]; omega
      rw [e2]
      exact ih (i + 1) is' ia' ta'' ts' (by omega)

theorem constantVec_overflow (x : α) {n : Nat} (hn : 2 ^ 63 ≤ n) :
    constantVecOfLength x n = .error .overflow := by
  obtain ⟨v, h, e, i, t, -⟩ := singleton_ok x
  have r := constantLoop_overflow x n hn 64 0 new_inv i (by simpa using t)
    (by simp [new_toList, Nat.mod_one]) rfl
  simpa [constantVecOfLength, e] using r

/-! ### assert_invariants -/

theorem forM_ok {β : Type} {f : β → M PUnit} : ∀ {l : List β}, (∀ x ∈ l, f x = .ok ()) → l.forM f = .ok () := by
  intro l
  induction l with
  | nil => intro _; rfl
  | cons x xs ih =>
    intro h
    rw [List.forM_eq_forM, List.forM_cons, h x (by simp)]
    simp only [ok_bind]
    rw [← List.forM_eq_forM]
    exact ih (fun y hy => h y (by simp [hy]))

theorem mapM_ok {β γ : Type} {f : β → M γ} {g : β → γ} : ∀ {l : List β}, (∀ x ∈ l, f x = .ok (g x)) →
    l.mapM f = .ok (l.map g) := by
  intro l
  induction l with
  | nil => intro _; rfl
  | cons x xs ih =>
    intro h
    rw [List.mapM_cons, h x (by simp), ih (fun y hy => h y (by simp [hy]))]
    rfl

theorem spineList_sum (s : Side) (xs : List (Node α)) :
    (xs.map fun nd => nd.toList.length).sum = (spineList s xs).length := by
  induction xs with
  | nil => rfl
  | cons x xs ih => simp [ih]

theorem checkFree_ok {sp : List (Node α)} (h : Spine 0 sp) : checkFree sp = .ok () := by
  apply forM_ok
  intro nd hnd
  cases sp with
  | nil => simp at hnd
  | cons x xs =>
    simp only [List.tail_cons] at hnd
    obtain ⟨j, hj, rfl⟩ := List.getElem_of_mem hnd
    obtain ⟨w, r⟩ := (h.2.2).getElem hj
    have := r (by omega)
    rw [w.freeSlots]
    simp only [ok_bind]
    rw [massert_ok (by simp; omega)]

theorem checkHead_ok {sp : List (Node α)} (h : HeadOk sp) : checkHead sp = .ok () := by
  cases sp with
  | nil => rfl
  | cons x xs => simp at h; simp only [checkHead]; rw [massert_ok (by simp; omega)]

theorem checkRoot_ok {v : RVec α} {h : Nat} (i : InvH v h) : v.checkRoot = .ok () := by
  unfold checkRoot
  rw [i.root.isLeaf, i.root.freeSlots]
  by_cases h0 : h = 0
  · simp [h0]
  · have := i.room h0
    simp only [ok_bind]
    rw [massert_ok (by simp; omega)]
    simp

theorem checkTops_ok {v : RVec α} {h : Nat} (i : InvH v h) : v.checkTops = .ok () := by
  have hll := i.length .front
  have hlr := i.length .back
  simp only [spine_front, spine_back] at hll hlr
  unfold checkTops
  rw [i.root.isLeaf, i.root.isEmpty']
  simp only [ok_bind]
  by_cases hc : v.root.slots = 0 ∧ h ≠ 0
  · have ht := i.top hc.2 hc.1
    obtain ⟨l, hl⟩ : ∃ l, v.left.getLast? = some l := by
      rcases e : v.left.getLast? with _ | l
      · simp at e; rw [e] at hll; simp at hll; exact absurd hll.symm hc.2
      · exact ⟨l, rfl⟩
    obtain ⟨r, hr⟩ : ∃ r, v.right.getLast? = some r := by
      rcases e : v.right.getLast? with _ | l
      · simp at e; rw [e] at hlr; simp at hlr; exact absurd hlr.symm hc.2
      · exact ⟨l, rfl⟩
    have a1 := ht .front l r hl hr
    have a2 := ht .back r l hr hl
    rw [if_pos (by simp [hc]), hl, hr, i.root.level]
    simp only [unwrap_some, ok_bind]
    rw [massert_ok (by split <;> simp <;> omega)]
    simp only [ok_bind]
    rw [massert_ok]
    have := a1.2
    unfold minTop at this
    simpa using this
  · rw [if_neg (by simpa using hc)]

theorem checkNodes_ok {sp : List (Node α)} (h : Spine 0 sp) : checkNodes sp = .ok () := by
  apply forM_ok
  intro p hp
  obtain ⟨nd, j⟩ := p
  obtain ⟨hj, e⟩ := List.mem_zipIdx' hp
  obtain ⟨w, -⟩ := h.getElem hj
  rw [← e, Nat.zero_add] at w
  have := Node.debugCheck_ok w
  rw [w.level] at this
  simp only [w.len, ok_bind, this]

theorem lens_ok {sp : List (Node α)} (h : Spine 0 sp) :
    sp.mapM Node.len = .ok (sp.map fun nd => nd.toList.length) := by
  apply mapM_ok
  intro nd hnd
  obtain ⟨j, hj, rfl⟩ := List.getElem_of_mem hnd
  exact (h.getElem hj).1.len

theorem assertInvariants_ok {v : RVec α} {h : Nat} (i : InvH v h) : v.assertInvariants = .ok true := by
  have hsl := i.spine .front
  have hsr := i.spine .back
  have hll := i.length .front
  have hlr := i.length .back
  have hhl := i.head .front
  have hhr := i.head .back
  simp only [spine_front, spine_back] at hsl hsr hll hlr hhl hhr
  have h7 : v.root.debugCheck v.root.toList.length v.left.length = .ok () := by
    have := Node.debugCheck_ok i.root
    rw [hll]; rwa [i.root.level] at this
  unfold assertInvariants
  rw [massert_ok (by simp [hll, hlr])]
  simp only [checkFree_ok hsl, checkFree_ok hsr, checkHead_ok hhl, checkHead_ok hhr, checkRoot_ok i,
    checkTops_ok i, checkNodes_ok hsl, checkNodes_ok hsr, i.root.len, h7, lens_ok hsl, lens_ok hsr, ok_bind]
  rw [massert_ok]
  · rfl
  · rw [spineList_sum .front, spineList_sum .back, i.len, toList_eq v .front]
    simp
    omega

end RVec
end Librrb
