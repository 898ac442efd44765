import Verif.Proof.AnnotatedFlatShare
import Verif.Proof.AnnotatedHistory

/-!
# C45: vectors that cache the sums of their nodes

Programs that return treat the items as programs on plain vectors do. The sums are right up to 64 items as
long as no two vectors of two items or more are joined, and wherever the caches are right. Beyond that the
code is wrong: it miscounts the sum that moves along with children moved between nodes, and a mutable focus dropped
inside the tree leaves sums behind as they were.
-/
namespace Librrb

/-- The items of an annotated vector, as `len` and `get` show them. -/
def AShows (v : AVec) (l : List Nat) : Prop := v.len = l.length ∧ ∀ i, v.get i = .ok l[i]?

theorem AShows.of_erase {v : AVec} {l : List Nat} (s : Shows v.erase l) : AShows v l :=
  ⟨s.1, fun j => by rw [← AVec.get_erase_eq]; exact s.2 j⟩

theorem AShows.to_erase {v : AVec} {l : List Nat} (s : AShows v l) : Shows v.erase l :=
  ⟨s.1, fun j => by rw [AVec.get_erase_eq]; exact s.2 j⟩

/-- A program that returns, as the same program on plain vectors. -/
theorem runAProgram_holds {cs : List ACall} (hf : ∀ c ∈ cs, c.plain.Fits) {st vs : List AVec} {ls : List (List Nat)}
    (h : Holding (st.map AVec.erase) ls) {as : List (Answer Nat)} (e : runAProgram cs st = .ok (as, vs)) :
    ∃ ls', ProgramMeans (cs.map ACall.plain) ls (.ok (as, ls')) ∧ Holding (vs.map AVec.erase) ls' := by
  obtain ⟨q, m, r⟩ := C17_history h (cs.map ACall.plain) (by simpa using hf)
  have e' : _ = Except.ok (as, vs.map AVec.erase) := runAProgram_erase cs st _ e
  cases q with
  | error f => rw [SameResult, e'] at r; cases r
  | ok q =>
    obtain ⟨us, er, hu⟩ := r
    rw [e'] at er
    cases er
    exact ⟨q.2, m, hu⟩

theorem ACall.run_holds {c : ACall} (hf : c.plain.Fits) {st vs : List AVec} {ls : List (List Nat)}
    (h : Holding (st.map AVec.erase) ls) {a : Answer Nat} (e : c.run st = .ok (a, vs)) :
    ∃ ls', c.plain.Means ls (.ok (a, ls')) ∧ Holding (vs.map AVec.erase) ls' := by
  obtain ⟨q, m, r⟩ := call_ok h c.plain hf
  have e' : _ = Except.ok (a, vs.map AVec.erase) := ACall.run_erase st c _ e
  cases q with
  | error f => rw [SameResult, e'] at r; cases r
  | ok q =>
    obtain ⟨us, er, hu⟩ := r
    rw [e'] at er
    cases er
    exact ⟨q.2, m, hu⟩

/-- C45, items: a program on annotated vectors that returns gives the answers, and leaves the contents, that
the same program has on plain sequences. Missing: programs do not always return (`C45_pop_fails`,
`C45_push_fails`, `C45_append_fails`, `C45_insert_fails`, `C45_remove_fails`, `C45_constant_fails`, `C45_split_fails`). -/
theorem C45_items_partial {cs : List ACall} (hf : ∀ c ∈ cs, c.plain.Fits) {as : List (Answer Nat)} {vs : List AVec}
    (e : runAProgram cs [] = .ok (as, vs)) :
    ∃ ls, ProgramMeans (cs.map ACall.plain) [] (.ok (as, ls)) ∧ vs.length = ls.length ∧
      ∀ (i : Nat) (v : AVec) (l : List Nat), vs[i]? = some v → ls[i]? = some l → AShows v l := by
  obtain ⟨ls, m, h⟩ := runAProgram_holds hf (st := []) Holding.nil e
  refine ⟨ls, m, by simpa using h.1, fun i v l e1 e2 => ?_⟩
  obtain ⟨l', e3, -, s⟩ := h.get (i := i) (v := v.erase) (by simp [e1])
  rw [e2] at e3
  cases e3
  exact .of_erase s

theorem AVec.inv_of_run {cs : List ACall} (hf : ∀ c ∈ cs, c.plain.Fits) {as : List (Answer Nat)} {vs : List AVec}
    (e : runAProgram cs [] = .ok (as, vs)) {v : AVec} (hv : v ∈ vs) : ∃ h, RVec.InvH v.erase h := by
  obtain ⟨ls, -, h⟩ := runAProgram_holds hf (st := []) Holding.nil e
  obtain ⟨i, hi⟩ := List.getElem?_of_mem hv
  obtain ⟨-, -, b, -⟩ := h.get (i := i) (v := v.erase) (by simp [hi])
  exact b.inv

/-- What a program of one call `collect` leaves. -/
theorem collect_shows {l : List Nat} {v : AVec} (e : AVec.fromIter l = .ok v) :
    runAProgram [.collect l] [] = .ok ([.none], [v]) ∧ AShows v l := by
  have e' : runAProgram [.collect l] [] = .ok ([.none], [v]) := by
    simp only [runAProgram, runAll, ACall.run, e, ok_bind, List.nil_append]
  refine ⟨e', ?_⟩
  obtain ⟨ls, ⟨q, m, h⟩, -, s⟩ := C45_items_partial (by simp [ACall.plain, Call.Fits]) e'
  simp only [ACall.plain, Call.Means, fitting] at m
  split at m
  · subst m
    obtain ⟨r', hr, h⟩ := h
    cases hr
    cases h
    exact s 0 v l rfl rfl
  · subst m
    cases h

/-- A program that splits, joins, and works on both sides of vectors with up to 300 items, and returns. -/
def sampleAProgram : List ACall :=
  [.collect (List.replicate 300 1), .act 0 (.set false 70 9), .act 0 (.get 70), .clone 0, .act 1 (.splitOff 140),
    .act 1 .len, .act 2 (.iterate [.front, .back]), .act 1 (.pop .back), .singleton 5, .append 1 3, .act 1 .back,
    .collect [3, 4], .act 4 (.push .front 2), .act 4 (.remove 1), .compare compare 4 3, .act 4 (.setEnd .back 1), .drop 3,
    .intoIter 3 [.back, .front]]

example : (∀ c ∈ sampleAProgram, c.plain.Fits) ∧
    (runAProgram sampleAProgram []).map (fun r => (r.1, r.2.map AVec.len)) =
      .ok ([.none, .flag true, .item (some 9), .none, .none, .size 140, .items [some 1, some 1], .item (some 1), .none, .none,
        .item (some 5), .none, .none, .item (some 3), .order .gt, .flag true, .none, .items [some 1, some 2]], [300, 140, 160]) :=
  ⟨by
    unfold sampleAProgram
    generalize List.replicate 300 1 = l
    simp [ACall.plain, AAct.plain, Call.Fits, Act.Fits], by decide +kernel⟩

/-! ### Up to 64 items -/

/-- The call is one that is all right on the sequence `l`: it does not write past the guard, it does not
join two sequences of two items or more, it does not take a mutable focus, or a piece of one, out of its range, and writes through
the pieces of a focus never make the sum exceed `usize`. -/
def AAct.Tame (l : List Nat) : AAct → Prop
  | .set g _ _ => g = true
  | .setEnd _ _ => False
  | .insert i x => JoinsWell (l.take i ++ [x]) (l.drop i)
  | .remove i => JoinsWell (l.take i) (l.drop (i + 1))
  | .extractSlice sb eb => sb.first < USIZE_LIMIT ∧ eb.afterLast l.length < USIZE_LIMIT ∧
    JoinsWell (l.take (min sb.first (eb.afterLast l.length))) (l.drop (eb.afterLast l.length))
  | .editFocus ops => ∀ o ∈ ops, o.index < l.length
  | .shareFocus ops => ¬ strays ops [l] ∧ SumsFit ops [l]
  | _ => True

/-- The call is one that is all right when the variables hold the sequences `st`. -/
def ACall.Tame (st : List (List Nat)) : ACall → Prop
  | .act v a => ∀ l, st[v]? = some l → a.Tame l
  | .append v w => ∀ l m, (st.set w [])[v]? = some l → st[w]? = some m → JoinsWell l m
  | .prepend v w => ∀ l m, (st.set w [])[v]? = some l → st[w]? = some m → JoinsWell m l
  | .constant x n => n ≤ 1 ∧ x + x < USIZE_LIMIT
  | _ => True

/-- All calls of the program are all right where they come and may return, and however they do, no sequence gets more
than 64 items, or a sum beyond `usize`. -/
def TameProgram : List ACall → List (List Nat) → Prop
  | [], _ => True
  | c :: cs, st => c.plain.Fits ∧ c.Tame st ∧ (∃ a st', c.plain.Means st (.ok (a, st'))) ∧
    ∀ a st', c.plain.Means st (.ok (a, st')) → (∀ l ∈ st', SmallSeq l) ∧ TameProgram cs st'

/-- Not a sort, which may leave items that compare equal in any order. -/
def AAct.Decided : AAct → Prop
  | .sortRange .. => False
  | _ => True

/-- Not a sort. -/
def ACall.Decided : ACall → Prop
  | .act _ a => a.Decided
  | .dualSort .. => False
  | _ => True

theorem AAct.Means_unique {a : AAct} (hd : a.Decided) {l : List Nat} {p q : Answer Nat × List Nat × List (List Nat)}
    (h1 : a.plain.Means l (.ok p)) (h2 : a.plain.Means l (.ok q)) : p = q := by
  refine Except.ok.inj (ε := Fault) ?_
  cases a with
  | editFocus ops =>
    rcases h1 with h1 | ⟨h1, -⟩
    · rcases h2 with h2 | ⟨h2, -⟩
      · exact h1.trans h2.symm
      · cases h2
    · cases h1
  | shareFocus ops =>
    rcases h1 with h1 | ⟨h1, -⟩
    · rcases h2 with h2 | ⟨h2, -⟩
      · exact h1.trans h2.symm
      · cases h2
    · cases h1
  | setEnd s x => cases s <;> exact h1.trans h2.symm
  | push s x => cases s <;> exact h1.trans h2.symm
  | pop s => cases s <;> exact h1.trans h2.symm
  | sortRange => exact hd.elim
  | _ => exact h1.trans h2.symm

theorem ACall.Means_unique {c : ACall} (hd : c.Decided) {st : List (List Nat)} {p q : Answer Nat × List (List Nat)}
    (h1 : c.plain.Means st (.ok p)) (h2 : c.plain.Means st (.ok q)) : p = q := by
  refine Except.ok.inj (ε := Fault) ?_
  cases c with
  | act v a =>
    simp only [ACall.plain, Call.Means] at h1 h2
    cases e : st[v]? with
    | none => rw [e] at h1 h2; exact h1.trans h2.symm
    | some l =>
      rw [e] at h1 h2
      obtain ⟨r, m, h1⟩ := h1
      obtain ⟨r', m', h2⟩ := h2
      cases r with
      | error f => cases h1
      | ok r =>
        cases r' with
        | error f => cases h2
        | ok r' =>
          rw [AAct.Means_unique hd m m'] at h1
          exact h1.trans h2.symm
  | append v w =>
    simp only [ACall.plain, Call.Means] at h1 h2
    cases e : (st.set w [])[v]? <;> cases e' : st[w]? <;> simp only [e, e'] at h1 h2 <;> exact h1.trans h2.symm
  | prepend v w =>
    simp only [ACall.plain, Call.Means] at h1 h2
    cases e : (st.set w [])[v]? <;> cases e' : st[w]? <;> simp only [e, e'] at h1 h2 <;> exact h1.trans h2.symm
  | compare cmp v w =>
    simp only [ACall.plain, Call.Means] at h1 h2
    cases e : st[v]? <;> cases e' : st[w]? <;> simp only [e, e'] at h1 h2 <;> exact h1.trans h2.symm
  | intoIter v script =>
    simp only [ACall.plain, Call.Means] at h1 h2
    cases e : st[v]? <;> simp only [e] at h1 h2 <;> exact h1.trans h2.symm
  | dualSort => exact hd.elim
  | _ => exact h1.trans h2.symm

theorem TameProgram.cons {c : ACall} {cs : List ACall} {st st' : List (List Nat)} {a : Answer Nat} (hd : c.Decided) (hf : c.plain.Fits)
    (ht : c.Tame st) (hm : c.plain.Means st (.ok (a, st'))) (hs : ∀ l ∈ st', SmallSeq l) (h : TameProgram cs st') :
    TameProgram (c :: cs) st := by
  refine ⟨hf, ht, ⟨a, st', hm⟩, fun b st'' hm' => ?_⟩
  have := ACall.Means_unique hd hm hm'
  injection this with e1 e2
  subst e1 e2
  exact ⟨hs, h⟩

theorem ProgramMeans_unique : ∀ {cs : List ACall} {st : List (List Nat)} {p q : List (Answer Nat) × List (List Nat)},
    (∀ c ∈ cs, c.Decided) → ProgramMeans (cs.map ACall.plain) st (.ok p) → ProgramMeans (cs.map ACall.plain) st (.ok q) → p = q
  | [], st, p, q, _, h1, h2 => Except.ok.inj (h1.trans h2.symm)
  | c :: cs, st, p, q, hd, h1, h2 => by
    obtain ⟨r, m, h1⟩ := h1
    obtain ⟨r', m', h2⟩ := h2
    cases r with
    | error f => cases h1
    | ok r =>
      cases r' with
      | error f => cases h2
      | ok r' =>
        obtain rfl := ACall.Means_unique (hd c (by simp)) m m'
        obtain ⟨x, h1, g1⟩ := h1
        obtain ⟨x', h2, g2⟩ := h2
        cases x with
        | error f => cases g1
        | ok x =>
          cases x' with
          | error f => cases g2
          | ok x' =>
            rw [ProgramMeans_unique (fun c hc => hd c (by simp [hc])) h1 h2] at g1
            exact Except.ok.inj (g1.trans g2.symm)

/-- The variables hold leaves with the right sums. -/
def AllFlat (vs : List AVec) : Prop := ∀ v ∈ vs, v.Flat v.erase.toList

theorem AVec.Flat.self {v : AVec} {l : List Nat} (h : v.Flat l) : v.Flat v.erase.toList := by
  rwa [h.toList]

theorem AllFlat.get {vs : List AVec} (h : AllFlat vs) {i : Nat} {v : AVec} (e : vs[i]? = some v) : v.Flat v.erase.toList :=
  h v (List.mem_of_getElem? e)

theorem AllFlat.append {vs ws : List AVec} (h : AllFlat vs) (h' : AllFlat ws) : AllFlat (vs ++ ws) := by
  intro v hv
  rcases List.mem_append.1 hv with hv | hv
  · exact h v hv
  · exact h' v hv

theorem AllFlat.one {v : AVec} {l : List Nat} (h : v.Flat l) : AllFlat [v] := by
  intro w hw
  simp only [List.mem_singleton] at hw
  subst hw
  exact h.self

theorem AllFlat.nil : AllFlat [] := by intro v hv; cases hv

theorem AllFlat.set {vs : List AVec} (h : AllFlat vs) {i : Nat} {v : AVec} {l : List Nat} (hv : v.Flat l) : AllFlat (vs.set i v) := by
  intro w hw
  rcases List.mem_or_eq_of_mem_set hw with hw | rfl
  · exact h w hw
  · exact hv.self

theorem AllFlat.eraseIdx {vs : List AVec} (h : AllFlat vs) (i : Nat) : AllFlat (vs.eraseIdx i) :=
  fun w hw => h w (List.mem_of_mem_eraseIdx hw)

/-- A tame call on a leaf returns, and leaves leaves. -/
theorem AAct.run_flat {v : AVec} {l : List Nat} (b : Built v.erase) (s : Shows v.erase l) (h : v.Flat l) (hs : SmallSeq l)
    {a : AAct} (ht : a.Tame l) (hf : a.plain.Fits) {x : Answer Nat} {l' : List Nat} {ls : List (List Nat)}
    (hm : a.plain.Means l (.ok (x, l', ls))) (hs' : SmallSeq l') :
    ∃ r, a.run v = .ok r ∧ r.2.1.Flat r.2.1.erase.toList ∧ AllFlat r.2.2 := by
  have hlen := h.len
  have same : ∀ (y : Answer Nat), ∃ r : Answer Nat × AVec × List AVec, (Except.ok (y, v, []) : M _) = .ok r ∧
      r.2.1.Flat r.2.1.erase.toList ∧ AllFlat r.2.2 := fun y => ⟨_, rfl, h.self, .nil⟩
  cases a with
  | len => exact same _
  | isEmpty => exact same _
  | get i => simp only [AAct.run, h.get, ok_bind]; exact same _
  | front => obtain ⟨o, e⟩ := h.frontBack .front; simp only [AAct.run, e, ok_bind]; exact same _
  | back => obtain ⟨o, e⟩ := h.frontBack .back; simp only [AAct.run, e, ok_bind]; exact same _
  | iterate script =>
    obtain ⟨it, it', e1, -, e2, -⟩ := C23_iter b s script
    simp only [AAct.run, e1, e2, ok_bind]
    exact same _
  | focusRead is =>
    obtain ⟨f, e1, r, -⟩ := C29_focus b s
    obtain ⟨f', e2⟩ := r is hf
    simp only [AAct.run, e1, e2, ok_bind]
    exact same _
  | set g i y =>
    cases ht
    cases hm
    obtain ⟨o, e, h'⟩ := h.set hs i y hs'
    simp only [AAct.run, e, ok_bind]
    cases o with
    | none => exact same _
    | some v' => exact ⟨_, rfl, h'.self, .nil⟩
  | setEnd s y => exact ht.elim
  | push sd y =>
    have : l' = sd.cons y l := by
      cases sd <;> simp only [AAct.plain, Act.Means, fitting] at hm <;> split at hm <;> cases hm <;> rfl
    subst this
    obtain ⟨v', e, h'⟩ := h.push sd y hs'
    exact ⟨_, by simp only [AAct.run, e, ok_bind]; rfl, h'.self, .nil⟩
  | pop sd =>
    obtain ⟨v', e, h'⟩ := h.pop sd
    exact ⟨_, by simp only [AAct.run, e, ok_bind]; rfl, h'.self, .nil⟩
  | splitOff i =>
    obtain ⟨p, q, e, hp, hq⟩ := h.splitOff hs i
    exact ⟨_, by simp only [AAct.run, e, ok_bind]; rfl, hp.self, .one hq⟩
  | sliceFromStart n =>
    obtain ⟨p, q, e, hp, hq⟩ := h.splitOff hs n
    exact ⟨_, by simp only [AAct.run, AVec.sliceFromStart, e, ok_bind]; rfl, hp.self, .nil⟩
  | sliceToEnd n =>
    obtain ⟨p, q, e, hp, hq⟩ := h.splitOff hs n
    exact ⟨_, by simp only [AAct.run, AVec.sliceToEnd, e, ok_bind]; rfl, hq.self, .nil⟩
  | extractSlice sb eb =>
    obtain ⟨h1, h2, hj⟩ := ht
    obtain ⟨p, q, e, hp, hq⟩ := h.splitOff hs (eb.afterLast l.length)
    obtain ⟨p', q', e', hp', hq'⟩ := hp.splitOff (hs.take _) sb.first
    rw [List.take_take] at hp'
    have hsm : SmallSeq (l.take (min sb.first (eb.afterLast l.length)) ++ l.drop (eb.afterLast l.length)) := by
      have h3 := congrArg List.length (List.take_append_drop sb.first (l.take (eb.afterLast l.length)))
      have h4 := congrArg List.length (List.take_append_drop (eb.afterLast l.length) l)
      have h5 := congrArg List.sum (List.take_append_drop sb.first (l.take (eb.afterLast l.length)))
      have h6 := congrArg List.sum (List.take_append_drop (eb.afterLast l.length) l)
      rw [List.take_take] at h3 h5
      rw [List.length_append] at h3 h4
      rw [List.sum_append] at h5 h6
      unfold SmallSeq at hs ⊢
      rw [List.length_append, List.sum_append]
      omega
    obtain ⟨u, e2, hu⟩ := hp'.append hq hj hsm
    refine ⟨(Answer.none, u, [q']), ?_, hu.self, .one hq'⟩
    · simp only [AAct.run, AVec.extractSlice, RVec.rangeStart_first h1, ok_bind, hlen, RVec.rangeEnd_afterLast h2, e, e', e2]
  | insert i y =>
    have : l' = l.take i ++ y :: l.drop i := by
      simp only [AAct.plain, Act.Means, fitting] at hm
      split at hm <;> cases hm
      rfl
    subst this
    have hs2 : SmallSeq ((l.take i ++ [y]) ++ l.drop i) := by simpa using hs'
    obtain ⟨p, q, e, hp, hq⟩ := h.splitOff hs i
    obtain ⟨p', e', hp'⟩ := hp.push .back y hs2.left
    obtain ⟨u, e2, hu⟩ := hp'.append hq ht hs2
    exact ⟨_, by simp only [AAct.run, AVec.insert, e, ok_bind, AVec.pushBack, e', e2]; rfl, hu.self, .nil⟩
  | remove i =>
    by_cases hi : i < l.length
    · obtain ⟨p, q, e, hp, hq⟩ := h.splitOff hs i
      obtain ⟨q', e', hq'⟩ := hq.pop .front
      have hd : (takeEnd .front (l.drop i)).2 = l.drop (i + 1) := by simp [takeEnd]
      rw [hd] at hq'
      have hsm : SmallSeq (l.take i ++ l.drop (i + 1)) := by
        cases hm
        rwa [← List.eraseIdx_eq_take_drop_succ]
      obtain ⟨u, e2, hu⟩ := hp.append hq' ht hsm
      exact ⟨_, by simp only [AAct.run, AVec.remove, hlen, if_pos hi, e, ok_bind, AVec.popFront, e', e2]; rfl, hu.self, .nil⟩
    · simp only [AAct.run, AVec.remove, hlen, if_neg hi, ok_bind]
      exact same _
  | mapEnds g script =>
    cases hm
    obtain ⟨y, v', e, h'⟩ := AVec.Flat.mapEnds b h g hs'
    exact ⟨_, e, h'.self, .nil⟩
  | editFocus ops =>
    rcases hm with hm | ⟨hm, -⟩ <;> cases hm
    obtain ⟨y, v', e, h'⟩ := AVec.Flat.editFocus b h ht hs'
    exact ⟨_, e, h'.self, .nil⟩
  | shareFocus ops =>
    rcases hm with hm | ⟨hm, -⟩
    · obtain ⟨⟨as, ls'⟩, e, -⟩ := RVec.bind_ok hm.symm
      obtain ⟨y, v', e, h'⟩ := AVec.Flat.shareFocus b h hs ht.1 ht.2 e
      exact ⟨_, e, h', .nil⟩
    · cases hm
  | reverseRange sb eb =>
    obtain ⟨q, m', r⟩ := act_ok b s (AAct.reverseRange sb eb).plain hf
    obtain rfl : _ = q := hm.trans m'.symm
    obtain ⟨w, ws, er, -⟩ := r
    obtain ⟨u, eu, er⟩ := RVec.bind_ok er
    obtain ⟨v', e, rfl, h'⟩ := h.reverseRange b hs eu
    exact ⟨_, by simp only [AAct.run, e, ok_bind]; rfl, h', .nil⟩
  | sortRange cmp total draws sb eb =>
    obtain ⟨q, m', r⟩ := act_ok b s (AAct.sortRange cmp total draws sb eb).plain hf
    obtain ⟨m, -, hm⟩ := hm
    obtain ⟨m1, -, hm'⟩ := m'
    obtain ⟨p, ep, -⟩ := RVec.bind_ok hm.symm
    rw [ep] at hm'
    subst hm'
    obtain ⟨w, ws, er, -⟩ := r
    obtain ⟨u, eu, er⟩ := RVec.bind_ok er
    obtain ⟨v', e, rfl, h'⟩ := h.sortRangeBy b hs eu
    exact ⟨_, by simp only [AAct.run, e, ok_bind]; rfl, h', .nil⟩

theorem holding_flat {vs : List AVec} {ls : List (List Nat)} (h : Holding (vs.map AVec.erase) ls) (hf : AllFlat vs)
    {i : Nat} {v : AVec} (e : vs[i]? = some v) : ∃ l, ls[i]? = some l ∧ Built v.erase ∧ Shows v.erase l ∧ v.Flat l := by
  obtain ⟨l, e', b, s⟩ := h.get (i := i) (v := v.erase) (by simp [e])
  refine ⟨l, e', b, s, ?_⟩
  obtain ⟨k, inv⟩ := b.inv
  have := hf.get e
  have t : v.erase.toList = l := (RVec.shows_iff inv).1 s
  rwa [t] at this

/-- A tame call on leaves returns, and leaves leaves. -/
theorem ACall.run_flat {st : List AVec} {ls : List (List Nat)} (h : Holding (st.map AVec.erase) ls) (hf : AllFlat st)
    (hs : ∀ l ∈ ls, SmallSeq l) {c : ACall} (ht : c.Tame ls) (hfit : c.plain.Fits) {x : Answer Nat} {ls' : List (List Nat)}
    (hm : c.plain.Means ls (.ok (x, ls'))) (hs' : ∀ l ∈ ls', SmallSeq l) :
    ∃ r, c.run st = .ok r ∧ AllFlat r.2 := by
  have hsm : ∀ {i : Nat} {l : List Nat}, ls[i]? = some l → SmallSeq l := fun e => hs _ (List.mem_of_getElem? e)
  cases c with
  | new => exact ⟨_, rfl, hf.append (.one .new)⟩
  | singleton y =>
    cases hm
    obtain ⟨v, e, hv⟩ := AVec.Flat.new.push .back y (hs' [y] (by simp))
    exact ⟨_, by simp only [ACall.run, AVec.singleton, AVec.pushBack, e, ok_bind]; rfl, hf.append (.one hv)⟩
  | collect items =>
    simp only [ACall.plain, Call.Means, fitting] at hm
    split at hm <;> cases hm
    obtain ⟨v, e, hv⟩ := AVec.Flat.new.pushAll (m := items) (hs' items (by simp))
    exact ⟨_, by simp only [ACall.run, AVec.fromIter, e, ok_bind]; rfl, hf.append (.one hv)⟩
  | clone v =>
    refine ⟨_, rfl, hf.append ?_⟩
    cases e : st[v]? with
    | none => exact .nil
    | some u => exact .one (hf.get e)
  | act v a =>
    cases e : st[v]? with
    | none => exact ⟨_, by simp only [ACall.run, e]; rfl, hf⟩
    | some u =>
      obtain ⟨l, el, b, s, hu⟩ := holding_flat h hf e
      simp only [ACall.plain, Call.Means, el] at hm
      obtain ⟨q, hq, er⟩ := hm
      cases q with
      | error f => cases er
      | ok q =>
        cases er
        obtain ⟨r, e', h1, h2⟩ := AAct.run_flat b s hu (hsm el) (ht l el) hfit hq (hs' _ (by
          refine List.mem_append_left _ ?_
          obtain ⟨hv, -⟩ := List.getElem?_eq_some_iff.1 el
          exact List.mem_set hv _))
        exact ⟨_, by simp only [ACall.run, e, e', ok_bind]; rfl, (hf.set h1).append h2⟩
  | append v w =>
    simp only [ACall.run]
    have hf2 : AllFlat (st.set w AVec.new) := hf.set .new
    have h2 : Holding ((st.set w AVec.new).map AVec.erase) (ls.set w []) := by
      rw [List.map_set, AVec.erase_new]
      exact h.set w .new shows_new
    cases e1 : (st.set w AVec.new)[v]? with
    | none => exact ⟨_, rfl, hf⟩
    | some p =>
      cases e2 : st[w]? with
      | none => exact ⟨_, rfl, hf⟩
      | some q =>
        obtain ⟨l, el, -, -, hp⟩ := holding_flat h2 hf2 e1
        obtain ⟨m, em, -, -, hq⟩ := holding_flat h hf e2
        simp only [ACall.plain, Call.Means, el, em, fitting] at hm
        split at hm <;> cases hm
        obtain ⟨u, e, hu⟩ := hp.append hq (ht l m el em) (hs' _ (by
          obtain ⟨hv, -⟩ := List.getElem?_eq_some_iff.1 el
          exact List.mem_set hv _))
        exact ⟨_, by simp only [e, ok_bind]; rfl, hf2.set hu⟩
  | prepend v w =>
    simp only [ACall.run]
    have hf2 : AllFlat (st.set w AVec.new) := hf.set .new
    have h2 : Holding ((st.set w AVec.new).map AVec.erase) (ls.set w []) := by
      rw [List.map_set, AVec.erase_new]
      exact h.set w .new shows_new
    cases e1 : (st.set w AVec.new)[v]? with
    | none => exact ⟨_, rfl, hf⟩
    | some p =>
      cases e2 : st[w]? with
      | none => exact ⟨_, rfl, hf⟩
      | some q =>
        obtain ⟨l, el, -, -, hp⟩ := holding_flat h2 hf2 e1
        obtain ⟨m, em, -, -, hq⟩ := holding_flat h hf e2
        simp only [ACall.plain, Call.Means, el, em, fitting] at hm
        split at hm <;> cases hm
        obtain ⟨u, e, hu⟩ := hq.append hp (ht l m el em) (hs' _ (by
          obtain ⟨hv, -⟩ := List.getElem?_eq_some_iff.1 el
          exact List.mem_set hv _))
        exact ⟨_, by simp only [AVec.prepend, e, ok_bind]; rfl, hf2.set hu⟩
  | compare cmp v w =>
    simp only [ACall.run]
    cases e1 : st[v]? with
    | none => exact ⟨_, rfl, hf⟩
    | some p =>
      cases e2 : st[w]? with
      | none => exact ⟨_, rfl, hf⟩
      | some q =>
        obtain ⟨l, el, b1, s1, -⟩ := holding_flat h hf e1
        obtain ⟨m, em, b2, s2, -⟩ := holding_flat h hf e2
        have e := C43_cmp cmp b1 s1 b2 s2
        exact ⟨_, by simp only [e, ok_bind]; rfl, hf⟩
  | drop v => exact ⟨_, rfl, hf.eraseIdx v⟩
  | intoIter v script =>
    simp only [ACall.run]
    cases e1 : st[v]? with
    | none => exact ⟨_, rfl, hf⟩
    | some p =>
      obtain ⟨r, e⟩ := AVec.Flat.runPops script (hf.get e1)
      exact ⟨_, by simp only [e, ok_bind]; rfl, hf.eraseIdx v⟩
  | constant y n =>
    obtain ⟨hn, hy⟩ := ht
    have s1 : SmallSeq (Side.back.cons y []) := by simp [SmallSeq, Side.cons]; omega
    obtain ⟨p, e, hp⟩ := AVec.Flat.new.push .back y s1
    have hlen := hp.len
    simp only [Side.cons, List.nil_append, List.length_singleton] at hlen hp
    simp only [ACall.run, AVec.constantVecOfLength, AVec.singleton, AVec.pushBack, e, ok_bind]
    have hn' : n = 0 ∨ n = 1 := by omega
    rcases hn' with rfl | rfl
    · refine ⟨(.none, _), ?_, hf.append (.one .new)⟩
      · simp [AVec.constantLoop, hlen]
    · obtain ⟨q, e', hq⟩ := hp.append hp (.inl (by simp)) (by simp [SmallSeq]; omega)
      have hlen' : q.len = 2 := hq.len
      have e1 : AVec.new.append p = .ok p := rfl
      have e2 : AVec.constantLoop 64 1 AVec.new p = .ok p := by
        rw [AVec.constantLoop, if_pos (by omega), if_pos (by rw [hlen]; rfl), e1, ok_bind, e', ok_bind, AVec.constantLoop,
          if_neg (by omega)]
      exact ⟨_, by rw [e2, ok_bind], hf.append (.one hp)⟩
  | dualSort cmp total draws sb eb v w =>
    obtain ⟨q, m', r⟩ := call_ok h (ACall.dualSort cmp total draws sb eb v w).plain hfit
    simp only [ACall.run]
    split
    · exact ⟨_, rfl, hf⟩
    · rename_i hvw
      cases e1 : st[v]? with
      | none => exact ⟨_, rfl, hf⟩
      | some x =>
        cases e2 : st[w]? with
        | none => exact ⟨_, rfl, hf⟩
        | some y =>
          obtain ⟨l, el, b1, -, hx⟩ := holding_flat h hf e1
          obtain ⟨m, em, b2, -, hy⟩ := holding_flat h hf e2
          simp only [ACall.plain, Call.Means, el, em, if_neg hvw] at hm m'
          obtain ⟨z, -, hm⟩ := hm
          obtain ⟨z', -, hm'⟩ := m'
          obtain ⟨p, ep, hm⟩ := RVec.bind_ok hm.symm
          rw [ep, ok_bind] at hm'
          split at hm
          · rename_i hp
            rw [if_pos hp] at hm'
            subst hm'
            obtain ⟨us, er, -⟩ := r
            simp only [ACall.plain, Call.run, List.getElem?_map, e1, e2, if_neg hvw, Option.map_some] at er
            obtain ⟨⟨u, u'⟩, eu, -⟩ := RVec.bind_ok er
            obtain ⟨x', y', e, ⟨rfl, h1⟩, rfl, h2⟩ := hx.dualSortRangeBy b1 (hsm el) b2 hy (hsm em) eu
            exact ⟨_, by simp only [e, ok_bind]; rfl, (hf.set h1).set h2⟩
          · cases hm

/-- C45, up to 64 items: a tame program returns, and the sum over any range of any vector it leaves is the
sum of the items there. Missing: more than 64 items (`C45_wrong_sum`), and the calls that join
(`C45_append_fails`). -/
theorem C45_small_partial {cs : List ACall} (ht : TameProgram cs []) :
    ∃ as ls vs, ProgramMeans (cs.map ACall.plain) [] (.ok (as, ls)) ∧ runAProgram cs [] = .ok (as, vs) ∧
      vs.length = ls.length ∧ ∀ (i : Nat) (v : AVec) (l : List Nat), vs[i]? = some v → ls[i]? = some l → AShows v l ∧
        ∀ sb eb : Bound, sb.first < USIZE_LIMIT → eb.afterLast l.length < USIZE_LIMIT →
          v.sum sb eb = .ok ((l.take (eb.afterLast l.length)).drop sb.first).sum := by
  have key : ∀ (cs : List ACall) (st : List AVec) (ls : List (List Nat)), TameProgram cs ls →
      Holding (st.map AVec.erase) ls → AllFlat st → (∀ l ∈ ls, SmallSeq l) →
      ∃ as ls' vs, ProgramMeans (cs.map ACall.plain) ls (.ok (as, ls')) ∧ runAProgram cs st = .ok (as, vs) ∧
        Holding (vs.map AVec.erase) ls' ∧ AllFlat vs ∧ ∀ l ∈ ls', SmallSeq l := by
    intro cs
    induction cs with
    | nil => intro st ls _ h hf hs; exact ⟨[], ls, st, rfl, rfl, h, hf, hs⟩
    | cons c cs ih =>
      intro st ls ht h hf hs
      obtain ⟨hfit, htc, ⟨a0, ls0, hm0⟩, hall⟩ := ht
      obtain ⟨⟨a, st1⟩, e, hf1⟩ := ACall.run_flat h hf hs htc hfit hm0 (hall _ _ hm0).1
      obtain ⟨ls1, hm, h1⟩ := ACall.run_holds hfit h e
      obtain ⟨hs1, ht1⟩ := hall _ _ hm
      obtain ⟨as, ls', vs, m, e', h', hf', hs'⟩ := ih st1 ls1 ht1 h1 hf1 hs1
      refine ⟨a :: as, ls', vs, ⟨_, hm, _, m, rfl⟩, ?_, h', hf', hs'⟩
      simp only [runAProgram] at e' ⊢
      simp only [runAll, e, ok_bind, e']
  obtain ⟨as, ls, vs, m, e, h, hf, hs⟩ := key cs [] [] ht Holding.nil AllFlat.nil (by simp)
  refine ⟨as, ls, vs, m, e, by simpa using h.1, fun i v l e1 e2 => ?_⟩
  obtain ⟨l', e3, -, s, hv⟩ := holding_flat h hf e1
  rw [e2] at e3
  cases e3
  exact ⟨.of_erase s, hv.sum (hs l (List.mem_of_getElem? e2))⟩

/-- Pushes on both sides, a guarded write, a split, an insertion near the end, an append of a single item. -/
example : ∃ v w, runAProgram [.collect [5, 7, 11, 13, 17], .act 0 (.set true 1 100), .act 0 (.push .front 3), .act 0 (.splitOff 4),
      .act 0 (.insert 3 19), .act 0 (.pop .back), .singleton 23, .append 1 2, .drop 2] [] =
      .ok ([.none, .flag true, .none, .none, .none, .item (some 11), .none, .none, .none], [v, w]) ∧
    AShows v [3, 5, 100, 19] ∧ AShows w [13, 17, 23] ∧ v.sum (.included 1) (.included 2) = .ok 105 ∧
    w.sum .unbounded .unbounded = .ok 53 := by
  have ht : TameProgram [.collect [5, 7, 11, 13, 17], .act 0 (.set true 1 100), .act 0 (.push .front 3), .act 0 (.splitOff 4),
      .act 0 (.insert 3 19), .act 0 (.pop .back), .singleton 23, .append 1 2, .drop 2] [] :=
    .cons trivial trivial trivial rfl (by decide) <|
    .cons (st' := [[5, 100, 11, 13, 17]]) trivial trivial (by rintro l h; exact rfl) ⟨_, rfl, rfl⟩ (by decide) <|
    .cons (st' := [[3, 5, 100, 11, 13, 17]]) trivial trivial (fun _ _ => trivial) ⟨_, rfl, rfl⟩ (by decide) <|
    .cons (st' := [[3, 5, 100, 11], [13, 17]]) trivial trivial (fun _ _ => trivial) ⟨_, rfl, rfl⟩ (by decide) <|
    .cons (st' := [[3, 5, 100, 19, 11], [13, 17]]) trivial trivial (by intro l h; cases h; exact .inr (by decide)) ⟨_, rfl, rfl⟩ (by decide) <|
    .cons (st' := [[3, 5, 100, 19], [13, 17]]) trivial trivial (fun _ _ => trivial) ⟨_, rfl, rfl⟩ (by decide) <|
    .cons trivial trivial trivial rfl (by decide) <|
    .cons (st' := [[3, 5, 100, 19], [13, 17, 23], []]) trivial trivial (by intro l m h h'; cases h; cases h'; decide) rfl (by decide) <|
    .cons trivial trivial trivial rfl (by decide) trivial
  obtain ⟨as, ls, vs, m, e, hl, h⟩ := C45_small_partial ht
  have : as = [.none, .flag true, .none, .none, .none, .item (some 11), .none, .none, .none] ∧
      ls = [[3, 5, 100, 19], [13, 17, 23]] := by
    have m' : ProgramMeans (List.map ACall.plain [.collect [5, 7, 11, 13, 17], .act 0 (.set true 1 100), .act 0 (.push .front 3),
        .act 0 (.splitOff 4), .act 0 (.insert 3 19), .act 0 (.pop .back), .singleton 23, .append 1 2, .drop 2]) []
        (.ok ([.none, .flag true, .none, .none, .none, .item (some 11), .none, .none, .none], [[3, 5, 100, 19], [13, 17, 23]])) :=
      ⟨_, rfl, _, ⟨_, ⟨_, rfl, rfl⟩, _, ⟨_, ⟨_, rfl, rfl⟩, _, ⟨_, ⟨_, rfl, rfl⟩, _, ⟨_, ⟨_, rfl, rfl⟩, _, ⟨_, ⟨_, rfl, rfl⟩, _,
        ⟨_, rfl, _, ⟨_, rfl, _, ⟨_, rfl, _, rfl, rfl⟩, rfl⟩, rfl⟩, rfl⟩, rfl⟩, rfl⟩, rfl⟩, rfl⟩, rfl⟩
    have := ProgramMeans_unique (by simp [ACall.Decided, AAct.Decided]) m m'
    injection this with e1 e2
    exact ⟨e1, e2⟩
  obtain ⟨rfl, rfl⟩ := this
  match vs, hl with
  | [v, w], _ =>
    obtain ⟨s1, h1⟩ := h 0 v _ rfl rfl
    obtain ⟨s2, h2⟩ := h 1 w _ rfl rfl
    exact ⟨v, w, e, s1, s2, h1 (.included 1) (.included 2) (by decide) (by decide), h2 .unbounded .unbounded (by decide) (by decide)⟩

/-- Writes through a mutable focus and through `iter_mut`. -/
example : ∃ v, runAProgram [.collect [5, 7, 11], .act 0 (.editFocus [.write 2 1, .read 0]), .act 0 (.mapEnds (· + 2) [.back])] [] =
      .ok ([.none, .items [some 11, some 5], .items [some 1]], [v]) ∧
    AShows v [5, 7, 3] ∧ v.sum (.included 1) .unbounded = .ok 10 := by
  have ht : TameProgram [.collect [5, 7, 11], .act 0 (.editFocus [.write 2 1, .read 0]), .act 0 (.mapEnds (· + 2) [.back])] [] :=
    .cons trivial trivial trivial rfl (by decide) <|
    .cons (st' := [[5, 7, 1]]) trivial trivial (by intro l h; cases h; simp [AAct.Tame, FOp.index]) ⟨_, .inl rfl, rfl⟩ (by decide) <|
    .cons (st' := [[5, 7, 3]]) trivial trivial (fun _ _ => trivial) ⟨_, rfl, rfl⟩ (by decide) trivial
  obtain ⟨as, ls, vs, m, e, hl, h⟩ := C45_small_partial ht
  have m' : ProgramMeans (List.map ACall.plain [.collect [5, 7, 11], .act 0 (.editFocus [.write 2 1, .read 0]),
      .act 0 (.mapEnds (· + 2) [.back])]) [] (.ok ([.none, .items [some 11, some 5], .items [some 1]], [[5, 7, 3]])) :=
    ⟨_, rfl, _, ⟨_, ⟨_, .inl rfl, rfl⟩, _, ⟨_, ⟨_, rfl, rfl⟩, _, rfl, rfl⟩, rfl⟩, rfl⟩
  have := ProgramMeans_unique (by simp [ACall.Decided, AAct.Decided]) m m'
  injection this with e1 e2
  subst e1 e2
  match vs, hl with
  | [v], _ =>
    obtain ⟨s1, h1⟩ := h 0 v _ rfl rfl
    exact ⟨v, e, s1, h1 (.included 1) .unbounded (by decide) (by decide)⟩

/-- Writes through the pieces of a mutable focus. -/
example : ∃ v, runAProgram [.collect [5, 7, 11, 13], .act 0 (.shareFocus [.split 0 3, .use 0 (.write 2 1), .split 0 1, .use 1 (.write 0 4),
      .use 2 (.read 0)])] [] = .ok ([.none, .items [none, some 11, none, some 7, some 13]], [v]) ∧
    AShows v [5, 4, 1, 13] ∧ v.sum (.included 1) .unbounded = .ok 18 := by
  have hm : (ACall.act 0 (.shareFocus [.split 0 3, .use 0 (.write 2 1), .split 0 1, .use 1 (.write 0 4), .use 2 (.read 0)])).plain.Means
      [[5, 7, 11, 13]] (.ok (.items [none, some 11, none, some 7, some 13], [[5, 4, 1, 13]])) := ⟨_, .inl rfl, rfl⟩
  have hns : ¬ strays [.split 0 3, .use 0 (.write 2 1), .split 0 1, .use 1 (.write 0 4), .use 2 (.read 0)] [[5, 7, 11, 13]] := by
    simp [strays, TOp.spec, FOp.spec, FOp.index]
  have hsf : SumsFit [.split 0 3, .use 0 (.write 2 1), .split 0 1, .use 1 (.write 0 4), .use 2 (.read 0)] [[5, 7, 11, 13]] := by
    simp [SumsFit, TOp.spec, FOp.spec]
  have ht : TameProgram [.collect [5, 7, 11, 13], .act 0 (.shareFocus [.split 0 3, .use 0 (.write 2 1), .split 0 1, .use 1 (.write 0 4),
      .use 2 (.read 0)])] [] :=
    .cons trivial trivial trivial rfl (by decide) <|
    .cons trivial trivial (by intro l h; cases h; exact ⟨hns, hsf⟩) hm (by decide) trivial
  obtain ⟨as, ls, vs, m, e, hl, h⟩ := C45_small_partial ht
  have := ProgramMeans_unique (by simp [ACall.Decided, AAct.Decided]) m ⟨_, rfl, _, ⟨_, hm, _, rfl, rfl⟩, rfl⟩
  injection this with e1 e2
  subst e1 e2
  match vs, hl with
  | [v], _ =>
    obtain ⟨s1, h1⟩ := h 0 v _ rfl rfl
    exact ⟨v, e, s1, h1 (.included 1) .unbounded (by decide) (by decide)⟩

/-- Reversing and sorting. -/
example : ∃ v, runAProgram [.collect [9, 7, 11, 5], .act 0 (.reverseRange (.included 1) .unbounded),
      .act 0 (.sortRange compare inferInstance (fun n => n * 7919) .unbounded (.included 2))] [] = .ok ([.none, .none, .none], [v]) ∧
    AShows v [5, 9, 11, 7] ∧ v.sum (.included 1) .unbounded = .ok 27 := by
  have hsort : ∀ {a : Answer Nat} {st' : List (List Nat)}, Call.Means [[9, 5, 11, 7]] (.ok (a, st'))
      (ACall.act 0 (.sortRange compare inferInstance (fun n => n * 7919) .unbounded (.included 2))).plain → a = .none ∧ st' = [[5, 9, 11, 7]] := by
    rintro a st' ⟨q, ⟨m, hm, rfl⟩, e⟩
    have hr : strictRange [9, 5, 11, 7].length .unbounded (.included 2) = .ok (0, 3) := by decide
    obtain ⟨h1, h2⟩ := hm _ hr
    rw [hr] at e
    have : m (0, 3) = [5, 9, 11] := by
      refine (h1.trans (by decide : List.Perm _ [5, 9, 11])).eq_of_pairwise (le := fun x y => compare x y ≠ .gt) ?_ h2 (by decide)
      intro x y _ _ h3 h4
      rw [Nat.compare_ne_gt] at h3 h4
      omega
    rw [ok_bind, this] at e
    cases e
    exact ⟨rfl, rfl⟩
  have ht : TameProgram [.collect [9, 7, 11, 5], .act 0 (.reverseRange (.included 1) .unbounded),
      .act 0 (.sortRange compare inferInstance (fun n => n * 7919) .unbounded (.included 2))] [] := by
    refine .cons trivial trivial trivial rfl (by decide) <|
      .cons (st' := [[9, 5, 11, 7]]) trivial ⟨by unfold Bound.Fits; decide, trivial⟩ (fun _ _ => trivial) ⟨_, rfl, rfl⟩ (by decide)
      ⟨⟨trivial, by unfold Bound.Fits; decide⟩, fun _ _ => trivial, ⟨.none, [[5, 9, 11, 7]], _, ⟨fun _ => [5, 9, 11], ?_, rfl⟩, rfl⟩, ?_⟩
    · intro p hp
      rw [show strictRange [9, 5, 11, 7].length .unbounded (.included 2) = .ok (0, 3) by decide] at hp
      cases hp
      decide
    · intro a st' h
      obtain ⟨-, rfl⟩ := hsort h
      exact ⟨by decide, trivial⟩
  obtain ⟨as, ls, vs, m, e, hl, h⟩ := C45_small_partial ht
  obtain ⟨q, hq, m⟩ := m
  replace hq : q = .ok (.none, [[9, 7, 11, 5]]) := hq
  subst hq
  obtain ⟨r1, ⟨q, ⟨y, hy, hq⟩, m⟩, er1⟩ := m
  replace hy : y = .ok (.none, [9, 5, 11, 7], []) := hy
  subst hy
  replace hq : q = .ok (.none, [[9, 5, 11, 7]]) := hq
  subst hq
  obtain ⟨r2, ⟨q, hq, m⟩, er2⟩ := m
  cases q with
  | error f => subst m; subst er2; cases er1
  | ok q =>
    obtain ⟨a, st'⟩ := q
    obtain ⟨rfl, rfl⟩ := hsort hq
    obtain ⟨r3, er3, er4⟩ := m
    replace er3 : r3 = .ok ([], [[5, 9, 11, 7]]) := er3
    subst er3 er4 er2
    cases er1
    match vs, hl with
    | [v], _ =>
      obtain ⟨s1, h1⟩ := h 0 v [5, 9, 11, 7] rfl rfl
      exact ⟨v, e, s1, h1 (.included 1) .unbounded (by decide) (by decide)⟩

/-! ### Where the caches are right -/

/-- C45, given right caches: as long as no node is above the parents of the leaves, the sum over any
range is the sum of the items there. Missing: the caches are not kept right (`C45_wrong_sum`). -/
theorem C45_sum_partial {cs : List ACall} (hf : ∀ c ∈ cs, c.plain.Fits) {as : List (Answer Nat)} {vs : List AVec}
    (e : runAProgram cs [] = .ok (as, vs)) {v : AVec} (hv : v ∈ vs) (hc : v.Cached 1) {l : List Nat} (hl : AShows v l)
    (hsum : l.sum < USIZE_LIMIT) (sb eb : Bound) (hs : sb.first < USIZE_LIMIT) (he : eb.afterLast l.length < USIZE_LIMIT) :
    v.sum sb eb = .ok ((l.take (eb.afterLast l.length)).drop sb.first).sum := by
  obtain ⟨h, i⟩ := AVec.inv_of_run hf e hv
  have hl' : l = v.erase.toList := ((RVec.shows_iff i).1 hl.to_erase).symm
  unfold AVec.sum
  rw [RVec.rangeStart_first hs, ok_bind, hl.1, RVec.rangeEnd_afterLast he, ok_bind]
  have := AVec.sumLoop_ok (start := sb.first) (stop := eb.afterLast l.length) (ks := v.nodes) (acc := 0)
    (startPos := 0) (hc.right i) (by rw [AVec.nodes_toList, ← hl']; omega)
  rw [AVec.nodes_toList, ← hl', Nat.zero_add, Nat.sub_zero, Nat.sub_zero] at this
  exact this

theorem mapEnds_all (g : Nat → Nat) (s : Side) : ∀ (l : List Nat) (n : Nat), l.length ≤ n → mapEnds g (List.replicate n s) l = l.map g := by
  cases s with
  | front =>
    intro l
    induction l with
    | nil => intro n _; exact mapEnds_nil _ _
    | cons x l ih =>
      intro n hn
      obtain ⟨n, rfl⟩ : ∃ k, n = k + 1 := ⟨n - 1, by simp at hn; omega⟩
      simp only [List.replicate_succ, mapEnds, List.map_cons]
      rw [ih n (by simpa using hn)]
  | back =>
    intro l
    induction h : l.length generalizing l with
    | zero => intro n _; rw [List.eq_nil_of_length_eq_zero h]; exact mapEnds_nil _ _
    | succ k ih =>
      intro n hn
      obtain ⟨l, x, rfl⟩ : ∃ m x, l = m ++ [x] := ⟨l.dropLast, l.getLast (by rintro rfl; simp at h), (List.dropLast_concat_getLast _).symm⟩
      obtain ⟨n, rfl⟩ : ∃ k, n = k + 1 := ⟨n - 1, by omega⟩
      simp only [List.replicate_succ, mapEnds, List.getLast?_concat, List.dropLast_concat, List.map_append, List.map_cons, List.map_nil]
      rw [ih l (by simpa using h) n (by omega)]

theorem ok_inj_error {α : Type} {f g : Fault} (h : (.ok f : M Fault) = .ok g) : (.error f : M α) = .error g := by
  injection h with h
  rw [h]

theorem fits_collect {l : List Nat} : ∀ c ∈ [ACall.collect l], c.plain.Fits := by
  simp [ACall.plain, Call.Fits]

theorem ones_collected : ∃ v, AVec.fromIter (List.replicate 300 1) = .ok v ∧ v.Cached 1 := by
  have h : ((AVec.fromIter (List.replicate 300 1)).bind fun v =>
      .ok (decide (∀ nd ∈ v.nodes, nd.level ≤ 1 ∧ nd.sumsRight nd.level = true))) = .ok true := by decide +kernel
  obtain ⟨v, e, h⟩ := RVec.bind_ok h
  injection h with h
  exact ⟨v, e, by have := of_decide_eq_true h; exact this⟩

/-- 300 ones; the sum over `7..=205`. -/
example : ∃ v, runAProgram [.collect (List.replicate 300 1)] [] = .ok ([.none], [v]) ∧ v.Cached 1 ∧
    v.sum (.included 7) (.included 205) = .ok 199 := by
  obtain ⟨v, e, hc⟩ := ones_collected
  obtain ⟨e', hl⟩ := collect_shows e
  refine ⟨v, e', hc, ?_⟩
  rw [C45_sum_partial fits_collect e' (by simp) hc hl (by decide +kernel) (.included 7) (.included 205)
    (by decide) (by decide)]
  decide +kernel

/-- C45, guarded writes: a write through `get_mut_guarded` keeps right caches right. -/
theorem C45_guarded_partial {cs : List ACall} (hf : ∀ c ∈ cs, c.plain.Fits) {as : List (Answer Nat)} {vs : List AVec}
    (e : runAProgram cs [] = .ok (as, vs)) {v : AVec} (hv : v ∈ vs) {m : Nat} (hc : v.Cached m) {l : List Nat} (hl : AShows v l)
    (hsum : l.sum < USIZE_LIMIT) {i : Nat} (hi : i < l.length) (x : Nat) (hx : (l.set i x).sum < USIZE_LIMIT) :
    ∃ v', v.set true i x = .ok (some v') ∧ v'.Cached m ∧ AShows v' (l.set i x) := by
  obtain ⟨h, inv⟩ := AVec.inv_of_run hf e hv
  have hl' : l = v.erase.toList := ((RVec.shows_iff inv).1 hl.to_erase).symm
  subst hl'
  obtain ⟨pos, sub, e1, hf⟩ := RVec.findNodeInfo_ok inv hi
  obtain ⟨nd, n, pre, post, e2, hw, ht, hix, hsub, -⟩ := hf.node inv
  rw [AVec.nodeAt_erase_eq] at e2
  cases e3 : v.nodeAt pos with
  | error f => rw [e3] at e2; cases e2
  | ok a =>
    rw [e3] at e2
    injection e2 with e2
    subst e2
    obtain ⟨n', hn', hr⟩ := hc.right inv a (AVec.nodeAt_mem e3)
    have g1 := ANode.sum_set hi x
    have g2 := ANode.sum_set hsub x
    have g3 : v.erase.toList.sum = pre.sum + a.erase.toList.sum + post.sum := by
      rw [ht, List.sum_append, List.sum_append]
    have g4 : v.erase.toList[i] = a.erase.toList[sub] := by
      rw [← Option.some_inj, ← List.getElem?_eq_getElem hi, ← List.getElem?_eq_getElem hsub, ht, hix,
        List.append_assoc, List.getElem?_append_right (by omega), List.getElem?_append_left (by omega)]
      congr 1; omega
    obtain ⟨a', e4, hr'⟩ := hr.set hsub x (by omega) (by omega)
    have e5 : v.set true i x = .ok (some (v.withNodeAt pos a')) := by
      unfold AVec.set
      rw [← AVec.findNodeInfo_erase, e1]
      simp only [ok_bind, e3, e4, unwrap_some]
    refine ⟨_, e5, ?_, ?_⟩
    · intro k hk
      rcases AVec.mem_withNodeAt hk with rfl | hk
      · exact ⟨by rw [hr'.level]; exact hn', by rw [hr'.level]; exact hr'.sumsRight⟩
      · exact hc k hk
    · have e6 := AVec.set_erase _ _ _ _ _ e5
      obtain ⟨w, e7, i7, t7⟩ := RVec.set_ok inv x hi
      rw [e7] at e6
      injection e6 with e6
      injection e6 with e6
      subst e6
      exact .of_erase ((RVec.shows_iff i7).2 t7)

/-- 300 ones, one of them set to 41. -/
example : ∃ v v', runAProgram [.collect (List.replicate 300 1)] [] = .ok ([.none], [v]) ∧
    v.set true 222 41 = .ok (some v') ∧ v'.Cached 1 := by
  obtain ⟨v, e, hc⟩ := ones_collected
  obtain ⟨e', hl⟩ := collect_shows e
  obtain ⟨v', e2, hc', -⟩ := C45_guarded_partial fits_collect e' (by simp) hc hl (by decide +kernel)
    (i := 222) (by decide +kernel) 41 (by decide +kernel)
  exact ⟨v, v', e', e2, hc'⟩

/-- What a vector shows after a call that is known to return. -/
theorem AAct.shows_of {v v' : AVec} {l l' : List Nat} (b : Built v.erase) (s : AShows v l) {a : AAct} (hd : a.Decided) (ha : a.plain.Fits) {x : Answer Nat}
    {ws : List AVec} (e' : a.run v = .ok (x, v', ws)) {y : Answer Nat} {ls : List (List Nat)} (m : a.plain.Means l (.ok (y, l', ls))) :
    x = y ∧ AShows v' l' := by
  obtain ⟨q, m', r⟩ := act_ok b s.to_erase a.plain ha
  have := AAct.run_erase v a _ e'
  cases q with
  | error f =>
    rw [show a.plain.run v.erase = .error f from r] at this
    cases this
  | ok q =>
    obtain rfl := AAct.Means_unique hd m m'
    obtain ⟨w, ws, er, -, sw, -⟩ := r
    rw [er] at this
    injection this with this
    injection this with g1 g2
    injection g2 with g2 g3
    dsimp only at g1 g2
    subst g1 g2
    exact ⟨rfl, .of_erase sw⟩

theorem AVec.built_of_run {cs : List ACall} (hf : ∀ c ∈ cs, c.plain.Fits) {as : List (Answer Nat)} {vs : List AVec}
    (e : runAProgram cs [] = .ok (as, vs)) {v : AVec} (hv : v ∈ vs) : Built v.erase := by
  obtain ⟨ls, -, h⟩ := runAProgram_holds hf (st := []) Holding.nil e
  obtain ⟨i, hi⟩ := List.getElem?_of_mem hv
  obtain ⟨-, -, b, -⟩ := h.get (i := i) (v := v.erase) (by simp [hi])
  exact b

/-- C45, through `focus_mut`: reads and writes through a mutable focus keep right caches right, if the last index asked
for is out of range, the first, or the last; so the focus is not inside the tree when it is dropped. Missing: any
other last index (`C45_focus_stale`). -/
theorem C45_focus_partial {cs : List ACall} (hf : ∀ c ∈ cs, c.plain.Fits) {as : List (Answer Nat)} {vs : List AVec}
    (e : runAProgram cs [] = .ok (as, vs)) {v : AVec} (hv : v ∈ vs) {m : Nat} (hc : v.Cached m) {l : List Nat} (hl : AShows v l)
    {ops : List (FOp Nat)} {o : FOp Nat} (ho : l.length ≤ o.index ∨ o.index = 0 ∨ o.index + 1 = l.length)
    {x : Answer Nat} {v' : AVec} {ws : List AVec} (er : (AAct.editFocus (ops ++ [o])).run v = .ok (x, v', ws)) :
    v'.Cached m ∧ AShows v' (FOp.specAll (ops ++ [o]) l).2 ∧ x = .items (FOp.specAll (ops ++ [o]) l).1 := by
  have b := AVec.built_of_run hf e hv
  obtain ⟨h, i⟩ := b.inv
  obtain ⟨h1, h2⟩ := AAct.shows_of b hl (a := .editFocus (ops ++ [o])) trivial trivial er (.inl rfl)
  refine ⟨AVec.editFocus_cached b hc ?_ er, h2, h1⟩
  rwa [(RVec.shows_iff i).1 hl.to_erase]

/-- What is left of 300 ones after a call that returns, as computed. -/
theorem ones_after {a : AAct} {n : Nat} (h : ((AVec.fromIter (List.replicate 300 1)).bind fun v => (a.run v).bind fun r =>
    r.2.1.sum .unbounded .unbounded) = .ok n) : ∃ v x v' ws, runAProgram [.collect (List.replicate 300 1)] [] = .ok ([.none], [v]) ∧
      v.Cached 1 ∧ AShows v (List.replicate 300 1) ∧ a.run v = .ok (x, v', ws) ∧ v'.sum .unbounded .unbounded = .ok n := by
  obtain ⟨v, e, h⟩ := RVec.bind_ok h
  obtain ⟨⟨x, v', ws⟩, er, h⟩ := RVec.bind_ok h
  obtain ⟨e', hl⟩ := collect_shows e
  obtain ⟨v1, e1, hc⟩ := ones_collected
  rw [e] at e1
  cases e1
  exact ⟨v, x, v', ws, e', hc, hl, er, h⟩

/-- Two writes among 300 ones, then a look at the last item. -/
example : ∃ v x v' ws, runAProgram [.collect (List.replicate 300 1)] [] = .ok ([.none], [v]) ∧
    (AAct.editFocus ([.write 100 7, .write 17 3] ++ [.read 299])).run v = .ok (x, v', ws) ∧ v'.Cached 1 ∧
    x = .items [some 1, some 1, some 1] := by
  obtain ⟨v, x, v', ws, e, hc, hl, er, -⟩ := ones_after (a := .editFocus ([.write 100 7, .write 17 3] ++ [.read 299])) (n := 308)
    (by decide +kernel)
  obtain ⟨h1, -, h3⟩ := C45_focus_partial fits_collect e (by simp) hc hl (.inr (.inr (by decide +kernel))) er
  refine ⟨v, x, v', ws, e, er, h1, h3.trans ?_⟩
  decide +kernel

/-- C45, through `focus_mut` that is only read: right caches stay right. -/
theorem C45_look_partial {cs : List ACall} (hf : ∀ c ∈ cs, c.plain.Fits) {as : List (Answer Nat)} {vs : List AVec}
    (e : runAProgram cs [] = .ok (as, vs)) {v : AVec} (hv : v ∈ vs) {m : Nat} (hc : v.Cached m) {l : List Nat} (hl : AShows v l)
    {is : List Nat} {x : Answer Nat} {v' : AVec} {ws : List AVec} (er : (AAct.editFocus (is.map FOp.read)).run v = .ok (x, v', ws)) :
    v'.Cached m ∧ AShows v' l ∧ x = .items (is.map fun i => l[i]?) := by
  have b := AVec.built_of_run hf e hv
  obtain ⟨h1, h2⟩ := AAct.shows_of b hl (a := .editFocus (is.map FOp.read)) trivial trivial er (.inl rfl)
  have hs : ∀ is : List Nat, FOp.specAll (is.map FOp.read) l = (is.map fun i => l[i]?, l) := by
    intro is
    induction is with
    | nil => rfl
    | cons i is ih => simp only [List.map_cons, FOp.specAll, FOp.spec, ih]
  rw [hs] at h1 h2
  exact ⟨AVec.lookFocus_cached b hc er, h2, h1⟩

/-- 300 ones, read here and there. -/
example : ∃ v x v' ws, runAProgram [.collect (List.replicate 300 1)] [] = .ok ([.none], [v]) ∧
    (AAct.editFocus ([100, 290, 17, 150].map FOp.read)).run v = .ok (x, v', ws) ∧ v'.Cached 1 := by
  obtain ⟨v, x, v', ws, e, hc, hl, er, -⟩ := ones_after (a := .editFocus ([100, 290, 17, 150].map FOp.read)) (n := 300)
    (by decide +kernel)
  exact ⟨v, x, v', ws, e, er, (C45_look_partial fits_collect e (by simp) hc hl er).1⟩

/-- C45, through `iter_mut`: a whole pass over the vector from one end, changing the items, keeps right caches right.
Missing: a pass that stops early (`C45_pass_stale`). -/
theorem C45_pass_partial {cs : List ACall} (hf : ∀ c ∈ cs, c.plain.Fits) {as : List (Answer Nat)} {vs : List AVec}
    (e : runAProgram cs [] = .ok (as, vs)) {v : AVec} (hv : v ∈ vs) {m : Nat} (hc : v.Cached m) {l : List Nat} (hl : AShows v l)
    (g : Nat → Nat) (s : Side) {n : Nat} (hn : l.length ≤ n) {x : Answer Nat} {v' : AVec} {ws : List AVec}
    (er : (AAct.mapEnds g (List.replicate n s)).run v = .ok (x, v', ws)) : v'.Cached m ∧ AShows v' (l.map g) := by
  have b := AVec.built_of_run hf e hv
  obtain ⟨h, i⟩ := b.inv
  obtain ⟨-, h2⟩ := AAct.shows_of b hl (a := .mapEnds g (List.replicate n s)) trivial trivial er rfl
  refine ⟨AVec.mapEnds_cached b hc g s (by rwa [(RVec.shows_iff i).1 hl.to_erase]) er, ?_⟩
  rwa [mapEnds_all g s l n hn] at h2

/-- All of 300 ones made twos, from the back. -/
example : ∃ v x v' ws, runAProgram [.collect (List.replicate 300 1)] [] = .ok ([.none], [v]) ∧
    (AAct.mapEnds (· + 1) (List.replicate 301 .back)).run v = .ok (x, v', ws) ∧ v'.Cached 1 ∧ AShows v' (List.replicate 300 2) := by
  obtain ⟨v, x, v', ws, e, hc, hl, er, -⟩ := ones_after (a := .mapEnds (· + 1) (List.replicate 301 .back)) (n := 600)
    (by decide +kernel)
  obtain ⟨h1, h2⟩ := C45_pass_partial fits_collect e (by simp) hc hl (· + 1) .back (by decide +kernel) er
  exact ⟨v, x, v', ws, e, er, h1, by rwa [List.map_replicate] at h2⟩

/-! ### What goes wrong -/

/-- C45 fails: with 128 items pushed at the back the sum of all is wrong. -/
theorem C45_wrong_sum : ∃ v, runAProgram [.collect (List.range 128)] [] = .ok ([.none], [v]) ∧
    AShows v (List.range 128) ∧ v.sum .unbounded .unbounded = .ok 5616 ∧ (List.range 128).sum = 8128 := by
  have h : ((AVec.fromIter (List.range 128)).bind fun v => v.sum .unbounded .unbounded) = .ok 5616 := by decide +kernel
  obtain ⟨v, e, h⟩ := RVec.bind_ok h
  obtain ⟨e', s⟩ := collect_shows e
  exact ⟨v, e', s, h, by decide +kernel⟩

theorem AAct.shows_after {cs : List ACall} (hf : ∀ c ∈ cs, c.plain.Fits) {v v' : AVec} {l l' : List Nat} {as : List (Answer Nat)}
    (e : runAProgram cs [] = .ok (as, [v])) (s : AShows v l) {a : AAct} (hd : a.Decided) (ha : a.plain.Fits)
    {x : Answer Nat} (e' : a.run v = .ok (x, v', [])) {y : Answer Nat} (m : a.plain.Means l (.ok (y, l', []))) : x = y ∧ AShows v' l' :=
  AAct.shows_of (AVec.built_of_run hf e (by simp)) s hd ha e' m

/-- C45 fails: 65 items are pushed at the back and two taken away again, on whichever side; the second
of the two panics, though 64 items are left. -/
theorem C45_pop_fails (s : Side) : ∃ v, runAProgram [.collect (List.range 65), .act 0 (.pop s)] [] =
      .ok ([.none, .item (takeEnd s (List.range 65)).1], [v]) ∧
    AShows v (takeEnd s (List.range 65)).2 ∧ v.popSide s = .error .overflow := by
  have h : ((AVec.fromIter (List.range 65)).bind fun v => (v.popSide s).bind fun r =>
      match r.2.popSide s with
      | .ok _ => .error .panic
      | .error f => .ok f) = .ok Fault.overflow := by
    cases s <;> decide +kernel
  obtain ⟨v, e, h⟩ := RVec.bind_ok h
  obtain ⟨e', sh⟩ := collect_shows e
  obtain ⟨r, e1, h⟩ := RVec.bind_ok h
  have er : (AAct.pop s).run v = .ok (.item r.1, r.2, []) := by simp only [AAct.run, e1, ok_bind]
  obtain ⟨hx, sh'⟩ := AAct.shows_after fits_collect e' sh (a := .pop s) trivial
    (by cases s <;> trivial) er (y := .item (takeEnd s (List.range 65)).1) (l' := (takeEnd s (List.range 65)).2)
    (by cases s <;> rfl)
  refine ⟨r.2, ?_, sh', ?_⟩
  · rw [← hx]
    simp only [runAProgram, runAll, ACall.run, e, ok_bind, List.nil_append, List.getElem?_cons_zero, er]
    rfl
  · cases e2 : r.2.popSide s with
    | ok x => rw [e2] at h; cases h
    | error f => rw [e2] at h; exact ok_inj_error h

/-- C45 fails: no vector of 4096 zeros can be made by pushing at the back; the last push panics. -/
theorem C45_push_fails : ∃ v, runAProgram [.collect (List.replicate 4095 0)] [] = .ok ([.none], [v]) ∧
    AShows v (List.replicate 4095 0) ∧ v.pushSide .back 0 = .error .overflow := by
  have h : ((AVec.fromIter (List.replicate 4095 0)).bind fun v =>
      match v.pushSide .back 0 with
      | .ok _ => .error .panic
      | .error f => .ok f) = .ok Fault.overflow := by decide +kernel
  obtain ⟨v, e, h⟩ := RVec.bind_ok h
  obtain ⟨e', sh⟩ := collect_shows e
  refine ⟨v, e', sh, ?_⟩
  cases e2 : v.pushSide .back 0 with
  | ok x => rw [e2] at h; cases h
  | error f => rw [e2] at h; exact ok_inj_error h

/-- C45 fails: a write through `get_mut` does not reach the sums. With 300 ones, one of them set to 7,
the sum of all is still 300; the same write through the guard gives 306. -/
theorem C45_stale : ∃ v v1 v2, runAProgram [.collect (List.replicate 300 1)] [] = .ok ([.none], [v]) ∧
    v.set false 100 7 = .ok (some v1) ∧ v1.sum .unbounded .unbounded = .ok 300 ∧
    v.set true 100 7 = .ok (some v2) ∧ v2.sum .unbounded .unbounded = .ok 306 := by
  have h : ((AVec.fromIter (List.replicate 300 1)).bind fun v =>
      ((v.set false 100 7).bind unwrap).bind fun v1 => ((v.set true 100 7).bind unwrap).bind fun v2 =>
        (v1.sum .unbounded .unbounded).bind fun a => (v2.sum .unbounded .unbounded).bind fun b => .ok (a, b)) =
      .ok (300, 306) := by decide +kernel
  obtain ⟨v, e, h⟩ := RVec.bind_ok h
  obtain ⟨v1, e1, h⟩ := RVec.bind_ok h
  obtain ⟨v2, e2, h⟩ := RVec.bind_ok h
  obtain ⟨a, e3, h⟩ := RVec.bind_ok h
  obtain ⟨b, e4, h⟩ := RVec.bind_ok h
  injection h with h
  injection h with h1 h2
  obtain ⟨o1, e1, f1⟩ := RVec.bind_ok e1
  obtain ⟨o2, e2, f2⟩ := RVec.bind_ok e2
  exact ⟨v, v1, v2, (collect_shows e).1, by rw [e1, RVec.unwrap_eq f1], by rw [e3, h1], by rw [e2, RVec.unwrap_eq f2],
    by rw [e4, h2]⟩

/-- C45 fails: a write through a mutable focus that is dropped right after does not reach the sums of all nodes. With
300 ones, one of them set to 7, the sum of all is still 300. -/
theorem C45_focus_stale : ∃ v x v' ws, runAProgram [.collect (List.replicate 300 1)] [] = .ok ([.none], [v]) ∧ v.Cached 1 ∧
    (AAct.editFocus [.write 100 7]).run v = .ok (x, v', ws) ∧ AShows v' ((List.replicate 300 1).set 100 7) ∧
    v'.sum .unbounded .unbounded = .ok 300 := by
  obtain ⟨v, x, v', ws, e, hc, hl, er, h⟩ := ones_after (a := .editFocus [.write 100 7]) (n := 300) (by decide +kernel)
  obtain ⟨-, h2⟩ := AAct.shows_of (AVec.built_of_run fits_collect e (by simp)) hl (a := .editFocus [.write 100 7]) trivial trivial er (.inl rfl)
  exact ⟨v, x, v', ws, e, hc, er, h2, h⟩

/-- C45 fails: a pass over a vector that changes items and stops inside the tree. The last 100 of 300 ones are made twos,
and the sum of all is 345, not 400. -/
theorem C45_pass_stale : ∃ v x v' ws, runAProgram [.collect (List.replicate 300 1)] [] = .ok ([.none], [v]) ∧ v.Cached 1 ∧
    (AAct.mapEnds (· + 1) (List.replicate 100 .back)).run v = .ok (x, v', ws) ∧
    AShows v' (List.replicate 200 1 ++ List.replicate 100 2) ∧ v'.sum .unbounded .unbounded = .ok 345 := by
  obtain ⟨v, x, v', ws, e, hc, hl, er, h⟩ := ones_after (a := .mapEnds (· + 1) (List.replicate 100 .back)) (n := 345) (by decide +kernel)
  obtain ⟨-, h2⟩ := AAct.shows_of (AVec.built_of_run fits_collect e (by simp)) hl
    (a := .mapEnds (· + 1) (List.replicate 100 .back)) trivial trivial er rfl
  refine ⟨v, x, v', ws, e, hc, er, ?_, h⟩
  rwa [show mapEnds (· + 1) (List.replicate 100 Side.back) (List.replicate 300 1) = List.replicate 200 1 ++ List.replicate 100 2 by
    decide +kernel] at h2

/-- C45 fails: splitting a mutable focus twice, and doing nothing else, makes the sums wrong. Of 300 ones the sum of all is
263 afterwards. -/
theorem C45_split_focus : ∃ v x v' ws, runAProgram [.collect (List.replicate 300 1)] [] = .ok ([.none], [v]) ∧ v.Cached 1 ∧
    (AAct.shareFocus [.split 0 100, .split 1 20]).run v = .ok (x, v', ws) ∧ AShows v' (List.replicate 300 1) ∧
    v'.sum .unbounded .unbounded = .ok 263 := by
  obtain ⟨v, x, v', ws, e, hc, hl, er, h⟩ := ones_after (a := .shareFocus [.split 0 100, .split 1 20]) (n := 263) (by decide +kernel)
  obtain ⟨-, h2⟩ := AAct.shows_of (AVec.built_of_run fits_collect e (by simp)) hl
    (a := .shareFocus [.split 0 100, .split 1 20]) (l' := List.replicate 300 1)
    (y := .items [none, none]) (ls := []) trivial trivial er (.inl (by decide +kernel))
  exact ⟨v, x, v', ws, e, hc, er, h2, h⟩

theorem AAct.shows_sort {v v' : AVec} {l : List Nat} (b : Built v.erase) (s : AShows v l) {cmp : Nat → Nat → Ordering} {total : Std.TransCmp cmp}
    {draws : Nat → Nat} {sb eb : Bound} (ha : sb.Fits ∧ eb.Fits) {x : Answer Nat} {ws : List AVec}
    (e' : (AAct.sortRange cmp total draws sb eb).run v = .ok (x, v', ws)) {p : Nat × Nat} (hr : strictRange l.length sb eb = .ok p) :
    ∃ m, m.Perm ((l.take p.2).drop p.1) ∧ m.Pairwise (fun x y => cmp x y ≠ .gt) ∧ AShows v' (l.take p.1 ++ m ++ l.drop p.2) := by
  obtain ⟨q, ⟨m, hm, hq⟩, r⟩ := act_ok b s.to_erase (AAct.sortRange cmp total draws sb eb).plain ha
  have e1 := AAct.run_erase v _ _ e'
  obtain ⟨h1, h2⟩ := hm _ hr
  rw [hr, ok_bind] at hq
  subst hq
  obtain ⟨w, us, ew, -, sw, -⟩ := r
  rw [ew] at e1
  cases e1
  exact ⟨m p, h1, h2, .of_erase sw⟩

theorem AAct.set_means {l : List Nat} {i : Nat} (h : i < l.length) (x : Nat) :
    (AAct.set true i x).plain.Means l (.ok (.flag true, l.set i x, [])) := by
  simp [AAct.plain, Act.Means, h]

/-- C45 fails: sorting a range of one item makes the sums wrong. Of 300 ones the sum of all is 274 afterwards. -/
theorem C45_sort_wrong : ∃ v x v' ws, runAProgram [.collect (List.replicate 300 1)] [] = .ok ([.none], [v]) ∧ v.Cached 1 ∧
    (AAct.sortRange compare inferInstance (fun _ => 0) (.included 100) (.excluded 101)).run v = .ok (x, v', ws) ∧
    AShows v' (List.replicate 300 1) ∧ v'.sum .unbounded .unbounded = .ok 274 := by
  obtain ⟨v, x, v', ws, e, hc, hl, er, h⟩ := ones_after
    (a := .sortRange compare inferInstance (fun _ => 0) (.included 100) (.excluded 101)) (n := 274) (by decide +kernel)
  refine ⟨v, x, v', ws, e, hc, er, ?_, h⟩
  obtain ⟨m, hp, -, sm⟩ := AAct.shows_sort (AVec.built_of_run fits_collect e (by simp)) hl ⟨by unfold Bound.Fits; decide, by unfold Bound.Fits; decide⟩ er
    (p := (100, 101)) (by decide +kernel)
  rw [show ((List.replicate 300 1).take (100, 101).2).drop (100, 101).1 = [1] by decide +kernel, List.perm_singleton] at hp
  subst hp
  rwa [show (List.replicate 300 1).take (100, 101).1 ++ [1] ++ (List.replicate 300 1).drop (100, 101).2 = List.replicate 300 1 by
    decide +kernel] at sm

/-- C45 fails: reversing a range makes the sums wrong. 300 ones, of which one was set to 7 through the guard, have the sum
306; after reversing a range with that item it is 312. -/
theorem C45_reverse_wrong : ∃ v x v' ws, runAProgram [.collect (List.replicate 300 1), .act 0 (.set true 70 7)] [] =
      .ok ([.none, .flag true], [v]) ∧ v.sum .unbounded .unbounded = .ok 306 ∧
    (AAct.reverseRange (.included 10) (.excluded 80)).run v = .ok (x, v', ws) ∧
    AShows v' ((List.replicate 300 1).set 19 7) ∧ v'.sum .unbounded .unbounded = .ok 312 := by
  have h : ((AVec.fromIter (List.replicate 300 1)).bind fun v => ((v.set true 70 7).bind unwrap).bind fun v1 =>
      (v1.sum .unbounded .unbounded).bind fun a => ((AAct.reverseRange (.included 10) (.excluded 80)).run v1).bind fun r =>
        (r.2.1.sum .unbounded .unbounded).bind fun b => .ok (a, b)) = .ok (306, 312) := by decide +kernel
  obtain ⟨v, e, h⟩ := RVec.bind_ok h
  obtain ⟨v1, e1, h⟩ := RVec.bind_ok h
  obtain ⟨a, e2, h⟩ := RVec.bind_ok h
  obtain ⟨⟨x, v', ws⟩, er, h⟩ := RVec.bind_ok h
  obtain ⟨b, e3, h⟩ := RVec.bind_ok h
  injection h with h
  injection h with h1 h2
  subst h1 h2
  obtain ⟨o, e1, eo⟩ := RVec.bind_ok e1
  rw [RVec.unwrap_eq eo] at e1
  obtain ⟨ep, sh⟩ := collect_shows e
  have es : (AAct.set true 70 7).run v = .ok (.flag true, v1, []) := by simp only [AAct.run, e1, ok_bind, AVec.assigned]
  obtain ⟨-, s1⟩ := AAct.shows_after fits_collect ep sh (a := .set true 70 7) trivial trivial es
    (y := .flag true) (l' := (List.replicate 300 1).set 70 7) (AAct.set_means (by rw [List.length_replicate]; decide) 7)
  have ep1 : runAProgram [.collect (List.replicate 300 1), .act 0 (.set true 70 7)] [] = .ok ([.none, .flag true], [v1]) := by
    simp only [runAProgram, runAll, ACall.run, e, ok_bind, List.nil_append, List.getElem?_cons_zero, es]
    rfl
  have b1 : Built v1.erase := AVec.built_of_run (by
    generalize List.replicate 300 1 = l
    simp [ACall.plain, AAct.plain, Call.Fits, Act.Fits]) ep1 (by simp)
  obtain ⟨-, s2⟩ := AAct.shows_of b1 s1 (a := .reverseRange (.included 10) (.excluded 80)) trivial
    ⟨by unfold Bound.Fits; decide, by unfold Bound.Fits; decide⟩ er
    (y := .none) (l' := (List.replicate 300 1).set 19 7) (ls := []) (by
      show (Except.ok _ : M (Answer Nat × List Nat × List (List Nat))) = _
      rw [show strictRange ((List.replicate 300 1).set 70 7).length (.included 10) (.excluded 80) = .ok (10, 80) by decide +kernel, ok_bind,
        show ((List.replicate 300 1).set 70 7).take 10 ++ (((((List.replicate 300 1).set 70 7).take 80).drop 10).reverse) ++
          ((List.replicate 300 1).set 70 7).drop 80 = (List.replicate 300 1).set 19 7 by decide +kernel])
  exact ⟨v1, x, v', ws, ep1, e2, er, s2, e3⟩

/-- C45 fails: after a write through `get_mut` of more than what was there, taking the item off a vector of one
item panics, whatever the two numbers are and on whichever side it is taken. -/
theorem C45_stale_pop_fails {x y : Nat} (h : x < y) (hy : y < USIZE_LIMIT) (s : Side) :
    ∃ v, runAProgram [.collect [x], .act 0 (.set false 0 y)] [] = .ok ([.none, .flag true], [v]) ∧ AShows v [y] ∧
      v.popSide s = .error .overflow := by
  obtain ⟨v, e, hv⟩ := AVec.Flat.new.pushAll (m := [x]) (by simp [SmallSeq]; omega)
  obtain ⟨e', sh⟩ := collect_shows e
  simp only [List.nil_append] at hv
  obtain ⟨b, hb, rfl⟩ := hv
  obtain ⟨b', eb, hb'⟩ := CB.set_ok hb (i := 0) (by simp) y
  have es : AVec.set false { left := [], right := [], root := .leaf b [x].sum, len := [x].length } 0 y =
      .ok (some { left := [], right := [], root := .leaf b' [x].sum, len := [x].length }) := by
    simp [AVec.set, AVec.findNodeInfoForIndex, AVec.findLoop, massert, usub_ok, AVec.nodeAt, ANode.set, ANode.level,
      ANode.setAux, CB.get_ok hb, eb, AVec.withNodeAt]
  have er : (AAct.set false 0 y).run { left := [], right := [], root := .leaf b [x].sum, len := [x].length } =
      .ok (.flag true, { left := [], right := [], root := .leaf b' [x].sum, len := [x].length }, []) := by
    simp only [AAct.run, es, ok_bind, AVec.assigned]
  obtain ⟨-, sh'⟩ := AAct.shows_after fits_collect e' sh (a := .set false 0 y) trivial trivial er
    (y := .flag true) (l' := [y]) rfl
  refine ⟨_, ?_, sh', ?_⟩
  · simp only [runAProgram, runAll, ACall.run, AVec.fromIter, e, ok_bind, List.nil_append, List.getElem?_cons_zero, er]
    rfl
  · have hb'' : b'.Rep (s.cons y []) := by cases s <;> simpa [Side.cons] using hb'
    obtain ⟨b2, e2, -⟩ := CB.pop_ok hb''
    cases s <;> simp [AVec.popSide, massert, AVec.spine, ANode.isEmpty, ANode.len, hb'.len_eq, usub_ok, ANode.leafPop, e2,
      usub, show ¬ y ≤ x by omega]

example : (3 : Nat) < 4 ∧ (4 : Nat) < USIZE_LIMIT := by decide

/-- C45 fails: two vectors of two items or more can not be joined by `append` if they have at most 64 items each and
there is room in the leaf of the first for more than half of the items of the second; so it is whenever they
have 64 items or fewer together. -/
theorem C45_append_fails {l m : List Nat} (hl : 2 ≤ l.length) (hm : 2 ≤ m.length) (sl : SmallSeq l) (sm : SmallSeq m)
    (room : m.length < 2 * (64 - l.length)) :
    ∃ v w, runAProgram [.collect l, .collect m] [] = .ok ([.none, .none], [v, w]) ∧ AShows v l ∧ AShows w m ∧
      v.append w = .error .overflow := by
  obtain ⟨v, e, hv⟩ := AVec.Flat.new.pushAll (m := l) sl
  obtain ⟨w, e', hw⟩ := AVec.Flat.new.pushAll (m := m) sm
  refine ⟨v, w, ?_, (collect_shows e).2, (collect_shows e').2, hv.append_fails hw hl hm sl.1 room⟩
  simp only [runAProgram, runAll, ACall.run, AVec.fromIter, e, e', ok_bind, List.nil_append]
  rfl

/-- `vec![1, 2]` and `vec![3, 4]`. -/
example : SmallSeq [1, 2] ∧ SmallSeq [3, 4] ∧ [3, 4].length < 2 * (64 - [1, 2].length) := by decide

/-- C45 fails: an insertion that leaves an item or more before it and two or more after it panics, in every vector of
up to 63 items. -/
theorem C45_insert_fails {l : List Nat} (sl : SmallSeq l) (hl : l.length < 64) {i : Nat} (h1 : 1 ≤ i) (h2 : i + 2 ≤ l.length)
    (x : Nat) : ∃ v, runAProgram [.collect l] [] = .ok ([.none], [v]) ∧ AShows v l ∧ v.insert i x = .error .overflow := by
  obtain ⟨v, e, hv⟩ := AVec.Flat.new.pushAll (m := l) sl
  obtain ⟨e', sh⟩ := collect_shows e
  refine ⟨v, e', sh, ?_⟩
  simp only [List.nil_append] at hv
  obtain ⟨p, q, e2, hp, hq⟩ := hv.splitOff sl i
  have hlen : (l.take i).length = i := by simp; omega
  simp only [AVec.insert, e2, ok_bind, AVec.pushBack]
  by_cases hx : (l.take i).sum + x < USIZE_LIMIT
  · obtain ⟨p', e3, hp'⟩ := hp.push .back x (by simp [SmallSeq, Side.cons] at hx ⊢; omega)
    rw [e3, ok_bind]
    refine hp'.append_fails hq ?_ ?_ ?_ ?_ <;> simp [Side.cons] <;> omega
  · rw [hp.push_full .back x (by omega) hx]
    rfl

/-- Inserting in the middle of three items. -/
example : SmallSeq [1, 2, 3] ∧ [1, 2, 3].length < 64 ∧ 1 + 2 ≤ [1, 2, 3].length := by decide

/-- C45 fails: a removal that leaves two items or more before it and two or more after it panics, in every vector of
up to 64 items. -/
theorem C45_remove_fails {l : List Nat} (sl : SmallSeq l) {i : Nat} (h1 : 2 ≤ i) (h2 : i + 3 ≤ l.length) :
    ∃ v, runAProgram [.collect l] [] = .ok ([.none], [v]) ∧ AShows v l ∧ v.remove i = .error .overflow := by
  obtain ⟨v, e, hv⟩ := AVec.Flat.new.pushAll (m := l) sl
  obtain ⟨e', sh⟩ := collect_shows e
  refine ⟨v, e', sh, ?_⟩
  simp only [List.nil_append] at hv
  obtain ⟨p, q, e2, hp, hq⟩ := hv.splitOff sl i
  obtain ⟨q', e3, hq'⟩ := hq.pop .front
  have hlen : (l.take i).length = i := by simp; omega
  have hlen' : (takeEnd .front (l.drop i)).2.length = l.length - i - 1 := by simp [takeEnd]; omega
  have h64 := sl.1
  have := hp.append_fails hq' (by omega) (by omega) (by omega) (by omega)
  simp only [AVec.remove, hv.len, if_pos (show i < l.length by omega), e2, ok_bind, AVec.popFront, e3, this]
  rfl

/-- Removing the middle one of five items. -/
example : SmallSeq [1, 2, 3, 4, 5] ∧ 2 + 3 ≤ [1, 2, 3, 4, 5].length := by decide

/-- C45 fails: `constant_vec_of_length` panics for every length from two on, whatever the item. -/
theorem C45_constant_fails (x : Nat) {n : Nat} (h : 2 ≤ n) : AVec.constantVecOfLength x n = .error .overflow := by
  simp only [AVec.constantVecOfLength, AVec.singleton, AVec.pushBack]
  by_cases hx : x < USIZE_LIMIT
  · obtain ⟨p, e, hp⟩ := AVec.Flat.new.push .back x (by simp [SmallSeq, Side.cons]; omega)
    have hlen : p.len = 1 := hp.len
    simp only [Side.cons, List.nil_append] at hp
    rw [e, ok_bind, AVec.constantLoop, if_pos (by omega)]
    have e0 : (if (n &&& p.len != 0) = true then AVec.new.append p else .ok AVec.new) =
        .ok (if (n &&& p.len != 0) = true then p else AVec.new) := by split <;> rfl
    rw [e0, ok_bind]
    generalize hs : (if (n &&& p.len != 0) = true then p else AVec.new) = s
    have hs' : s = p ∨ s = AVec.new := by rw [← hs]; split <;> simp
    by_cases h2x : x + x < USIZE_LIMIT
    · obtain ⟨q, e', hq⟩ := hp.append hp (.inl (by simp)) (by simp [SmallSeq]; omega)
      have hlen' : q.len = 2 := hq.len
      rw [e', ok_bind, AVec.constantLoop, if_pos (by omega)]
      have hqq : q.append q = .error .overflow := hq.append_fails hq (by simp) (by simp) (by simp) (by simp)
      have hst : ∃ o, (if (n &&& q.len != 0) = true then s.append q else .ok s) = .ok o ∨
          (if (n &&& q.len != 0) = true then s.append q else .ok s) = .error .overflow := by
        split
        · rcases hs' with rfl | rfl
          · by_cases h3x : x + (x + x) < USIZE_LIMIT
            · obtain ⟨u, e3, -⟩ := hp.append hq (.inl (by simp)) (by simp [SmallSeq]; omega)
              exact ⟨u, .inl e3⟩
            · refine ⟨q, .inr ?_⟩
              obtain ⟨v', ev, -⟩ := hp.pop .back
              have e4 := hq.push_full .front x (by simp) (by simp; omega)
              simp [AVec.append, AVec.isEmpty, hlen, hlen', AVec.popBack, ev, takeEnd, AVec.pushFront, e4]
          · exact ⟨q, .inl rfl⟩
        · exact ⟨s, .inl rfl⟩
      obtain ⟨o, ho | ho⟩ := hst
      · rw [ho, ok_bind, hqq]; rfl
      · rw [ho]; rfl
    · obtain ⟨v', ev, -⟩ := hp.pop .back
      have e4 := hp.push_full .front x (by simp) (by simp; omega)
      have : p.append p = .error .overflow := by
        simp [AVec.append, AVec.isEmpty, hlen, AVec.popBack, ev, takeEnd, AVec.pushFront, e4]
      rw [this]; rfl
  · have e := AVec.Flat.new.push_full .back x (by simp) (by simpa using hx)
    rw [e]; rfl

example : (2 : Nat) ≤ 2 := by decide

/-- C45 fails: a vector of 65 items cannot be split in the middle; `split_off(33)` panics. -/
theorem C45_split_fails : ∃ v, runAProgram [.collect (List.range 65)] [] = .ok ([.none], [v]) ∧ AShows v (List.range 65) ∧
    v.splitOff 33 = .error .overflow := by
  have h : ((AVec.fromIter (List.range 65)).bind fun v =>
      match v.splitOff 33 with
      | .ok _ => .error .panic
      | .error f => .ok f) = .ok Fault.overflow := by decide +kernel
  obtain ⟨v, e, h⟩ := RVec.bind_ok h
  obtain ⟨e', sh⟩ := collect_shows e
  refine ⟨v, e', sh, ?_⟩
  cases e2 : v.splitOff 33 with
  | ok x => rw [e2] at h; cases h
  | error f => rw [e2] at h; exact ok_inj_error h

end Librrb
