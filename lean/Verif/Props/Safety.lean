import Verif.Props.History
import Verif.Proof.Safe

/-!
# C19: no call touches a slot that is not live

Every access to a slot of a node buffer is modelled so that reading a slot that holds nothing is the
fault `ub` and overwriting a slot that holds something is the fault `leak`. `Safe` excludes both. Most
calls have been shown to return a value at all; the theorems here are about what is left: calls that
may panic, loop or overflow, with any arguments.
-/
namespace Librrb
open RVec

/-- A fault that a call may have in a program without undefined behaviour. -/
theorem TOp.specAll_safe : ∀ (ts : List (TOp α)) (ls : List (List α)), Safe (runAll TOp.spec ts ls)
  | [], ls => .ok _
  | t :: ts, ls => by
    unfold runAll
    refine .bind ?_ fun r _ => .bind (TOp.specAll_safe ts r.2) fun _ _ => .ok _
    cases t <;> unfold TOp.spec <;> dsimp only <;> split
    · exact .ok _
    · exact .ok _
    · exact .ok _
    · split
      · exact .ok _
      · exact .of_error rfl (by simp)

theorem Act.means_safe {l : List α} {q : M (Answer α × List α × List (List α))} {a : Act α} (h : a.Means l q) : Safe q := by
  have fit : ∀ (l : List α) {γ : Type} (r : γ), Safe (fitting l r) := by
    intro l γ r
    unfold fitting
    split
    · exact .ok _
    · exact .of_error rfl (by simp)
  have loose : ∀ n sb eb, Safe (looseRange n sb eb) := by
    intro n sb eb
    unfold looseRange
    split
    · exact .ok _
    · exact .of_error rfl (by simp)
  have strict : ∀ n sb eb, Safe (strictRange n sb eb) := by
    intro n sb eb
    unfold strictRange
    refine .bind (loose _ _ _) fun _ _ => ?_
    split
    · exact .ok _
    · exact .of_error rfl (by simp)
  cases a with
  | setEnd s x => cases s <;> exact .of_ok h
  | pushBack x => rw [show q = _ from h]; exact fit _ _
  | pushFront x => rw [show q = _ from h]; exact fit _ _
  | insert i x => rw [show q = _ from h]; exact fit _ _
  | extractSlice sb eb =>
    rw [show q = _ from h]
    refine .bind (loose _ _ _) fun _ _ => ?_
    split <;> exact .ok _
  | reverseRange sb eb =>
    rw [show q = _ from h]
    exact .bind (strict _ _ _) fun _ _ => .ok _
  | sortRange cmp t d sb eb =>
    obtain ⟨m, -, rfl⟩ := h
    exact .bind (strict _ _ _) fun _ _ => .ok _
  | editFocus ops =>
    rcases h with h | ⟨h, -⟩
    · exact .of_ok h
    · exact .of_error h (by simp)
  | shareFocus ops =>
    rcases h with h | ⟨h, -⟩
    · rw [h]
      exact .bind (TOp.specAll_safe _ _) fun _ _ => .ok _
    · exact .of_error h (by simp)
  | _ => exact .of_ok h

theorem Call.means_safe {st : List (List α)} {q : M (Answer α × List (List α))} {c : Call α} (h : c.Means st q) : Safe q := by
  have strict : ∀ n sb eb, Safe (strictRange n sb eb) := by
    intro n sb eb
    unfold strictRange looseRange
    refine .bind ?_ fun _ _ => ?_
    · split
      · exact .ok _
      · exact .of_error rfl (by simp)
    · split
      · exact .ok _
      · exact .of_error rfl (by simp)
  have fit : ∀ (l : List α) {γ : Type} (r : γ), Safe (fitting l r) := by
    intro l γ r
    unfold fitting
    split
    · exact .ok _
    · exact .of_error rfl (by simp)
  cases c with
  | new => exact .of_ok h
  | singleton x => exact .of_ok h
  | collect items => rw [show q = _ from h]; exact fit _ _
  | clone v => exact .of_ok h
  | act v a =>
    simp only [Call.Means] at h
    split at h
    · exact .of_ok h
    · obtain ⟨q', m, rfl⟩ := h
      exact .bind (Act.means_safe m) fun _ _ => .ok _
  | append v w =>
    simp only [Call.Means] at h
    split at h
    · rw [h]; exact fit _ _
    · exact .of_ok h
  | prepend v w =>
    simp only [Call.Means] at h
    split at h
    · rw [h]; exact fit _ _
    · exact .of_ok h
  | compare cmp v w =>
    simp only [Call.Means] at h
    split at h <;> exact .of_ok h
  | drop v => exact .of_ok h
  | intoIter v script =>
    simp only [Call.Means] at h
    split at h <;> exact .of_ok h
  | constant x n =>
    rw [show q = _ from h]
    split
    · exact .ok _
    · exact .of_error rfl (by simp)
  | dualSort cmp t d sb eb v w =>
    simp only [Call.Means] at h
    split at h
    · exact .of_ok h
    · split at h
      · obtain ⟨m, -, rfl⟩ := h
        refine .bind (strict _ _ _) fun _ _ => ?_
        split
        · exact .ok _
        · exact .of_error rfl (by simp)
      · exact .of_ok h

/-- C19: no program over the operations of C17 touches a slot that is not live, whatever its arguments. -/
theorem C19_programs {vs : List (RVec α)} {ls : List (List α)} (h : Holding vs ls) (prog : List (Call α))
    (hf : ∀ c ∈ prog, c.Fits) : Safe (runProgram prog vs) := by
  induction prog generalizing vs ls with
  | nil => exact .ok _
  | cons c cs ih =>
    simp only [runProgram, runAll]
    obtain ⟨q, m, r⟩ := call_ok h c (hf c (by simp))
    have hs := Call.means_safe m
    cases q with
    | error e =>
      rw [SameResult] at r
      rw [r]
      exact .bind ⟨fun h' => hs.1 (by cases h'; rfl), fun h' => hs.2 (by cases h'; rfl)⟩ fun _ _ => by contradiction
    | ok q =>
      obtain ⟨ws, er, hw⟩ := r
      rw [er, ok_bind]
      exact .bind (ih hw fun c hc => hf c (by simp [hc])) fun _ _ => .ok _

/-- C19, for making a vector of equal items, of any length. -/
theorem C19_constant (x : α) (n : Nat) : Safe (constantVecOfLength x n) := by
  by_cases hn : n < 2 ^ 63
  · obtain ⟨v, h, e, -⟩ := constantVec_ok x hn
    exact .of_ok e
  · exact .of_error (constantVec_overflow x (by omega)) (by simp)

/-- C19, for a shared focus of any kind: with any index and any bounds. -/
theorem C19_focus {v : RVec α} (b : Built v) :
    Safe (Focus.new v) ∧ (∀ lo hi, Safe (Focus.narrowedTree v lo hi)) ∧
    ∀ f, FBuilt v f → ∀ i sb eb, Safe (f.get i) ∧ Safe (f.index i) ∧ Safe f.len ∧ Safe f.isEmpty ∧
      Safe (f.narrow sb eb) ∧ Safe (f.splitAt i) := by
  obtain ⟨k, iv⟩ := b.inv
  refine ⟨Focus.narrowedTree_safe iv _ _, fun lo hi => Focus.narrowedTree_safe iv lo hi, fun f fb i sb eb => ?_⟩
  obtain ⟨lo, hi, ho, -⟩ := FBuilt.ok iv fb
  exact ⟨Focus.get_safe iv ho i, (Focus.index_safe iv ho i).1, .usub _ _, .bind (.usub _ _) fun _ _ => .ok _,
    Focus.narrow_safe iv ho sb eb, Focus.splitAt_safe iv ho i⟩

/-- C19, for a mutable focus of any kind, also one that was asked for indices out of range: with any index; and
what it hands out is always a live slot of the vector. -/
theorem C19_focus_mut {v : RVec α} {l : List α} (b : Built v) (h : Shows v l) :
    Safe v.cells.focusMut ∧
    ∀ f lo hi, MBuilt v False f lo hi → ∀ i, Safe (f.get i) ∧ Safe (f.index i) ∧ Safe (f.splitAt i) ∧
      ∀ c f', f.get i = .ok (some c, f') → PlaceOf v l (lo + i) c := by
  have hcl := b.cells_length h
  constructor
  · obtain ⟨k, iv⟩ := b.inv
    obtain ⟨f, e, -⟩ := focusMut_ok (iv.mapAddr fun c _ => c)
    exact .of_ok e
  · intro f lo hi hf i
    obtain ⟨h1, h2, ho, -⟩ := hf.ok b h
    have hg := FMut.get_safe ho i
    refine ⟨hg, .bind hg fun _ _ => .bind (.unwrap _) fun _ _ => .ok _, FMut.splitAt_safe ho i, ?_⟩
    intro c f' e
    have hlen : ((v.cells.toList.take hi).drop lo).length = hi - lo := by simp; omega
    by_cases hi' : i < hi - lo
    · have hst : f.root = none → inRange f.llo f.lhi i = false := by
        intro hr
        by_contra hin
        rw [FMut.get_stale ho hr (by simpa using hin)] at e
        cases e
      obtain ⟨f'', e', -⟩ := FMut.get_ok ho (idx := i) (by omega) hst
      rw [e] at e'
      obtain ⟨c', c1, c2⟩ := b.place h (i := lo + i) (by omega)
      simp only [Except.ok.injEq, Prod.mk.injEq, Option.some.injEq] at e'
      have : v.cells.toList[lo + i]? = some c := by
        rw [e'.1, ← List.getElem?_eq_getElem, getElem?_part, if_pos hi']
      rw [this] at c1
      cases c1
      exact c2
    · obtain ⟨f'', e', -⟩ := FMut.get_out ho (idx := i) (by omega)
      rw [e] at e'
      cases e'

/-- C19, for the searches: with any function, whether or not the vector is sorted for it, and any bounds. -/
theorem C19_search {v : RVec α} (b : Built v) (f : α → Ordering) (index : Nat) (sb eb : Bound) :
    Safe (v.equalRangeInRangeBy f sb eb) ∧ Safe (v.equalRangeForIndexInRangeBy index f sb eb) := by
  obtain ⟨k, iv⟩ := b.inv
  exact ⟨equalRangeInRange_safe iv f sb eb, equalRangeForIndex_safe iv index f sb eb⟩

/-- C19, for the sorts: with any comparator, consistent or not, any bounds and any generator. -/
theorem C19_sort {v : RVec α} {w : RVec β} (b : Built v) (b' : Built w) (cmp : α → α → Ordering) (sb eb : Bound)
    (next : ρ → Nat × ρ) (rng : ρ) :
    Safe (v.sortRangeBy cmp sb eb next rng) ∧ Safe (v.dualSortRangeBy w cmp sb eb next rng) := by
  obtain ⟨k, iv⟩ := b.inv
  obtain ⟨k', iw⟩ := b'.inv
  exact ⟨sortRangeBy_safe b ((shows_iff iv).2 rfl) cmp sb eb next rng,
    dualSortRangeBy_safe b ((shows_iff iv).2 rfl) b' ((shows_iff iw).2 rfl) cmp sb eb next rng⟩

/-- C19, for the iterators: with any script. -/
theorem C19_iterators {v : RVec α} (b : Built v) (script : List Side) :
    Safe (VIter.new v >>= runScript VIter.step script) ∧ Safe (runScript RVec.intoIterStep script v) ∧
      Safe (VIterMut.new v.cells >>= runScript VIterMut.step script) := by
  obtain ⟨k, iv⟩ := b.inv
  have s := (shows_iff iv).2 rfl
  obtain ⟨it, it', e1, -, e2, -⟩ := C23_iter b s script
  obtain ⟨v', e3, -⟩ := C25_into_iter b s script
  obtain ⟨cs, im, im', -, -, -, e4, -, e5, -⟩ := C24_iter_mut b s script
  refine ⟨?_, .of_ok e3, ?_⟩
  · rw [e1, ok_bind]; exact .of_ok e2
  · rw [e4, ok_bind]; exact .of_ok e5

example : ∃ (v : RVec Nat), Built v ∧ Shows v (List.range 5000) ∧
    Safe (v.equalRangeBy fun x => if x % 3 = 0 then .lt else .gt) := by
  obtain ⟨v, b, s⟩ := sample
  exact ⟨v, b, s, (C19_search b _ 0 .unbounded .unbounded).1⟩

example : ∃ (v : RVec Nat) (f : Focus Nat), Built v ∧ FBuilt v f ∧ Safe (f.narrow (.included 70) (.excluded 3)) := by
  obtain ⟨v, b, s⟩ := sample
  obtain ⟨f, e, -⟩ := C29_focus b s
  exact ⟨v, f, b, .new e, ((C19_focus b).2.2 f (.new e) 0 _ _).2.2.2.2.1⟩

example : Safe (runProgram sampleProgram []) :=
  C19_programs .nil _ (by simp [sampleProgram, Call.Fits, Act.Fits, Bound.Fits])

/-- The two faults that `Safe` excludes do occur in the model, on damaged vectors: `get` reads an empty slot when the
length is too large, and `push_back` overwrites a live slot when the recorded length of the leaf is too small. -/
example : (⟨[], [], .leaf ⟨0, 2, some 1 :: List.replicate 63 none⟩, 2⟩ : RVec Nat).get 1 = .error .ub ∧
    ((⟨[], [], .leaf ⟨0, 1, some 1 :: some 2 :: List.replicate 62 none⟩, 1⟩ : RVec Nat).pushBack 3).map (fun _ => ()) =
      .error .leak := by decide +kernel

end Librrb
