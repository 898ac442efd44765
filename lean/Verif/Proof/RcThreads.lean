import Verif.Model.RcThreads
import Verif.ThreadSpec

/-!
# Counts that are changed in two halves, with no other thread in between
-/
namespace Librrb

/-- A thread in the middle of a step. -/
def RcThread.Midway : RcThread α γ → Prop
  | .ready _ => False
  | .half _ _ => True

/-- No thread takes a step while another one is in the middle of one. -/
def RcPool.Orderly (p : RcPool α γ) : List Nat → Prop
  | [] => True
  | i :: is => (∀ j x, j ≠ i → p.threads[j]? = some x → ¬x.Midway) ∧ ∀ q, p.step i = .ok q → q.Orderly is

/-- Computes whether an order of steps is such. -/
def RcPool.isOrderly (p : RcPool α γ) : List Nat → Bool
  | [] => true
  | i :: is => ((List.range p.threads.length).all fun j => j == i || match p.threads[j]? with | some (.half _ _) => false | _ => true) &&
      match p.step i with | .ok q => q.isOrderly is | .error _ => true

theorem RcPool.orderly_of {p : RcPool α γ} {schedule : List Nat} (h : p.isOrderly schedule = true) : p.Orderly schedule := by
  induction schedule generalizing p with
  | nil => trivial
  | cons i is ih =>
    rw [isOrderly, Bool.and_eq_true, List.all_eq_true] at h
    refine ⟨fun j x hj e hm => ?_, fun q e => ih ?_⟩
    · have h1 := h.1 j (List.mem_range.2 (List.getElem?_eq_some_iff.1 e).1)
      cases x with
      | ready x => exact hm
      | half n x => simp [e, hj] at h1
    · have h2 := h.2
      rw [e] at h2
      exact h2

/-- What a thread has to do still, if the half of a step does not count. -/
def RcThread.flat : RcThread α γ → HM α γ
  | .ready x => x
  | .half _ x => x

def RcPool.flat (p : RcPool α γ) : Pool α γ := { threads := p.threads.map RcThread.flat, heap := p.heap }

/-- The counts that were read are right still. -/
def RcPool.Fresh (p : RcPool α γ) : Prop :=
  ∀ (i n : Nat) (x : HM α γ), p.threads[i]? = some (.half n x) → ∃ a c, x.recounts = some a ∧ p.heap.cell a = some c ∧ c.count = n

theorem HM.settle_eq {x : HM α γ} {h : Heap α} {a : Addr} {c : RcBox α} (hx : x.recounts = some a) (hc : h.cell a = some c) :
    x.settle c.count h = x.step h := by
  cases x with
  | incr b x =>
    cases hx
    simp only [settle, step, hc]
  | drop l x =>
    cases l with
    | nil => cases hx
    | cons b bs =>
      cases hx
      simp only [settle, step, Heap.release, hc, bind, Except.bind]
      by_cases h1 : c.count ≤ 1
      · rw [if_pos h1, if_pos h1]
        rfl
      · rw [if_neg h1, if_neg h1]
        rfl
  | _ => cases hx

theorem RcPool.step_flat {p : RcPool α γ} (hp : p.Fresh) {i : Nat} (h1 : ∀ j x, j ≠ i → p.threads[j]? = some x → ¬x.Midway) :
    (∀ q, p.step i = .ok q → q.Fresh) ∧ ∃ s, (p.step i).map RcPool.flat = p.flat.run s := by
  obtain ⟨ts, h⟩ := p
  dsimp only [Fresh] at hp h1
  cases e : ts[i]? with
  | none =>
    simp only [step, e]
    refine ⟨?_, [], rfl⟩
    rintro q ⟨⟩
    exact hp
  | some x =>
    have others : ∀ (j : Nat) (n : Nat) (y z), (ts.set i (.ready y))[j]? = some (.half n z) → False := by
      intro j n y z hj
      by_cases hij : j = i
      · subst hij
        rw [List.getElem?_set_self (by exact (List.getElem?_eq_some_iff.1 e).1)] at hj
        cases hj
      · rw [List.getElem?_set_ne (Ne.symm hij)] at hj
        exact h1 j _ hij hj trivial
    have go : ∀ (y : HM α γ), x.flat = y →
        ((y.step h >>= fun r => (.ok ⟨ts.set i (.ready r.1), r.2⟩ : M (RcPool α γ))).map RcPool.flat) = (RcPool.flat ⟨ts, h⟩).run [i] := by
      intro y ey
      have e' : (ts.map RcThread.flat)[i]? = some y := by rw [List.getElem?_map, e, ← ey]; rfl
      simp only [flat, Pool.run, Pool.step, e', bind, Except.bind]
      cases y.step h with
      | error f => rfl
      | ok r => simp only [Except.map, flat, List.map_set, RcThread.flat]
    cases x with
    | ready x =>
      cases hr : x.recounts with
      | none =>
        simp only [step, e, RcThread.step, hr, bind, Except.bind]
        refine ⟨?_, [i], ?_⟩
        · intro q hq
          cases hs : x.step h with
          | error f => rw [hs] at hq; cases hq
          | ok r =>
            rw [hs] at hq
            cases hq
            intro j n z hj
            exact (others j n _ z hj).elim
        · rw [← go x rfl]
          cases x.step h <;> rfl
      | some a =>
        simp only [step, e, RcThread.step, hr, bind, Except.bind]
        cases hc : h.cell a with
        | none =>
          refine ⟨?_, [i], ?_⟩
          · rintro q ⟨⟩
          · rw [← go x rfl]
            have : x.step h = .error .ub := by
              cases x with
              | incr b x => cases hr; simp only [HM.step, hc]
              | drop l x =>
                cases l with
                | nil => cases hr
                | cons b bs => cases hr; simp only [HM.step, Heap.release, hc, bind, Except.bind]
              | _ => cases hr
            rw [this]
            rfl
        | some c =>
          dsimp only
          refine ⟨?_, [], ?_⟩
          · rintro q ⟨⟩
            intro j n z hj
            dsimp only at hj ⊢
            by_cases hij : j = i
            · subst hij
              rw [List.getElem?_set_self (by exact (List.getElem?_eq_some_iff.1 e).1)] at hj
              cases hj
              exact ⟨a, c, hr, hc, rfl⟩
            · rw [List.getElem?_set_ne (Ne.symm hij)] at hj
              exact (h1 j _ hij hj trivial).elim
          · simp only [Except.map, flat, Pool.run, List.map_set, RcThread.flat]
            congr 2
            refine List.ext_getElem? fun j => ?_
            by_cases hij : j = i
            · subst hij
              rw [List.getElem?_set_self (by simpa using (List.getElem?_eq_some_iff.1 e).1), List.getElem?_map, e]
              rfl
            · rw [List.getElem?_set_ne (Ne.symm hij)]
    | half n x =>
      obtain ⟨a, c, hr, hc, rfl⟩ := hp i n x e
      simp only [step, e, RcThread.step, HM.settle_eq hr hc, bind, Except.bind]
      refine ⟨?_, [i], ?_⟩
      · intro q hq
        cases hs : x.step h with
        | error f => rw [hs] at hq; cases hq
        | ok r =>
          rw [hs] at hq
          cases hq
          intro j n z hj
          exact (others j n _ z hj).elim
      · rw [← go x rfl]
        cases x.step h <;> rfl

theorem Pool.run_append {p : Pool α γ} (s t : List Nat) : p.run (s ++ t) = p.run s >>= fun q => q.run t := by
  induction s generalizing p with
  | nil => rfl
  | cons i s ih =>
    simp only [List.cons_append, run, bind, Except.bind]
    cases p.step i with
    | error e => rfl
    | ok q => exact ih

theorem RcPool.run_flat (schedule : List Nat) {p : RcPool α γ} (hp : p.Fresh) (ho : p.Orderly schedule) :
    ∃ s, (p.run schedule).map RcPool.flat = p.flat.run s := by
  induction schedule generalizing p with
  | nil => exact ⟨[], rfl⟩
  | cons i is ih =>
    obtain ⟨h1, s, h2⟩ := step_flat hp ho.1
    simp only [run, bind, Except.bind]
    cases e : p.step i with
    | error f =>
      rw [e] at h2
      exact ⟨s, h2⟩
    | ok q =>
      obtain ⟨t, h3⟩ := ih (h1 q e) (ho.2 q e)
      refine ⟨s ++ t, ?_⟩
      rw [e] at h2
      rw [Pool.run_append, ← h2]
      exact h3

end Librrb
