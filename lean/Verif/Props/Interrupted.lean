import Verif.Proof.Interrupted
import Verif.Proof.CloneUnwindCut
import Verif.Props.CloneUnwindCut

/-! # Going on after a panic of an item's `Clone`

The property theorems of C59. -/
namespace Librrb
open RVec

/-- C59: whatever calls a program makes, whichever leaves are cloned on the way, and whenever the clone of an item panics and the
panic is caught, no call reads a slot that holds no item, writes over one that holds one, or drops an item twice; also not
later, when the program goes on with what the panics have left of its vectors, drops it, joins it with others or cuts it. This is so
for any number of steps (`cp.more`) that recursions and loops take. -/
theorem C59_no_ub (cp : Copier γ α) (g : γ) (calls : List (Attempt α)) : Safe (Attempt.run cp calls (fun _ => RVec.new) g) :=
  (Attempt.run_tidy calls (fun _ => .new) g).safe

/-- A copier that lets the clones of the given numbers panic. -/
def atTimes (ks : List Nat) : Copier Nat Nat where
  ask n _ := (ks.contains n, n + 1)

/-- What is seen of some of the vectors at the end: `len`, the lengths of the spines, and the number of items. -/
def seen (m : M (Vars Nat × Nat)) (names : List Nat) : M (List (Nat × Nat × Nat × Nat)) := do
  let r ← m
  .ok (names.map fun i => ((r.1 i).len, (r.1 i).left.length, (r.1 i).right.length, (r.1 i).toList.length))

/-- Pushing the first numbers. -/
def fill (i n : Nat) : List (Attempt Nat) := (List.range n).map fun x => .push i .back x

/-- Of a vector of 100 items that is cut at 70, 50 are left when the first clone panics; `len` is 100, and one spine is shorter
than the other. -/
example : seen (Attempt.run (atTimes [136]) (fill 0 100 ++ [.splitOff 0 70 1]) (fun _ => .new) 0) [0, 1] =
    .ok [(100, 1, 0, 50), (0, 0, 0, 0)] := by
  decide +kernel

/-- It can be dropped. -/
example : seen (Attempt.run (atTimes [136]) (fill 0 100 ++ [.splitOff 0 70 1, .drop 0, .push 0 .back 3]) (fun _ => .new) 0) [0] =
    .ok [(1, 0, 0, 1)] := by
  decide +kernel

/-- To push to it panics, and so does reading. -/
example : [Attempt.push 0 .back 3, .get 0 60].map (fun c =>
      seen (Attempt.run (atTimes [136]) (fill 0 100 ++ [.splitOff 0 70 1, c]) (fun _ => .new) 0) [0]) =
    [.error .panic, .error .panic] := by
  decide +kernel

/-- Cut at 20 instead, an iterator finds items at both ends of what is left. -/
example :
    seen (Attempt.run (atTimes [136]) (fill 0 100 ++ [.splitOff 0 20 1, .iter 0 [.front, .back, .back]]) (fun _ => .new) 0) [0] =
      .ok [(100, 0, 1, 50)] := by
  decide +kernel

/-- C59: if no clone panics, what the calls that join vectors do is what they do otherwise. -/
theorem C59_quiet {v other : RVec α} {l m : List α} (b : Built v) (bo : Built other) (h : Shows v l) (ho : Shows other m)
    (cp : Copier γ α) (hq : ∀ g l, (cp g l).1 = false) (g : γ) (hlt : l.length + m.length < USIZE_LIMIT) (k : Nat) (x : α)
    (hl : l.length + 1 < USIZE_LIMIT) :
    (∃ v' g', v.appendB cp other g = (.ok v', g') ∧ Shows v' (l ++ m)) ∧
    (∃ v' g', v.insertB cp k x g = (.ok v', g') ∧ Shows v' (l.take k ++ x :: l.drop k)) ∧
    (∃ v' g', v.removeB cp k g = (.ok (l[k]?, v'), g') ∧ Shows v' (l.eraseIdx k)) := by
  have no : ¬ ∃ g l, (cp g l).1 = true := by
    rintro ⟨g, l, e⟩
    rw [hq] at e
    cases e
  refine ⟨?_, ?_, ?_⟩
  · obtain ⟨v', e, -, s⟩ := C09_append b bo h ho hlt
    rcases (appendB_any (cp := cp) v other).out e g with ⟨g', r⟩ | ⟨_, _, _, _, f⟩
    · exact ⟨v', g', r, s⟩
    · exact absurd f no
  · obtain ⟨v', e, -, s⟩ := C15_insert b h k x hl
    rcases (insertB_any (cp := cp) v k x).out e g with ⟨g', r⟩ | ⟨_, _, _, _, f⟩
    · exact ⟨v', g', r, s⟩
    · exact absurd f no
  · obtain ⟨v', e, -, s⟩ := C16_remove b h k
    rcases (removeB_any (cp := cp) v k).out e g with ⟨g', r⟩ | ⟨_, _, _, _, f⟩
    · exact ⟨v', g', r, s⟩
    · exact absurd f no

/-- C59: nor do the further steps change what reading, iterating and foci do. -/
theorem C59_quiet_reads {v : RVec α} {l : List α} (h : Shows v l) (more : Nat) :
    (∀ i, v.getMore more i = .ok l[i]?) ∧
    (∀ f, Focus.new v = .ok f → Focus.newMore more v = .ok f) ∧
    (∀ it, VIter.new v = .ok it → VIter.newMore more v = .ok it) ∧
    (∀ s (it : VIter α) r, VIter.step s it = .ok r → VIter.stepMore more s it = .ok r) ∧
    (∀ (f : Focus α) i r, f.get i = .ok r → f.getMore more i = .ok r) ∧
    (∀ (f : Focus α) s e r, f.narrow s e = .ok r → f.narrowMore more s e = .ok r) ∧
    (∀ (f : Focus α) i r, f.splitAt i = .ok r → f.splitAtMore more i = .ok r) :=
  ⟨fun i => (get_more v more i).returns (h.2 i), fun _ e => (Focus.narrowedTree_more more v _ _).returns e,
    fun _ e => (Leq.bind (Focus.narrowedTree_more more v _ _) fun _ _ => .refl _).returns e,
    fun s it _ e => (VIter.step_more more s it).returns e, fun f i _ e => (Focus.get_more more f i).returns e,
    fun f s t _ e => (Focus.narrow_more more f s t).returns e, fun f i _ e => (Focus.splitAt_more more f i).returns e⟩

/-- A copier that counts: joining two vectors of 40 items may clone six leaves, and nothing panics. -/
example : ((fromIter (List.range 40)).bind fun v => .ok ((v.appendB ⟨fun n _ => (false, n + 1), 0⟩ v 0).2,
      (Stop.left (v.appendB ⟨fun n _ => (false, n + 1), 0⟩ v 0)).isNone)) = (.ok (6, true) : M (Nat × Bool)) := by
  decide +kernel

end Librrb
