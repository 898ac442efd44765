import Verif.Proof.Pieces

/-!
# C34: a mutable focus that is split again and again
-/
namespace Librrb
open RVec

/-- C34: while some pieces of a mutable focus are used, others may be split further, in any order. As long as indices are in
range, each piece reads and writes its own part of the sequence, whatever is done to the others in between, and in
the end the vector is what the pieces were left as, one after the other. -/
theorem C34_pieces {v : RVec α} {l : List α} (b : Built v) (h : Shows v l) (ops : List (TOp α)) {as : List (Option α)}
    {ls : List (List α)} (hs : runAll TOp.spec ops [l] = .ok (as, ls)) (hn : ¬ strays ops [l]) :
    ∃ f v' fs', v.cells.focusMut = .ok f ∧ runAll TOp.run ops (v, [f]) = .ok (as, (v', fs')) ∧ Built v' ∧ Shows v' ls.flatten := by
  obtain ⟨f, e1, o1, f1⟩ := focusMut_pieces b h
  rcases TOp.runAll_ok ops (ls := [l]) (tame := True) b (by simpa using h) (css := [v.cells.toList]) (by simp) ⟨o1, f1⟩ with
    ⟨e, hx⟩ | ⟨as', ls', v', fs', e3, e4, b', s'⟩
  · rcases hx with hx | hx | hx
    · rw [hs] at hx; cases hx
    · exact absurd trivial hx
    · exact absurd hx hn
  · rw [hs] at e3
    cases e3
    exact ⟨f, v', fs', e1, e4, b', s'⟩

/-- Three pieces of a vector with two levels, used in turns. -/
def turns : List (TOp Nat) :=
  [.split 0 100, .use 1 (.write 0 7), .use 0 (.write 99 8), .split 0 64, .use 1 (.read 35), .use 2 (.read 0), .use 0 (.write 63 9),
    .use 3 (.read 0), .use 2 (.write 99 1)]

example : (runAll TOp.spec turns [List.range 200]).map (fun r => (r.1, r.2.map List.length)) =
    .ok ([none, some 100, some 99, none, some 8, some 7, some 63, none, some 199], [64, 36, 100]) ∧
    ¬ strays turns [List.range 200] := by
  refine ⟨by decide +kernel, ?_⟩
  simp [turns, strays, TOp.spec, FOp.spec, FOp.index]

example : (do
      let v ← RVec.fromIter (List.range 200)
      let f ← v.cells.focusMut
      let r ← runAll TOp.run turns (v, [f])
      .ok (r.1, r.2.1.toList) : M _) =
    .ok ([none, some 100, some 99, none, some 8, some 7, some 63, none, some 199],
      (((List.range 200).set 100 7).set 99 8 |>.set 63 9).set 199 1) := by decide +kernel

end Librrb
