import Verif.Proof.AnnotatedFlatSort
import Verif.Proof.AnnotatedHistory

/-!
# The pieces of a mutable focus of an annotated vector of at most 64 items
-/
namespace Librrb

/-- No operation makes the sum of all items exceed `usize`. -/
def SumsFit : List (TOp Nat) → List (List Nat) → Prop
  | [], _ => True
  | t :: ts, ls => ∀ a ls', t.spec ls = .ok (a, ls') → ls'.flatten.sum < USIZE_LIMIT ∧ SumsFit ts ls'

/-- Foci that stay out of the tree, and places that can be written to. -/
structure FociAt (Q : AVec → Prop) (V : FMut Cell → Prop) (P : Cell → Prop) : Prop extends Foci Q V P True where
  bare {f} : V f → f.Bare
  write {v u c x} : Q v → P c → v.erase.writeCell x c = .ok u → Built u → u.toList.sum < USIZE_LIMIT → ∃ v', v.writeCell x c = .ok v' ∧ Q v'

/-- The last focus to be dropped has the nodes `n`. -/
def EndsWith (n : List (BNode Cell)) (fs old : List (FMut Cell)) : Prop :=
  (old = [] ∧ ∃ f, fs = [f] ∧ f.nodes = n) ∨ ∃ g, old.getLast? = some g ∧ g.nodes = n

theorem FociAt.step {Q : AVec → Prop} {V : FMut Cell → Prop} {P : Cell → Prop} (L : FociAt Q V P) {v : AVec} {ls : List (List Nat)}
    {css : List (List Cell)} {fs old : List (FMut Cell)} {t : TOp Nat} (hq : Q v) (hv : ∀ f ∈ fs, V f) (ho : ∀ f ∈ old, V f)
    (hp : Pieces True fs ls css) (hns : ¬ ∃ k o l, t = .use k o ∧ ls[k]? = some l ∧ l.length ≤ o.index) {a : Option Nat} {v1 : RVec Nat}
    {fs1 : List (FMut Cell)} (e : t.run (v.erase, fs) = .ok (a, (v1, fs1))) (hb : Built v1) (hsum : v1.toList.sum < USIZE_LIMIT)
    {n : List (BNode Cell)} (hl : EndsWith n fs old) :
    ∃ v' old', t.runA (v, fs, old) = .ok (a, (v', fs1, old')) ∧ v'.erase = v1 ∧ Q v' ∧ (∀ f ∈ fs1, V f) ∧ (∀ f ∈ old', V f) ∧
      EndsWith n fs1 old' := by
  obtain ⟨p1, p2⟩ := hp
  suffices hex : ∃ v' old', t.runA (v, fs, old) = .ok (a, (v', fs1, old')) ∧ Q v' ∧ (∀ f ∈ fs1, V f) ∧ (∀ f ∈ old', V f) ∧
      EndsWith n fs1 old' by
    obtain ⟨v', old', er, h⟩ := hex
    have := TOp.runA_erase t _ _ er
    rw [e] at this
    cases this
    exact ⟨v', old', er, rfl, h⟩
  cases t with
  | use k o =>
    simp only [TOp.run, TOp.runA] at e ⊢
    cases hk : fs[k]? with
    | none =>
      rw [hk] at e
      cases e
      exact ⟨v, old, rfl, hq, hv, ho, hl⟩
    | some f =>
      rw [hk] at e
      dsimp only at e ⊢
      obtain ⟨r, e, er⟩ := RVec.bind_ok e
      obtain ⟨c, hck, ⟨hok, hfr⟩, -⟩ := forall₂_at p2 hk
      obtain ⟨l, hlk, hlen, -⟩ := forall₂_at p1 hck
      have hi : o.index < c.length := by
        rw [hlen]
        by_contra hn
        exact hns ⟨k, o, l, rfl, hlk, by omega⟩
      obtain ⟨f', e2, -, -, -, -, hn⟩ := FMut.get_at hok hi ((hfr trivial).not_stale _)
      have hidx : f.index o.index = .ok (c[o.index], f') := by rw [FMut.index, e2]; rfl
      have hvf := hv f (List.mem_of_getElem? hk)
      obtain ⟨hc, hf'⟩ := L.index hvf hidx
      unfold FOp.run at e
      rw [e2, ok_bind] at e
      obtain ⟨q, e3, e⟩ := RVec.bind_ok e
      cases e
      simp only [FOp.access] at e3
      obtain ⟨y, e4, e3⟩ := RVec.bind_ok e3
      have hset : ∀ g ∈ fs.set k f', V g := by
        intro g hg
        rcases List.mem_or_eq_of_mem_set hg with hg | rfl
        · exact hv g hg
        · exact hf'
      have hend : EndsWith n (fs.set k f') old := by
        rcases hl with ⟨h1, g, rfl, h3⟩ | hl
        · refine .inl ⟨h1, f', ?_, ?_⟩
          · cases k with
            | zero => rfl
            | succ k => simp at hk
          · cases k with
            | zero => cases hk; rw [hn, h3]
            | succ k => simp at hk
        · exact .inr hl
      have hg : v.focusGet f o.index = .ok (some c[o.index], v, f') := by
        unfold AVec.focusGet
        rw [(L.bare hvf).moveDrops]
        show (Except.ok v : M AVec) >>= _ = _
        rw [ok_bind, e2, ok_bind]
      simp only [FOp.runA, hg, ok_bind, FOp.accessA, e4]
      cases o with
      | read i =>
        cases e3
        cases er
        exact ⟨v, old, rfl, hq, hset, ho, hend⟩
      | write i x =>
        obtain ⟨u, e5, e3⟩ := RVec.bind_ok e3
        cases e3
        cases er
        obtain ⟨v', e6, hq'⟩ := L.write hq hc e5 hb hsum
        simp only [e6, ok_bind]
        exact ⟨v', old, rfl, hq', hset, ho, hend⟩
  | split k i =>
    simp only [TOp.run, TOp.runA] at e ⊢
    cases hk : fs[k]? with
    | none =>
      rw [hk] at e
      cases e
      exact ⟨v, old, rfl, hq, hv, ho, hl⟩
    | some f =>
      rw [hk] at e
      dsimp only at e ⊢
      obtain ⟨⟨f1, f2⟩, e', er⟩ := RVec.bind_ok e
      cases er
      have hvf := hv f (List.mem_of_getElem? hk)
      obtain ⟨⟨v', _⟩, e1, h1, h2, h3, h4, h5⟩ := (L.focusSplit hq hvf i).2 trivial _ e'
      dsimp only at h1 h2 h3 h4 h5
      subst h1
      rw [e1, ok_bind]
      refine ⟨v', f :: old, rfl, h3, ?_, ?_, .inr ?_⟩
      · intro g hg
        simp only [List.mem_append, List.mem_cons] at hg
        rcases hg with hg | rfl | rfl | hg
        · exact hv g (List.mem_of_mem_take hg)
        · exact h4
        · exact h5
        · exact hv g (List.mem_of_mem_drop hg)
      · intro g hg
        rcases List.mem_cons.1 hg with rfl | hg
        · exact hvf
        · exact ho g hg
      · rcases hl with ⟨rfl, g, rfl, h3⟩ | ⟨g, hg, h3⟩
        · cases k with
          | zero => cases hk; exact ⟨f, rfl, h3⟩
          | succ k => simp at hk
        · exact ⟨g, by rw [List.getLast?_cons, hg]; rfl, h3⟩

theorem FociAt.all {Q : AVec → Prop} {V : FMut Cell → Prop} {P : Cell → Prop} (L : FociAt Q V P) {n : List (BNode Cell)} :
    ∀ (ts : List (TOp Nat)) {v : AVec} {ls ls' : List (List Nat)} {css : List (List Cell)} {fs old : List (FMut Cell)} {as : List (Option Nat)},
    Q v → Built v.erase → Shows v.erase ls.flatten → v.erase.cells.toList = css.flatten → Pieces True fs ls css → (∀ f ∈ fs, V f) →
    (∀ f ∈ old, V f) → EndsWith n fs old → ¬ strays ts ls → SumsFit ts ls → runAll TOp.spec ts ls = .ok (as, ls') →
    ∃ v' fs' old', runAll TOp.runA ts (v, fs, old) = .ok (as, (v', fs', old')) ∧ Q v' ∧ (∀ f ∈ fs', V f) ∧ (∀ f ∈ old', V f) ∧
      EndsWith n fs' old'
  | [], v, ls, ls', css, fs, old, as, hq, b, s, hc, hp, hv, ho, hl, hns, hsf, e => by
    cases e
    exact ⟨v, fs, old, rfl, hq, hv, ho, hl⟩
  | t :: ts, v, ls, ls', css, fs, old, as, hq, b, s, hc, hp, hv, ho, hl, hns, hsf, e => by
    rw [runAll] at e
    obtain ⟨⟨a, ls1⟩, e1, e⟩ := RVec.bind_ok e
    obtain ⟨⟨bs, ls2⟩, e2, e⟩ := RVec.bind_ok e
    cases e
    have hno : ¬ ∃ k o l, t = .use k o ∧ ls[k]? = some l ∧ l.length ≤ o.index := fun h => hns (.inl h)
    rcases TOp.run_ok b s hc hp t with ⟨-, hx⟩ | ⟨a', ls1', css1, v1, fs1, e1', e3, b1, s1, c1, p1⟩
    · rcases hx with hx | hx
      · rw [e1] at hx; cases hx
      · exact (hx trivial).elim
    · rw [e1] at e1'
      cases e1'
      obtain ⟨hsum, hsf1⟩ := hsf _ _ e1
      have ht : v1.toList = ls1.flatten := by
        obtain ⟨k, i⟩ := b1.inv
        exact (RVec.shows_iff i).1 s1
      obtain ⟨v', old', e4, rfl, hq', hv', ho', hl'⟩ := L.step hq hv ho hp hno e3 b1 (by rw [ht]; exact hsum) hl
      have p1' : Pieces True fs1 ls1 css1 := ⟨p1.1, p1.2.imp fun _ _ h => ⟨h.1, fun _ => h.2 ⟨trivial, hno⟩⟩⟩
      obtain ⟨v2, fs2, old2, e5, h⟩ := FociAt.all L ts hq' b1 s1 c1 p1' hv' ho' hl' (fun h => hns (.inr ⟨a, ls1, e1, h⟩)) hsf1 e2
      refine ⟨v2, fs2, old2, ?_, h⟩
      rw [runAll, e4, ok_bind]
      dsimp only
      rw [e5]
      rfl

theorem FMut.Bare.pathNodes {f : FMut Cell} (h : f.Bare) : f.pathNodes = [] := by simp [FMut.pathNodes, h.1, h.2]

theorem dropFoci_bare : ∀ (fs : List (FMut Cell)) (g : FMut Cell) (v : AVec), (∀ f ∈ fs, f.Bare) →
    AVec.dropFoci (fs ++ [g]) v = v.dropBorrowed g.rootedNodes
  | [], g, v, _ => rfl
  | f :: fs, g, v, h => by
    have ih := dropFoci_bare fs g v fun f hf => h f (by simp [hf])
    cases hfs : fs ++ [g] with
    | nil => simp at hfs
    | cons x xs =>
      rw [hfs] at ih
      rw [List.cons_append, hfs]
      show (v.dropBorrowed f.pathNodes >>= fun v => AVec.dropFoci (x :: xs) v) = _
      rw [(h f (by simp)).pathNodes]
      show (Except.ok v >>= fun v => AVec.dropFoci (x :: xs) v) = _
      rw [ok_bind, ih]

theorem EndsWith.last {n : List (BNode Cell)} {fs old : List (FMut Cell)} (h : EndsWith n fs old) :
    ∃ gs g, fs ++ old = gs ++ [g] ∧ g.nodes = n := by
  rcases h with ⟨rfl, f, rfl, h⟩ | ⟨g, hg, h⟩
  · exact ⟨[], f, rfl, h⟩
  · obtain ⟨gs, rfl⟩ := List.getLast?_eq_some_iff.1 hg
    exact ⟨fs ++ gs, g, by simp, h⟩

/-- What a focus that is shared needs of a vector of at most one leaf. -/
theorem AVec.Flat.fociAt {v : AVec} {l : List Nat} (b : Built v.erase) (h : v.Flat l) (hs : SmallSeq l) :
    ∃ (Q : AVec → Prop) (V : FMut Cell → Prop) (P : Cell → Prop), FociAt Q V P ∧ Q v ∧
      ∀ f, v.erase.cells.focusMut = .ok f → V f ∧ ∀ v', Q v' → ∃ v'', v'.dropBorrowed f.rootedNodes = .ok v'' ∧ v''.Flat v''.erase.toList := by
  by_cases hl : l = []
  · subst hl
    refine ⟨_, _, _, { toFoci := AVec.foci_nil v, bare := ?_, write := ?_ }, rfl, fun f e => ?_⟩
    · rintro f rfl; exact ⟨rfl, rfl⟩
    · intro v u c x _ h; exact h.elim
    rw [h.focus_nil] at e
    cases e
    refine ⟨rfl, ?_⟩
    rintro v1 rfl
    exact ⟨_, rfl, h.self'⟩
  · have hone : ∀ c ∈ v.erase.cells.toList, c.2.length = 1 := fun c hc => (h.inv b).flat_place hc
    have L := fun {m : Nat} (hm : m < USIZE_LIMIT) => OneLeaf.foci v.erase.cells hm hone
    refine ⟨fun v' => ∃ m, m < USIZE_LIMIT ∧ OneLeaf v.erase.cells m v'.erase, OnLeaf v.erase.cells, fun c => ∃ j : Nat, v.erase.cells.toList[j]? = some c,
      { index := fun h e => h.index e
        split := fun h e => h.split e
        swap := fun ⟨m, hm, h⟩ hc hd e => ⟨m, hm, (L hm).swap h hc hd e⟩
        keep := fun ⟨m, hm, h⟩ hf hd e => ⟨m, hm, (L hm).keep h hf hd e⟩
        moves := fun t ⟨m, hm, h⟩ hf e => (L hm).moves t h hf e
        splits := fun t ⟨m, hm, h⟩ hf e => (L hm).splits t h hf e
        ends := fun t ⟨m, hm, h⟩ hf => (L hm).ends t h hf
        swaps := fun t ⟨m, hm, h⟩ hc hd e => (L hm).swaps t h hc hd e
        bare := fun h => h.bare
        write := ?_ }, ⟨_, hs.2, b, h.inv b, rfl, by rw [h.toList]⟩, fun f e => ?_⟩
    · rintro v1 u c x ⟨m, hm, h1⟩ ⟨j, hj⟩ e bu hsum
      obtain ⟨v', e'⟩ := AVec.writeCell_back (hone _ (List.mem_of_getElem? hj)) e
      have he := AVec.writeCell_erase _ x _ _ e'
      rw [e] at he
      cases he
      have hc : v'.erase.cells = v.erase.cells := by rw [RVec.writeCell_cells e, h1.cells]
      obtain ⟨k, i⟩ := bu.inv
      have := AVec.height_eq h1.inv i (by rw [hc, h1.cells])
      subst this
      exact ⟨v', e', _, hsum, bu, i, hc, rfl⟩
    · refine ⟨(OneLeaf.closes b h hs hl e hs.2).1, ?_⟩
      rintro v' ⟨m, hm, hv'⟩
      obtain ⟨h1, h2⟩ := (OneLeaf.closes b h hs hl e hm).2 v' hv'
      obtain ⟨v'', e1⟩ := h1 trivial
      exact ⟨v'', e1, h2 _ e1⟩

theorem AVec.Flat.shareFocus {v : AVec} {l : List Nat} (b : Built v.erase) (h : v.Flat l) (hs : SmallSeq l) {ops : List (TOp Nat)}
    (hns : ¬ strays ops [l]) (hsf : SumsFit ops [l]) {as : List (Option Nat)} {ls : List (List Nat)}
    (e : runAll TOp.spec ops [l] = .ok (as, ls)) :
    ∃ x v', (AAct.shareFocus ops).run v = .ok (x, v', []) ∧ v'.Flat v'.erase.toList := by
  obtain ⟨Q, V, P, L, hq, hw⟩ := h.fociAt b hs
  have s : Shows v.erase l := by rw [← h.toList]; exact b.shows
  obtain ⟨f, ef, p1, p2⟩ := focusMut_pieces b s
  obtain ⟨hv, hend⟩ := hw f ef
  obtain ⟨v', fs', old', er, hq', hv', ho', hl'⟩ := L.all (n := f.nodes) ops (v := v) (ls := [l]) (css := [v.erase.cells.toList]) (fs := [f]) (old := [])
    hq b (by simpa using s) (by simp) ⟨p1, p2⟩ (by simpa using hv) (by simp) (.inl ⟨rfl, f, rfl, rfl⟩) hns hsf e
  obtain ⟨gs, g, hg, hn⟩ := hl'.last
  have hall : ∀ x ∈ fs' ++ old', V x := by
    intro x hx
    rcases List.mem_append.1 hx with hx | hx
    · exact hv' x hx
    · exact ho' x hx
  obtain ⟨v'', ed, hf⟩ := hend v' hq'
  refine ⟨.items as, v'', ?_, hf⟩
  simp only [AAct.run, ef, er, ok_bind, hg]
  rw [dropFoci_bare gs g v' fun x hx => L.bare (hall x (by rw [hg]; simp [hx]))]
  rw [show g.rootedNodes = f.rootedNodes by
    rw [FMut.rootedNodes, FMut.rootedNodes, hn, (L.bare hv).pathNodes, (L.bare (hall g (by rw [hg]; simp))).pathNodes], ed, ok_bind]

end Librrb
