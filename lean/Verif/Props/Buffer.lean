import Verif.Proof.CircularIter

/-!
# Properties of the node buffer (`src/circular.rs`)

A buffer is reached by running operations on two buffers that start empty; two, so that items can
be moved between them.
-/
namespace Librrb

/-- Calls on a pair of buffers. All but `swap` act on the first one. -/
inductive BufOp (α : Type)
  | tryPush (s : Side) (x : α)
  | tryPop (s : Side)
  | get (i : Nat)
  | write (i : Nat) (x : α)
  | last
  | isFull
  | isEmpty
  | freeSpace
  | pairWrite (i j : Nat) (x y : α)
  | decant (s : Side) (n : Nat)
  | clone
  | swap

/-- What a call answers. -/
inductive BufOut (α : Type)
  | unit
  | flag (b : Bool)
  | item (o : Option α)
  | number (n : Nat)
  deriving DecidableEq

/-- `try_push_back` or `try_push_front`; the flag says whether there was room. -/
def CB.tryPush (s : Side) (x : α) (b : CB α) : M (Option (CB α)) :=
  match s with
  | .back => b.tryPushBack x
  | .front => b.tryPushFront x

/-- One call on the code's buffers. -/
def BufOp.run : BufOp α → CB α × CB α → M (BufOut α × CB α × CB α)
  | tryPush s x, (a, b) => do
    let r ← a.tryPush s x
    .ok (.flag r.isSome, r.getD a, b)
  | tryPop s, (a, b) => do
    let r ← a.tryPop s
    .ok (.item (r.map Prod.fst), (r.map Prod.snd).getD a, b)
  | get i, (a, b) => do
    let r ← a.get i
    .ok (.item r, a, b)
  | write i x, (a, b) => do
    let r ← a.set i x
    .ok (.flag r.isSome, r.getD a, b)
  | last, (a, b) => do
    let r ← a.back
    .ok (.item r, a, b)
  | isFull, (a, b) => .ok (.flag a.isFull, a, b)
  | isEmpty, (a, b) => .ok (.flag a.isEmpty, a, b)
  | freeSpace, (a, b) => do
    let r ← a.freeSpace
    .ok (.number r, a, b)
  | pairWrite i j x y, (a, b) => do
    let r ← a.pairMut i j
    let d ← assignSlot a.data r.1 x
    let d ← assignSlot d r.2 y
    .ok (.unit, { a with data := d }, b)
  | decant s n, (a, b) => do
    let r ← a.decantInto b s n
    .ok (.number r.1, r.2.1, r.2.2)
  | clone, (a, b) => do
    let r ← a.clone
    .ok (.unit, r.1, b)
  | swap, (a, b) => .ok (.unit, b, a)

/-- The same call on sequences of at most 64 items. -/
def BufOp.spec : BufOp α → List α × List α → M (BufOut α × List α × List α)
  | tryPush .back x, (a, b) => .ok (if a.length < 64 then (.flag true, a ++ [x], b) else (.flag false, a, b))
  | tryPush .front x, (a, b) => .ok (if a.length < 64 then (.flag true, x :: a, b) else (.flag false, a, b))
  | tryPop .back, (a, b) => .ok (.item a.getLast?, a.dropLast, b)
  | tryPop .front, (a, b) => .ok (.item a.head?, a.tail, b)
  | get i, (a, b) => .ok (.item a[i]?, a, b)
  | write i x, (a, b) => .ok (.flag (decide (i < a.length)), a.set i x, b)
  | last, (a, b) => .ok (.item a.getLast?, a, b)
  | isFull, (a, b) => .ok (.flag (decide (a.length = 64)), a, b)
  | isEmpty, (a, b) => .ok (.flag (decide (a.length = 0)), a, b)
  | freeSpace, (a, b) => .ok (.number (64 - a.length), a, b)
  | pairWrite i j x y, (a, b) =>
    if i ≠ j ∧ i < a.length ∧ j < a.length then .ok (.unit, (a.set i x).set j y, b) else .error .panic
  | decant .front n, (a, b) =>
    let k := min (min n a.length) (64 - b.length)
    .ok (.number k, a.drop k, b ++ a.take k)
  | decant .back n, (a, b) =>
    let k := min (min n a.length) (64 - b.length)
    .ok (.number k, a.take (a.length - k), a.drop (a.length - k) ++ b)
  | clone, (a, b) => .ok (.unit, a, b)
  | swap, (a, b) => .ok (.unit, b, a)

/-- The two buffers hold the two sequences. -/
def Holds2 (p : CB α × CB α) (q : List α × List α) : Prop := CB.Rep p.1 q.1 ∧ CB.Rep p.2 q.2

theorem BufOp.run_ok (o : BufOp α) {p : CB α × CB α} {q : List α × List α} (h : Holds2 p q) :
    (∃ out p' q', o.run p = .ok (out, p') ∧ o.spec q = .ok (out, q') ∧ Holds2 p' q') ∨
    (o.run p = .error .panic ∧ o.spec q = .error .panic) := by
  obtain ⟨a, b⟩ := p
  obtain ⟨l, m⟩ := q
  obtain ⟨h, h2⟩ := h
  simp only at h h2
  cases o with
  | tryPush s x =>
    left
    have hle := h.le
    cases s with
    | back =>
      by_cases hl : l.length < 64
      · obtain ⟨b', e, r⟩ := CB.tryPushBack_ok h x hl
        exact ⟨.flag true, (b', b), (l ++ [x], m), by simp [run, CB.tryPush, e], by simp [spec, hl], r, h2⟩
      · have e := CB.tryPushBack_full h x (by omega)
        exact ⟨.flag false, (a, b), (l, m), by simp [run, CB.tryPush, e], by simp [spec, hl], h, h2⟩
    | front =>
      by_cases hl : l.length < 64
      · obtain ⟨b', e, r⟩ := CB.tryPushFront_ok h x hl
        exact ⟨.flag true, (b', b), (x :: l, m), by simp [run, CB.tryPush, e], by simp [spec, hl], r, h2⟩
      · have e := CB.tryPushFront_full h x (by omega)
        exact ⟨.flag false, (a, b), (l, m), by simp [run, CB.tryPush, e], by simp [spec, hl], h, h2⟩
  | tryPop s =>
    left
    by_cases hn : l = []
    · subst hn
      have e := CB.tryPop_empty h s
      refine ⟨.item none, (a, b), ([], m), by simp [run, e], ?_, h, h2⟩
      cases s <;> simp [spec]
    · obtain ⟨x, l', rfl⟩ := s.exists_cons hn
      obtain ⟨b', e, r⟩ := CB.tryPop_ok h
      refine ⟨.item (some x), (b', b), (l', m), by simp [run, e], ?_, r, h2⟩
      cases s <;> simp [spec, Side.cons]
  | get i => exact .inl ⟨_, (a, b), (l, m), by simp [run, CB.get_ok h], rfl, h, h2⟩
  | write i x =>
    left
    by_cases hi : i < l.length
    · obtain ⟨b', e, r⟩ := CB.set_ok h hi x
      exact ⟨.flag true, (b', b), (l.set i x, m), by simp [run, e], by simp [spec, hi], r, h2⟩
    · have e := CB.set_none h (i := i) (by omega) x
      refine ⟨.flag false, (a, b), (l, m), by simp [run, e], ?_, h, h2⟩
      simp [spec, hi, List.set_eq_of_length_le (show l.length ≤ i by omega)]
  | last => exact .inl ⟨_, (a, b), (l, m), by simp [run, CB.back_ok h], rfl, h, h2⟩
  | isFull => exact .inl ⟨_, (a, b), (l, m), by simp only [run, CB.isFull_eq h], rfl, h, h2⟩
  | isEmpty =>
    refine .inl ⟨.flag l.isEmpty, (a, b), (l, m), by simp only [run, CB.isEmpty_eq h], ?_, h, h2⟩
    cases l <;> simp [spec]
  | freeSpace => exact .inl ⟨_, (a, b), (l, m), by simp [run, CB.freeSpace_ok h], rfl, h, h2⟩
  | pairWrite i j x y =>
    by_cases hc : i ≠ j ∧ i < l.length ∧ j < l.length
    · left
      obtain ⟨hij, hi, hj⟩ := hc
      obtain ⟨d, e1, r1⟩ := CB.assignSlot_ok h hi x
      obtain ⟨d', e2, r2⟩ := CB.assignSlot_ok r1 (i := j) (by simpa using hj) y
      simp only [CB.indexFor] at e1 e2
      exact ⟨.unit, ({ a with data := d' }, b), ((l.set i x).set j y, m),
        by simp [run, CB.pairMut_ok h hij hi hj, CB.indexFor, e1, e2],
        by simp [spec, hij, hi, hj], r2, h2⟩
    · right
      constructor
      · have hlen := h.len_eq
        simp only [run, CB.pairMut, massert, hlen]
        by_cases h1 : i = j
        · simp [h1]
        · by_cases h2 : i < l.length
          · have h3 : ¬ j < l.length := fun h3 => hc ⟨h1, h2, h3⟩
            simp [h1, h2, h3]
          · simp [h1, h2]
      · simp only [spec, if_neg hc]
  | decant s n =>
    left
    obtain ⟨moved, rest, b', d', hl, hk, e, r1, r2⟩ := CB.decantInto_ok h h2 s n
    refine ⟨.number moved.length, (b', d'), (rest, s.negate.add moved m), by simp [run, e], ?_, r1, r2⟩
    subst hl
    cases s with
    | front =>
      simp only [Side.add] at hk ⊢
      simp only [spec, ← hk]
      simp [Side.negate]
    | back =>
      simp only [Side.add] at hk ⊢
      simp only [spec, ← hk]
      simp [Side.negate]
  | clone =>
    obtain ⟨k, e⟩ := CB.clone_ok h
    exact .inl ⟨.unit, (a, b), (l, m), by simp [run, e], rfl, h, h2⟩
  | swap => exact .inl ⟨.unit, (b, a), (m, l), rfl, rfl, h2, h⟩

/-- The buffers that calls can produce. -/
def BufBuilt (b : CB α) : Prop :=
  ∃ os outs c, runAll BufOp.run os (CB.new, CB.new) = .ok (outs, b, c)

theorem BufBuilt.rep {b : CB α} (h : BufBuilt b) : ∃ l, CB.Rep b l := by
  obtain ⟨os, outs, c, e⟩ := h
  rcases runAll_ok Holds2 (fun o _ _ => BufOp.run_ok o) os (p := (CB.new, CB.new)) (q := ([], []))
    ⟨CB.rep_new, CB.rep_new⟩ with ⟨outs', p', q', e1, -, h'⟩ | ⟨e1, -⟩
  · rw [e] at e1
    injection e1 with e1
    injection e1 with _ e1
    subst e1
    exact ⟨q'.1, h'.1⟩
  · rw [e] at e1; cases e1

/-- What a buffer presents through `len` and `get`. -/
def BufShows (b : CB α) (l : List α) : Prop := b.len = l.length ∧ ∀ i, b.get i = .ok l[i]?

theorem bufShows_iff {b : CB α} {l l' : List α} (h : CB.Rep b l) : BufShows b l' ↔ l = l' := by
  constructor
  · rintro ⟨-, hs⟩
    apply List.ext_getElem?
    intro i
    have := (CB.get_ok h i).symm.trans (hs i)
    injection this
  · rintro rfl
    exact ⟨h.len_eq, CB.get_ok h⟩

theorem BufBuilt.rep_of {b : CB α} (h : BufBuilt b) {l : List α} (hs : BufShows b l) : CB.Rep b l := by
  obtain ⟨l', r⟩ := h.rep
  rw [bufShows_iff r] at hs
  exact hs ▸ r

/-! ### C20 -/

/-- C20: whatever calls are made on a pair of fresh buffers, answers and final contents are those
of the same calls on a pair of sequences bounded by 64; the only failure is the documented panic of
`pair_mut`, and it happens exactly when the sequence version refuses. -/
theorem C20_deque (os : List (BufOp α)) :
    (∃ outs a b l m, runAll BufOp.run os (CB.new, CB.new) = .ok (outs, a, b) ∧
      runAll BufOp.spec os ([], []) = .ok (outs, l, m) ∧ BufShows a l ∧ BufShows b m ∧
      l.length ≤ 64 ∧ m.length ≤ 64) ∨
    (runAll BufOp.run os (CB.new, CB.new) = .error .panic ∧
      runAll BufOp.spec os ([], []) = .error .panic) := by
  rcases runAll_ok Holds2 (fun o _ _ => BufOp.run_ok o) os (p := (CB.new, CB.new)) (q := ([], []))
    ⟨CB.rep_new, CB.rep_new⟩ with ⟨outs, ⟨a, b⟩, ⟨l, m⟩, e1, e2, h1, h2⟩ | h
  · exact .inl ⟨outs, a, b, l, m, e1, e2, (bufShows_iff h1).2 rfl, (bufShows_iff h2).2 rfl, h1.le, h2.le⟩
  · exact .inr h

/-- C20, the panicking forms: `push_*` on a full buffer and `pop_*` on an empty one panic, and
otherwise they do what the `try_` forms do. -/
theorem C20_push_pop {b : CB α} {l : List α} (h : BufBuilt b) (hs : BufShows b l) (s : Side) (x : α) :
    (l.length = 64 → b.push s x = .error .panic) ∧
    (l.length < 64 → ∃ b', b.push s x = .ok b' ∧
      BufShows b' (match s with | .back => l ++ [x] | .front => x :: l)) ∧
    (l = [] → b.pop s = .error .panic) ∧
    (l ≠ [] → ∃ y b', b.pop s = .ok (y, b') ∧ (takeEnd s l).1 = some y ∧ BufShows b' (takeEnd s l).2) := by
  have r := h.rep_of hs
  refine ⟨CB.push_full r s x, fun hl => ?_, ?_, fun hn => ?_⟩
  · obtain ⟨b', e, r'⟩ := CB.push_ok r s x hl
    refine ⟨b', e, (bufShows_iff r').2 ?_⟩
    cases s <;> rfl
  · rintro rfl; exact CB.pop_empty r s
  · obtain ⟨y, l', rfl⟩ := s.exists_cons hn
    obtain ⟨b', e, r'⟩ := CB.pop_ok r
    rw [takeEnd_cons]
    exact ⟨y, b', e, rfl, (bufShows_iff r').2 rfl⟩

/-- A history for the examples: a full buffer whose ring starts in the middle, then 30 items are
moved to the other one. -/
def bufHistory : List (BufOp Nat) :=
  (List.range 30).map (.tryPush .front) ++ (List.range 40).map (.tryPush .back) ++
    [.decant .back 30, .tryPop .front, .write 3 77, .pairWrite 1 2 5 6]

example : (runAll BufOp.run bufHistory (CB.new, CB.new)).map (fun r => (r.2.1.len, r.2.1.front, r.2.2.len)) =
    .ok (33, 35, 30) := by decide +kernel

/-- The buffer of that history. -/
theorem bufSample : ∃ (b : CB Nat) (l : List Nat), BufBuilt b ∧ BufShows b l ∧ l.length = 33 := by
  rcases C20_deque bufHistory with ⟨outs, a, b, l, m, e, -, s, -⟩ | ⟨e, -⟩
  · refine ⟨a, l, ⟨bufHistory, outs, b, e⟩, s, ?_⟩
    have h : (runAll BufOp.run bufHistory (CB.new, CB.new)).map (fun r => r.2.1.len) = .ok 33 := by
      decide +kernel
    have h' := map_ok_eq (f := fun r : List (BufOut Nat) × CB Nat × CB Nat => r.2.1.len) h e
    exact s.1.symm.trans h'
  · have h : (runAll BufOp.run bufHistory (CB.new, CB.new)).map (fun r => r.2.1.len) = .ok 33 := by
      decide +kernel
    rw [e] at h; cases h

example : ∃ (b : CB Nat) (l : List Nat), BufBuilt b ∧ BufShows b l ∧ l.length = 33 ∧
    ∃ y b', b.pop .front = .ok (y, b') ∧ (takeEnd .front l).1 = some y := by
  obtain ⟨b, l, h, s, hl⟩ := bufSample
  obtain ⟨y, b', e, hy, -⟩ := (C20_push_pop h s .front 0).2.2.2 (by rintro rfl; simp at hl)
  exact ⟨b, l, h, s, hl, y, b', e, hy⟩

/-! ### C21 -/

/-- C21: cloning calls `clone` on every item exactly once and gives an equal buffer; dropping
drops every item exactly once and leaves no live slot behind. -/
theorem C21_clone_drop {b : CB α} {l : List α} (h : BufBuilt b) (hs : BufShows b l) :
    (∃ b' log, b.clone = .ok (b', log) ∧ log.Perm l ∧ BufShows b' l ∧ b' = b) ∧
    (∃ data log, b.drop = .ok (data, log) ∧ log.Perm l ∧ ∀ (i : Nat) (x : α), data[i]? ≠ some (some x)) := by
  have r := h.rep_of hs
  have hp : ∀ k, (l.drop k ++ l.take k).Perm l := fun k =>
    List.perm_append_comm.trans (by rw [List.take_append_drop])
  obtain ⟨k, e⟩ := CB.clone_ok r
  obtain ⟨k', data, e', hl, hd⟩ := CB.drop_ok r
  refine ⟨⟨b, _, e, hp k, hs, rfl⟩, data, _, e', hp k', fun i x => ?_⟩
  by_cases hi : i < 64
  · simp [hd i hi]
  · simp [List.getElem?_eq_none (show data.length ≤ i by omega)]

example : ∃ (b b' : CB Nat) (l log log' : List Nat) (data : List (Option Nat)), BufBuilt b ∧ BufShows b l ∧
    l.length = 33 ∧ b.clone = .ok (b', log) ∧ log.Perm l ∧ b.drop = .ok (data, log') ∧ log'.Perm l := by
  obtain ⟨b, l, h, s, hl⟩ := bufSample
  obtain ⟨⟨b', log, e, p, -⟩, data, log', e', p', -⟩ := C21_clone_drop h s
  exact ⟨b, b', l, log, log', data, h, s, hl, e, p, e', p'⟩

/-! ### C22 -/

/-- C22 for `Iter`: any interleaving of `next` and `next_back` answers as taking items off the two
ends of the sequence, and `size_hint` is the number of items left. -/
theorem C22_iter {b : CB α} {l : List α} (h : BufBuilt b) (hs : BufShows b l) (ss : List Side) :
    ∃ it, runScript (CB.Iter.step b) ss b.iter = .ok ((drain ss l).1, it) ∧
      it.sizeHint b = .ok (drain ss l).2.length := by
  have r := h.rep_of hs
  obtain ⟨it, e, hm⟩ := runScript_ok (step := CB.Iter.step b) (CB.Iter.Has b l)
    (fun s _ _ hm => CB.Iter.step_ok r s hm) ss (CB.iter_has r)
  refine ⟨it, e, ?_⟩
  obtain ⟨pre, post, hl, hc, -⟩ := hm
  have h1 := r.len_eq
  have h2 := congrArg List.length hl
  simp only [List.length_append] at h2
  rw [CB.Iter.sizeHint, usub_ok (by omega)]
  congr 1
  omega

/-- C22 for `IterMut`: the slots handed out are those of the items, in the order of the items,
pairwise distinct, whatever the interleaving; the slot of item `i` is the one that `get i` reads. -/
theorem C22_iter_mut {b : CB α} {l : List α} (h : BufBuilt b) (hs : BufShows b l) (ss : List Side) :
    ∃ slots : List Nat, slots.length = l.length ∧ slots.Nodup ∧
      (∀ i p, slots[i]? = some p → b.get i = (readSlot b.data p).map some) ∧
      ∃ it, runScript (CB.IterMut.step b) ss b.iterMut = .ok ((drain ss slots).1, it) := by
  have r := h.rep_of hs
  obtain ⟨it, e, -⟩ := runScript_ok (step := CB.IterMut.step b) (CB.IterMut.Has b)
    (fun s _ _ hm => CB.IterMut.step_ok r s hm) ss (CB.iterMut_has r)
  refine ⟨b.slots, by simp [CB.slots, r.len_eq], CB.slots_nodup r, fun i p hp => ?_, it, e⟩
  have hlen := r.len_eq
  simp only [CB.slots, List.getElem?_map, Option.map_eq_some_iff] at hp
  obtain ⟨a, ha, rfl⟩ := hp
  obtain ⟨hi, ha⟩ := List.getElem?_eq_some_iff.1 ha
  simp at hi ha
  subst ha
  rw [CB.get_ok r, CB.indexFor, r.read (by omega), List.getElem?_eq_getElem (by omega)]
  rfl

/-- What is missing for C22: `IntoIter` (used by nothing but the tests of the file). Going forwards
only, it yields the items in order, each once. The full claim is the same for any interleaving; it is
false, see `C22_into_iter_next_back`. -/
theorem C22_into_iter_partial {b : CB α} {l : List α} (h : BufBuilt b) (hs : BufShows b l) (n : Nat) :
    ∃ it, runScript CB.IntoIter.step (List.replicate n .front) b.intoIter =
      .ok ((drain (List.replicate n .front) l).1, it) := by
  have r := h.rep_of hs
  have : ∀ (n : Nat) (it : CB.IntoIter α) (m : List α), CB.IntoIter.Has l it m →
      ∃ it', runScript CB.IntoIter.step (List.replicate n .front) it =
        .ok ((drain (List.replicate n .front) m).1, it') := by
    intro n
    induction n with
    | zero => intro it m _; exact ⟨it, rfl⟩
    | succ n ih =>
      intro it m hm
      obtain ⟨it1, e1, h1⟩ := CB.IntoIter.next_ok hm
      obtain ⟨it2, e2⟩ := ih it1 m.tail h1
      refine ⟨it2, ?_⟩
      simp [List.replicate_succ, runScript, CB.IntoIter.step, drain, takeEnd, e1, e2]
  exact this n _ _ (CB.intoIter_has r)

/-- The buffer `[1, 2, 3]`. -/
def buf123 : CB Nat := ⟨0, 3, [some 1, some 2, some 3] ++ List.replicate 61 none⟩

/-- `IntoIter::next_back` yields the first item instead of the last, and asking twice reads an
empty slot. Dropping an iterator from which an item was taken drops that item's slot again. -/
theorem C22_into_iter_next_back :
    BufBuilt buf123 ∧ BufShows buf123 [1, 2, 3] ∧
    (buf123.intoIter.nextBack).map Prod.fst = .ok (some 1) ∧
    runScript CB.IntoIter.step [.back, .back] buf123.intoIter = .error .ub ∧
    (do let r ← buf123.intoIter.next; r.2.drop) = .error .ub := by
  have hb : runAll BufOp.run [.tryPush .back 1, .tryPush .back 2, .tryPush .back 3] (CB.new, CB.new) =
    .ok ([.flag true, .flag true, .flag true], buf123, (CB.new : CB Nat)) := by decide +kernel
  refine ⟨⟨_, _, _, hb⟩, ?_, by decide +kernel, by decide +kernel, by decide +kernel⟩
  rcases C20_deque [.tryPush .back 1, .tryPush .back 2, .tryPush .back 3] with ⟨outs, a, b, l, m, e, e', s, -⟩ | ⟨e, -⟩
  · rw [hb] at e
    injection e with e
    injection e with _ e
    injection e with e _
    subst e
    simp [runAll, BufOp.spec] at e'
    rw [← e'.2.1] at s
    exact s
  · rw [hb] at e; cases e

example : ∃ (b : CB Nat) (l : List Nat) (it : CB.Iter), BufBuilt b ∧ BufShows b l ∧ l.length = 33 ∧
    runScript (CB.Iter.step b) [.back, .front, .back] b.iter =
      .ok ([l.getLast?, l.dropLast.head?, l.dropLast.tail.getLast?], it) := by
  obtain ⟨b, l, h, s, hl⟩ := bufSample
  obtain ⟨it, e, -⟩ := C22_iter h s [.back, .front, .back]
  exact ⟨b, l, it, h, s, hl, e⟩

end Librrb
