import Verif.Model.Circular

/-! # Model of `src/size_table.rs` -/
namespace Librrb

/-- `src/size_table.rs:12-15` `SizeTable { level, buffer }`. -/
structure SizeTable where
  level : Nat
  buffer : CB Nat
  deriving DecidableEq, Repr

namespace SizeTable

/-- `src/size_table.rs:19-24` `new`. -/
def new (level : Nat) : SizeTable := { level := level, buffer := CB.new }

/-- `src/size_table.rs:32-34` `cumulative_size`. -/
def cumulativeSize (t : SizeTable) : M Nat := do
  let b ← t.buffer.back
  .ok (b.getD 0)

/-- `src/size_table.rs:37-39` `get_cumulative_child_size`. -/
def getCumulativeChildSize (t : SizeTable) (idx : Nat) : M (Option Nat) := t.buffer.get idx

/-- `src/size_table.rs:42-50` `get_child_size`. -/
def getChildSize (t : SizeTable) (idx : Nat) : M (Option Nat) :=
  if idx == 0 then t.buffer.get 0
  else if idx < t.buffer.len then do
    let a ← unwrap (← t.buffer.get idx)
    let b ← unwrap (← t.buffer.get (idx - 1))
    let r ← usub a b
    .ok (some r)
  else .ok none

/-- `src/size_table.rs:53-63` `get_child_range`, as a pair of bounds. -/
def getChildRange (t : SizeTable) (idx : Nat) : M (Option (Nat × Nat)) :=
  if idx < t.buffer.len then
    if idx == 0 then do
      let a ← unwrap (← t.buffer.get 0)
      .ok (some (0, a))
    else do
      let a ← unwrap (← t.buffer.get (idx - 1))
      let b ← unwrap (← t.buffer.get idx)
      .ok (some (a, b))
  else .ok none

/-- `src/size_table.rs:69-74`, the loop of `position_info_for`; `n` bounds the number of steps
(the length of the buffer plus one for the final `None` of the iterator). -/
def positionLoop (t : SizeTable) (idx : Nat) : Nat → Nat → Nat → CB.Iter → M (Option (Nat × Nat))
  | 0, _, _, _ => .error .diverge
  | n + 1, i, last, it => do
    let r ← it.next t.buffer
    match r.1 with
    | none => .ok none
    | some sz =>
      if idx < sz then do
        let d ← usub idx last
        .ok (some (i, d))
      else positionLoop t idx n (i + 1) sz r.2

/-- `src/size_table.rs:67-76` `position_info_for`. -/
def positionInfoFor (t : SizeTable) (idx : Nat) : M (Option (Nat × Nat)) :=
  positionLoop t idx (t.buffer.len + 1) 0 0 t.buffer.iter

/-- `src/size_table.rs:119-135` `push_child`. -/
def pushChild (t : SizeTable) (side : Side) (size : Nat) : M SizeTable :=
  match side with
  | .back => do
    let last ← t.buffer.back
    match last with
    | some lastSize => do
      let b ← t.buffer.push side (lastSize + size)
      .ok { t with buffer := b }
    | none => do
      let b ← t.buffer.push side size
      .ok { t with buffer := b }
  | .front => do
    let b ← t.buffer.mapMut (fun item => .ok (item + size))
    let b ← b.pushFront size
    .ok { t with buffer := b }

/-- `src/size_table.rs:138-156` `pop_child`. -/
def popChild (t : SizeTable) (side : Side) : M (Nat × SizeTable) :=
  match side with
  | .back => do
    let r ← t.buffer.pop side
    let last ← r.2.back
    match last with
    | some lastSize => do
      let d ← usub r.1 lastSize
      .ok (d, { t with buffer := r.2 })
    | none => .ok (r.1, { t with buffer := r.2 })
  | .front => do
    let r ← t.buffer.popFront
    let b ← r.2.mapMut (fun item => usub item r.1)
    .ok (r.1, { t with buffer := b })

/-- `src/size_table.rs:159-161` `len`. -/
def len (t : SizeTable) : Nat := t.buffer.len

end SizeTable
end Librrb
