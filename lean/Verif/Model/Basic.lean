/-!
# Common vocabulary of the model

Panics, undefined behaviour and non-termination are values of type `Fault`; every modelled
function that may fail returns `M α`.
-/
namespace Librrb

/-- Why a modelled call does not return normally.
* `panic`: `unwrap`/`expect` on `None`, failed `assert!`, slice index out of bounds, `unreachable!`.
* `ub`: reading a `MaybeUninit` slot that holds nothing (undefined behaviour in Rust).
* `leak`: overwriting a live `MaybeUninit` slot, which would lose its item without dropping it.
* `overflow`: `usize` arithmetic leaving the range of `usize` (a panic in the debug profile).
* `diverge`: a loop used up its budget, that is, it would not stop. -/
inductive Fault where
  | panic | ub | leak | overflow | diverge
  deriving DecidableEq, Repr

/-- Result of a modelled call: a value or the reason why there is none. -/
abbrev M (α : Type u) : Type u := Except Fault α

/-- `src/lib.rs:54`: `const RRB_WIDTH: usize = 64`. -/
macro "RRB_WIDTH" : term => `((64 : Nat))

/-- One more than the largest `usize` on a 64-bit target. -/
macro "USIZE_LIMIT" : term => `((18446744073709551616 : Nat))

/-- `src/lib.rs:58-62`: the two sides of a sequence. -/
inductive Side where
  | front | back
  deriving DecidableEq, Repr

/-- `src/lib.rs:64-73`: `Side::negate`. -/
def Side.negate : Side → Side
  | .back => .front
  | .front => .back

/-- `Option::unwrap` / `Option::expect`: panics on `None`. -/
def unwrap : Option α → M α
  | some a => .ok a
  | none => .error .panic

/-- `assert!(c)`. -/
def massert (c : Bool) : M Unit := if c then .ok () else .error .panic

/-- `usize` subtraction `a - b` (debug profile: panics below zero). -/
def usub (a b : Nat) : M Nat := if b ≤ a then .ok (a - b) else .error .overflow

/-- `usize` addition `a + b` (debug profile: panics at `2^64`). -/
def uadd (a b : Nat) : M Nat := if a + b < USIZE_LIMIT then .ok (a + b) else .error .overflow

end Librrb
