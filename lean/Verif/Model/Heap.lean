import Verif.Model.Vector

/-!
# Model of the sharing: nodes behind reference-counted pointers

In `Verif/Model/Node.lean` and `Verif/Model/Vector.lean` an entry *is* the node it points to. Here an
entry (`SharedPointerEntry`, `src/node_impls/basic.rs:7-81`) is an address, nodes live in a heap with
their reference counts, and `load_mut` (`SharedPointer::make_mut`) writes in place when the count is one
and makes a copy otherwise. The bodies of the nodes run the same code as in `Verif/Model/Node.lean`; here
it is written for children of any type.

Simplifications. `SizeTable`s are values (the code keeps them behind a `SharedPointer` of their own and
reads them with `deref` and writes them with `make_mut` only). Cloning a leaf copies its items. An
address is not used again after its node is freed. A body borrowed through `load_mut` is taken out of the heap and written back, so that no address is
read while it is borrowed.
-/
namespace Librrb

/-- An entry: `SharedPointerEntry`, `src/node_impls/basic.rs:7-10`. -/
macro "Addr" : term => `(Nat)

/-- The body of a node: `Leaf` (`src/node_impls/basic.rs:119-122`) or `Internal` (`:550-554`) with
children of type `κ`. See `Node` for the tag. -/
inductive Body (α κ : Type) where
  | leaf (buffer : CB α)
  | internal (sizes : SizeTable) (tag : Tag) (children : CB κ)

namespace Body

/-- The entries that a body holds: those in live slots. -/
def kids : Body α κ → List κ
  | .leaf _ => []
  | .internal _ _ c => c.data.filterMap id

/-- `Leaf::empty`, `src/node_impls/basic.rs:129-133`. -/
def emptyLeaf : Body α κ := .leaf CB.new

/-- `Internal::empty_internal`, `src/node_impls/basic.rs:582-595`. -/
def emptyInternal (level : Nat) : M (Body α κ) := do
  massert (level != 0)
  if level == 1 then .ok (.internal (SizeTable.new 1) .leaves CB.new)
  else .ok (.internal (SizeTable.new level) .internals CB.new)

/-- `NodeRc::new_empty`, `src/node_traits.rs:344-352`. -/
def newEmpty : Body α κ → Body α κ
  | .leaf _ => emptyLeaf
  | .internal s t _ => .internal (SizeTable.new s.level) t CB.new

/-- `NodeRc::len`, `src/node_traits.rs:383-388`. -/
def len : Body α κ → M Nat
  | .leaf b => .ok b.len
  | .internal s _ _ => s.cumulativeSize

/-- `NodeRc::slots`, `src/node_traits.rs:391-396`. -/
def slots : Body α κ → Nat
  | .leaf b => b.len
  | .internal _ _ c => c.len

/-- `NodeRc::free_slots`, `src/node_traits.rs:455-460`. -/
def freeSlots : Body α κ → M Nat
  | .leaf b => b.freeSpace
  | .internal _ _ c => usub RRB_WIDTH c.len

/-- `leaf_ref().load().free_space()`, `src/vector.rs:519`, `:564`. -/
def leafFreeSpace : Body α κ → M Nat
  | .leaf b => b.freeSpace
  | .internal _ _ _ => .error .panic

/-- `NodeRc::level`, `src/node_traits.rs:415-420`. -/
def level : Body α κ → Nat
  | .leaf _ => 0
  | .internal s _ _ => s.level

/-- Whether an entry is a `NodeRc::Leaf`. -/
def isLeafNode : Body α κ → Bool
  | .leaf _ => true
  | .internal _ _ _ => false

/-- `Leaf::share_children_with`, `src/node_impls/basic.rs:183-191`; `Internal::share_children_with`,
`:604-632`. -/
def share (src dst : Body α κ) (shareSide : Side) (len : Nat) : M (Nat × Body α κ × Body α κ) :=
  match src, dst with
  | .leaf b, .leaf d => do
    let r ← b.decantInto d shareSide len
    .ok (r.1, .leaf r.2.1, .leaf r.2.2)
  | .internal s t c, .internal s' t' c' => do
    massert (s.level == s'.level)
    massert (c.len == s.len)
    massert (t == t')
    let r ← c.decantInto c' shareSide len
    let q ← (if r.1 != 0 then Node.shareSizes shareSide r.1 s s' else .ok (s, s'))
    .ok (r.1, .internal q.1 t r.2.1, .internal q.2 t' r.2.2)
  | .leaf _, .internal _ _ _ => .error .panic
  | .internal _ _ _, .leaf _ => .error .panic

/-- `Internal::pop_child`, `src/node_impls/basic.rs:741-747`. -/
def popChild (nd : Body α κ) (side : Side) : M (κ × Body α κ) :=
  match nd with
  | .leaf _ => .error .panic
  | .internal s t c => do
    let r ← s.popChild side
    let q ← c.pop side
    .ok (q.1, .internal r.2 t q.2)

/-- `Internal::push_child`, `src/node_impls/basic.rs:749-755`; `k` is the node that `child` points to. -/
def pushChild (nd : Body α κ) (side : Side) (child : κ) (k : Body α μ) : M (Body α κ) :=
  match nd with
  | .leaf _ => .error .panic
  | .internal s t c => do
    let n ← k.len
    let s ← s.pushChild side n
    massert (t == if k.isLeafNode then .leaves else .internals)
    let c ← c.push side child
    .ok (.internal s t c)

/-- `Leaf::push`, `src/node_impls/basic.rs:162-164`. -/
def leafPush (nd : Body α κ) (side : Side) (x : α) : M (Body α κ) :=
  match nd with
  | .leaf b => do
    let b ← b.push side x
    .ok (.leaf b)
  | .internal _ _ _ => .error .panic

/-- `Leaf::pop`, `src/node_impls/basic.rs:166-168`. -/
def leafPop (nd : Body α κ) (side : Side) : M (α × Body α κ) :=
  match nd with
  | .leaf b => do
    let r ← b.pop side
    .ok (r.1, .leaf r.2)
  | .internal _ _ _ => .error .panic

/-- `LeafTrait::front_mut` and `back_mut`, `src/node_traits.rs:88-95`, and an assignment. -/
def setLeafEnd (side : Side) (x : α) : Body α κ → M (Option (Body α κ))
  | .leaf b => do
    let r ← (match side with
      | .front => b.set 0 x
      | .back => b.set (b.len - 1) x)
    .ok (r.map .leaf)
  | .internal _ _ _ => .error .panic

/-- `LeafTrait::front` and `back`, `src/node_traits.rs:72-79`. -/
def leafEnd (side : Side) : Body α κ → M (Option α)
  | .leaf b =>
    match side with
    | .front => b.get 0
    | .back => b.get (b.len - 1)
  | .internal _ _ _ => .error .panic

/-- `Leaf::split`, `src/node_impls/basic.rs:170-181`, and `Internal::split_at_child`, `:829-838`. -/
def splitAtChild (nd : Body α κ) (idx : Nat) : M (Body α κ × Body α κ) :=
  match nd with
  | .leaf b =>
    if idx ≤ b.len then do
      let r ← Node.splitLoop idx b CB.new
      .ok (.leaf r.2, .leaf r.1)
    else .error .panic
  | .internal s t c =>
    if idx ≤ c.len then do
      let r ← (Body.internal s t c).share (Body.internal s t c).newEmpty .front idx
      .ok (r.2.2, r.2.1)
    else .error .panic

end Body

/-- What a `SharedPointer` points to: the count of its owners, and the node. -/
structure RcBox (α : Type) where
  count : Nat
  node : Body α Addr

/-- All nodes in memory; `none` at an address whose node has been freed. -/
structure Heap (α : Type) where
  cells : List (Option (RcBox α))

/-- Calls that read and write the heap, as the steps that they take there one after the other. A step is
what another thread cannot get in between: reading what is behind a pointer, asking or changing a reference
count, writing behind a pointer. Between two steps other threads may take theirs; see `Verif/Model/Threads.lean`. -/
inductive HM (α γ : Type) where
  /-- The end. -/
  | ret (g : γ)
  /-- The end by a failure. -/
  | fail (e : Fault)
  /-- The node behind a pointer. -/
  | load (a : Addr) (k : Body α Addr → HM α γ)
  /-- Whether the count is one. -/
  | isOne (a : Addr) (k : Bool → HM α γ)
  /-- One owner more. -/
  | incr (a : Addr) (k : HM α γ)
  /-- A new node with one owner. -/
  | alloc (n : Body α Addr) (k : Addr → HM α γ)
  /-- One owner less for the first; without owners its node is freed and its entries are dropped before the
  others. One step for each entry. -/
  | drop (as : List Addr) (k : HM α γ)
  /-- Writes a node in place; `k` gets what was there before. -/
  | poke (a : Addr) (f : Body α Addr → Body α Addr) (k : Body α Addr → HM α γ)

namespace HM

/-- One call after the other. -/
def bind : HM α γ → (γ → HM α δ) → HM α δ
  | .ret g, k => k g
  | .fail e, _ => .fail e
  | .load a f, k => .load a fun n => (f n).bind k
  | .isOne a f, k => .isOne a fun b => (f b).bind k
  | .incr a x, k => .incr a (x.bind k)
  | .alloc n f, k => .alloc n fun a => (f a).bind k
  | .drop as x, k => .drop as (x.bind k)
  | .poke a g f, k => .poke a g fun n => (f n).bind k

instance : Monad (HM α) where
  pure := .ret
  bind := bind

/-- Failing, and going on after a failure. -/
def orElse : HM α γ → (Fault → HM α γ) → HM α γ
  | .ret g, _ => .ret g
  | .fail e, k => k e
  | .load a f, k => .load a fun n => (f n).orElse k
  | .isOne a f, k => .isOne a fun b => (f b).orElse k
  | .incr a x, k => .incr a (x.orElse k)
  | .alloc n f, k => .alloc n fun a => (f a).orElse k
  | .drop as x, k => .drop as (x.orElse k)
  | .poke a g f, k => .poke a g fun n => (f n).orElse k

instance : MonadExcept Fault (HM α) where
  throw := .fail
  tryCatch := orElse

instance : MonadLift M (HM α) where
  monadLift
    | .ok a => .ret a
    | .error e => .fail e

end HM

namespace Heap

/-- The live node at an address, if any. -/
def cell (h : Heap α) (a : Addr) : Option (RcBox α) := (h.cells[a]?).join

/-- Overwrites what is at an address. -/
def put (h : Heap α) (a : Addr) (c : Option (RcBox α)) : Heap α := { cells := h.cells.set a c }

/-- The sum of all counts. Not part of the code; bounds a loop below. -/
def total (h : Heap α) : Nat := (h.cells.map fun c => (c.map RcBox.count).getD 0).sum

end Heap

/-- One owner less; without owners the node is freed, and its entries are to be dropped next. A dangling pointer is
undefined behaviour. -/
def Heap.release (h : Heap α) (a : Addr) : M (List Addr × Heap α) :=
  match h.cell a with
  | none => .error .ub
  | some c =>
    if c.count ≤ 1 then .ok (c.node.kids, h.put a none)
    else .ok ([], h.put a (some { c with count := c.count - 1 }))

/-- Dropping entries. The first argument bounds the number of steps; each step takes one from the sum of the counts. -/
def dropLoop : Nat → List Addr → Heap α → M (Heap α)
  | _, [], h => .ok h
  | 0, _ :: _, _ => .error .diverge
  | fuel + 1, a :: as, h => do
    let r ← h.release a
    dropLoop fuel (r.1 ++ as) r.2

/-- Takes all steps of a call, without steps of other threads in between. To follow a dangling pointer is undefined behaviour. -/
def HM.run : HM α γ → Heap α → M (γ × Heap α)
  | .ret g, h => .ok (g, h)
  | .fail e, _ => .error e
  | .load a k, h =>
    match h.cell a with
    | some c => (k c.node).run h
    | none => .error .ub
  | .isOne a k, h =>
    match h.cell a with
    | some c => (k (c.count == 1)).run h
    | none => .error .ub
  | .incr a x, h =>
    match h.cell a with
    | some c => x.run (h.put a (some { c with count := c.count + 1 }))
    | none => .error .ub
  | .alloc n k, h => (k h.cells.length).run { cells := h.cells ++ [some { count := 1, node := n }] }
  | .drop as x, h =>
    match dropLoop h.total as h with
    | .ok h => x.run h
    | .error e => .error e
  | .poke a f k, h =>
    match h.cell a with
    | some c => (k c.node).run (h.put a (some { c with node := f c.node }))
    | none => .error .ub

instance : CoeFun (HM α γ) fun _ => Heap α → M (γ × Heap α) := ⟨HM.run⟩

/-- `Entry::new`, `src/node_impls/basic.rs:70-72`: a new node with one owner. -/
def alloc (n : Body α Addr) : HM α Addr := .alloc n .ret

/-- `Entry::load`, `src/node_impls/basic.rs:74-76`. -/
def load (a : Addr) : HM α (Body α Addr) := .load a .ret

/-- The question whether there is one owner: the first part of `SharedPointer::make_mut`. -/
def isOne (a : Addr) : HM α Bool := .isOne a .ret

/-- Writing to a node in place. -/
def poke (a : Addr) (f : Body α Addr → Body α Addr) : HM α (Body α Addr) := .poke a f .ret

/-- `SharedPointerEntry::clone`, `src/node_impls/basic.rs:12-20`: one owner more. -/
def cloneEntry (a : Addr) : HM α Unit := .incr a (.ret ())

/-- Cloning a list of entries. -/
def cloneEntries : List Addr → HM α Unit
  | [] => pure ()
  | a :: as => do
    cloneEntry a
    cloneEntries as

/-- Dropping entries; see `HM.drop`. -/
def dropEntries (as : List Addr) : HM α Unit := .drop as (.ret ())

/-- Dropping an entry. -/
def dropEntry (a : Addr) : HM α Unit := dropEntries [a]

/-- `Entry::load_mut`, `src/node_impls/basic.rs:78-80`, that is `SharedPointer::make_mut`: nothing to do
when there is one owner; otherwise the entry now owns a new copy (`Internal::clone`, `:556-563`, clones
the entries of the children; `Leaf::clone` copies the items), and the old one is dropped. Returns what the
entry becomes. -/
def loadMut (a : Addr) : HM α Addr := do
  let one ← isOne a
  if one then pure a
  else do
    let n ← load a
    cloneEntries n.kids
    let b ← alloc n
    dropEntry a
    pure b

/-- `load_mut`, and the body behind the borrow. See the header: until `giveBack` nothing reads there. -/
def borrow (a : Addr) : HM α (Addr × Body α Addr) := do
  let a ← loadMut a
  let n ← poke a fun _ => Body.emptyLeaf
  pure (a, n)

/-- The end of a borrow: the body is back in its place. -/
def giveBack (a : Addr) (n : Body α Addr) : HM α Unit := do
  let _ ← poke a fun _ => n
  pure ()

/-! ### `NodeRc` -/

namespace Entry

/-- `NodeRc::len`, `src/node_traits.rs:383-388`. -/
def len (a : Addr) : HM α Nat := do
  let n ← load a
  n.len

/-- `NodeRc::slots`, `src/node_traits.rs:391-396`. -/
def slots (a : Addr) : HM α Nat := do
  let n ← load a
  pure n.slots

/-- `NodeRc::is_empty`, `src/node_traits.rs:399-404`. -/
def isEmpty (a : Addr) : HM α Bool := do
  let n ← len a
  pure (n == 0)

/-- `NodeRc::free_slots`, `src/node_traits.rs:455-460`. -/
def freeSlots (a : Addr) : HM α Nat := do
  let n ← load a
  n.freeSlots

/-- `NodeRc::is_full`, `src/node_traits.rs:407-412`. -/
def isFull (a : Addr) : HM α Bool := do
  let n ← freeSlots a
  pure (n == 0)

/-- `NodeRc::level`, `src/node_traits.rs:415-420`. -/
def level (a : Addr) : HM α Nat := do
  let n ← load a
  pure n.level

/-- `NodeRc::is_leaf`, `src/node_traits.rs:423-425`. -/
def isLeaf (a : Addr) : HM α Bool := do
  let n ← level a
  pure (n == 0)

/-- `leaf_ref().load().free_space()`, `src/vector.rs:519`, `:564`. -/
def leafFreeSpace (a : Addr) : HM α Nat := do
  let n ← load a
  n.leafFreeSpace

/-- `NodeRc::new_empty`, `src/node_traits.rs:344-352`. -/
def newEmpty (a : Addr) : HM α Addr := do
  let n ← load a
  alloc n.newEmpty

/-- `NodeRc::Internal(InternalEntry::new(Internal::empty_internal(level)))`, `src/vector.rs:547-549`. -/
def emptyInternal (level : Nat) : HM α Addr := do
  let n ← (Body.emptyInternal level : M (Body α Addr))
  alloc n

/-- `NodeRc::share_children_with`, `src/node_traits.rs:358-380`. Returns the number moved and what the
entries become. -/
def share (src dst : Addr) (side : Side) (len : Nat) : HM α (Nat × Addr × Addr) := do
  let d ← borrow dst
  let s ← borrow src
  let r ← s.2.share d.2 side len
  giveBack s.1 r.2.1
  giveBack d.1 r.2.2
  pure (r.1, s.1, d.1)

/-- `internal_mut().load_mut().pop_child(side)`: `Internal::pop_child`, `src/node_impls/basic.rs:741-747`. -/
def popChild (a : Addr) (side : Side) : HM α (Addr × Addr) := do
  let b ← borrow a
  let r ← b.2.popChild side
  giveBack b.1 r.2
  pure (r.1, b.1)

/-- `internal_mut().load_mut().push_child(side, node)`: `Internal::push_child`,
`src/node_impls/basic.rs:749-755`. -/
def pushChild (a : Addr) (side : Side) (child : Addr) : HM α Addr := do
  let b ← borrow a
  let k ← load child
  let r ← b.2.pushChild side child k
  giveBack b.1 r
  pure b.1

/-- `leaf_mut().load_mut().push(side, item)`: `Leaf::push`, `src/node_impls/basic.rs:162-164`. -/
def leafPush (a : Addr) (side : Side) (x : α) : HM α Addr := do
  let b ← borrow a
  let r ← b.2.leafPush side x
  giveBack b.1 r
  pure b.1

/-- `leaf_mut().load_mut().pop(side)`: `Leaf::pop`, `src/node_impls/basic.rs:166-168`. -/
def leafPop (a : Addr) (side : Side) : HM α (α × Addr) := do
  let b ← borrow a
  let r ← b.2.leafPop side
  giveBack b.1 r.2
  pure (r.1, b.1)

/-- The packing loop of `Internal::pack_children`, `src/node_impls/basic.rs:648-667`, `:678-697`, on the ring
of the borrowed node. -/
def packLoop : Nat → Nat → Nat → CB Addr → HM α (CB Addr)
  | 0, _, readPosition, children =>
    if readPosition < children.len then throw .diverge else pure children
  | fuel + 1, writePosition, readPosition, children =>
    if readPosition < children.len then
      if readPosition == writePosition then packLoop fuel writePosition (readPosition + 1) children
      else do
        let p ← children.pairMut writePosition readPosition
        let write ← readSlot children.data p.1
        let read ← readSlot children.data p.2
        let r ← share read write .front RRB_WIDTH
        let data ← assignSlot children.data p.1 r.2.2
        let data ← assignSlot data p.2 r.2.1
        let full ← isFull r.2.2
        let empty ← isEmpty r.2.1
        packLoop fuel (if full then writePosition + 1 else writePosition)
          (if empty then readPosition + 1 else readPosition) { children with data := data }
    else pure children

/-- `while children.back().unwrap().load().is_empty() { children.pop_back(); }`,
`src/node_impls/basic.rs:668-670`, `:699-701`. -/
def packTrim : Nat → CB Addr → HM α (CB Addr)
  | 0, _ => throw .diverge
  | fuel + 1, children => do
    let last ← unwrap (← children.back)
    let e ← isEmpty last
    if e then do
      let r ← children.popBack
      dropEntry r.1
      packTrim fuel r.2
    else pure children

/-- `for child in children { sizes.push_child(Side::Back, child.load().len()); }`,
`src/node_impls/basic.rs:671-675`, `:702-706`; see `CB.foldIterLoop`. -/
def packSizes (children : CB Addr) : Nat → CB.Iter → SizeTable → HM α SizeTable
  | 0, _, _ => throw .diverge
  | fuel + 1, it, s => do
    let r ← it.next children
    match r.1 with
    | none => pure s
    | some a => do
      let n ← len a
      let s ← s.pushChild .back n
      packSizes children fuel r.2 s

/-- `Internal::pack_children`, `src/node_impls/basic.rs:634-715`, behind `internal_mut().load_mut()`. -/
def packChildren (a : Addr) : HM α Addr := do
  let b ← borrow a
  match b.2 with
  | .leaf _ => throw .panic
  | .internal s t c => do
    let n ← (Body.internal s t c : Body α Addr).len
    if n == 0 then do
      giveBack b.1 (.internal s t c)
      pure b.1
    else do
      massert ((s.level == 1) == (t == .leaves))
      massert (c.len == s.len)
      let c ← packLoop (2 * c.len) 0 1 c
      let c ← packTrim (c.len + 1) c
      let s ← packSizes c (c.len + 1) c.iter (SizeTable.new s.level)
      massert ((s.level == 1) == (t == .leaves))
      massert (c.len == s.len)
      giveBack b.1 (.internal s t c)
      pure b.1

/-- `NodeRc::get`, `src/node_traits.rs:428-433`; `Internal::get`, `src/node_impls/basic.rs:717-723`. The first
argument bounds the depth. -/
def getAux : Nat → Addr → Nat → HM α (Option α)
  | 0, _, _ => throw .diverge
  | fuel + 1, a, idx => do
    let n ← load a
    match n with
    | .leaf b => b.get idx
    | .internal s _ c => do
      let p ← s.positionInfoFor idx
      match p with
      | some (arrayIdx, newIdx) => do
        let child ← unwrap (← c.get arrayIdx)
        getAux fuel child newIdx
      | none => pure none

/-- `NodeRc::get`; see `getAux`. -/
def get (a : Addr) (idx : Nat) : HM α (Option α) := do
  let l ← level a
  getAux (l + 1) a idx

/-- `NodeRc::get_mut`, `src/node_traits.rs:436-441`; `Internal::get_mut`, `src/node_impls/basic.rs:733-739`;
`ChildList::get_mut`, `:525-534`; `Leaf::get_mut`, `:158-160`; followed by an assignment. The flag tells
whether the code returned `Some`; on the way down every node has been made the only owner's, either way. -/
def setAux : Nat → Addr → Nat → α → HM α (Bool × Addr)
  | 0, _, _, _ => throw .diverge
  | fuel + 1, a, idx, x => do
    let b ← borrow a
    match b.2 with
    | .leaf l => do
      let r ← l.set idx x
      giveBack b.1 (.leaf (r.getD l))
      pure (r.isSome, b.1)
    | .internal s t c => do
      let p ← s.positionInfoFor idx
      match p with
      | some (arrayIdx, newIdx) => do
        let child ← unwrap (← c.get arrayIdx)
        let r ← setAux fuel child newIdx x
        let c ← unwrap (← c.set arrayIdx r.2)
        giveBack b.1 (.internal s t c)
        pure (r.1, b.1)
      | none => do
        giveBack b.1 (.internal s t c)
        pure (false, b.1)

/-- `NodeRc::get_mut` and an assignment; see `setAux`. -/
def set (a : Addr) (idx : Nat) (x : α) : HM α (Bool × Addr) := do
  let l ← level a
  setAux (l + 1) a idx x

/-- The loop of `Internal::debug_check_invariants`, `src/node_impls/basic.rs:894-900`, `:906-911`; see
`CB.foldIterLoop`. The state is the index and the sum. -/
def debugCheckLoop (check : Addr → Nat → Nat → HM α Unit) (s : SizeTable) (c : CB Addr) (reportedLevel : Nat) :
    Nat → CB.Iter → Nat × Nat → HM α (Nat × Nat)
  | 0, _, _ => throw .diverge
  | fuel + 1, it, st => do
    let r ← it.next c
    match r.1 with
    | none => pure st
    | some child => do
      let childSize ← unwrap (← s.getChildSize st.1)
      let lv ← usub reportedLevel 1
      check child childSize lv
      debugCheckLoop check s c reportedLevel fuel r.2 (st.1 + 1, st.2 + childSize)

/-- `LeafTrait::debug_check_invariants` (`src/node_traits.rs:121-124`),
`Internal::debug_check_invariants` (`src/node_impls/basic.rs:888-915`),
`NodeRc::debug_check_invariants` (`src/node_traits.rs:558-567`). -/
def debugCheckAux : Nat → Addr → Nat → Nat → HM α Unit
  | 0, _, _, _ => throw .diverge
  | fuel + 1, a, reportedSize, reportedLevel => do
    let n ← load a
    match n with
    | .leaf b => do
      massert (reportedSize == b.len)
      massert (reportedLevel == 0)
    | .internal s _ c => do
      massert (reportedLevel == s.level)
      massert (c.len == s.len)
      let r ← debugCheckLoop (debugCheckAux fuel) s c reportedLevel (c.len + 1) c.iter (0, 0)
      massert (r.2 == reportedSize)

/-- `NodeRc::debug_check_invariants`; see `debugCheckAux`. -/
def debugCheck (a : Addr) (reportedSize reportedLevel : Nat) : HM α Unit := do
  let l ← level a
  debugCheckAux (l + 1) a reportedSize reportedLevel

/-- `NodeRc::split_at_position`, `src/node_traits.rs:545-554`; `Leaf::split`,
`src/node_impls/basic.rs:170-181`; `Internal::split_at_position`, `:840-863`. Returns what the entry becomes
and the new entry. -/
def splitAtPositionAux : Nat → Addr → Nat → HM α (Addr × Addr)
  | 0, _, _ => throw .diverge
  | fuel + 1, a, originalPosition => do
    let b ← borrow a
    match b.2 with
    | .leaf l => do
      let r ← (Body.leaf l : Body α Addr).splitAtChild originalPosition
      giveBack b.1 r.1
      let new ← alloc r.2
      pure (b.1, new)
    | .internal s t c => do
      let originalLen ← (Body.internal s t c : Body α Addr).len
      massert (decide (originalPosition ≤ originalLen))
      let p ← unwrap (← s.positionInfoFor originalPosition)
      let r ← (Body.internal s t c : Body α Addr).splitAtChild p.1
      let q ← r.2.popChild .front
      let nextLen ← len q.1
      let fin ←
        (if p.2 == 0 then do
          let k ← load q.1
          let result ← q.2.pushChild .front q.1 k
          giveBack b.1 r.1
          let new ← alloc result
          pure (b.1, new)
        else if p.2 == nextLen then do
          let k ← load q.1
          let self ← r.1.pushChild .back q.1 k
          giveBack b.1 self
          let new ← alloc q.2
          pure (b.1, new)
        else do
          let sub ← splitAtPositionAux fuel q.1 p.2
          let k1 ← load sub.1
          let self ← r.1.pushChild .back sub.1 k1
          let k2 ← load sub.2
          let result ← q.2.pushChild .front sub.2 k2
          giveBack b.1 self
          let new ← alloc result
          pure (b.1, new))
      let l1 ← level fin.1
      debugCheck fin.1 originalPosition l1
      let d ← usub originalLen originalPosition
      let l2 ← level fin.2
      debugCheck fin.2 d l2
      pure fin

/-- `NodeRc::split_at_position`; see `splitAtPositionAux`. -/
def splitAtPosition (a : Addr) (position : Nat) : HM α (Addr × Addr) := do
  let l ← level a
  splitAtPositionAux (l + 1) a position

end Entry
end Librrb
