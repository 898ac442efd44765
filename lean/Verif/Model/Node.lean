import Verif.Model.SizeTable

/-!
# Model of the nodes: `src/node_impls/basic.rs` and `NodeRc` of `src/node_traits.rs`

Reference counting is not part of this model: an entry is the node it points to and
`load_mut`/`make_mut` is the identity (see `Verif/Model/Heap.lean` for the sharing).
`debug_assert!` is modelled like `assert!` (debug profile).
-/
namespace Librrb

/-- Which arm of `ChildList` (`src/node_impls/basic.rs:412-417`) a list of children is. -/
inductive Tag where
  | leaves | internals
  deriving DecidableEq, Repr

/-- `NodeRc` (`src/node_traits.rs:319-325`): a `Leaf { buffer }`
(`src/node_impls/basic.rs:119-122`) or an `Internal { sizes, children }`
(`src/node_impls/basic.rs:550-554`). The arms `Leaves` and `Internals` of `ChildList` hold the
same kind of ring and run the same code; they are merged here, and which arm it is is kept in the
tag, so that the dynamic checks can be modelled. -/
inductive Node (α : Type) where
  | leaf (buffer : CB α)
  | internal (sizes : SizeTable) (tag : Tag) (children : CB (Node α))

namespace Node

/-- `Leaf::empty`, `src/node_impls/basic.rs:129-133`. -/
def emptyLeaf : Node α := .leaf CB.new

/-- `Leaf::with_item`, `src/node_impls/basic.rs:135-139`. -/
def leafWithItem (x : α) : M (Node α) := do
  let b ← CB.withItem x
  .ok (.leaf b)

/-- `Internal::empty_internal`, `src/node_impls/basic.rs:582-595`. -/
def emptyInternal (level : Nat) : M (Node α) := do
  massert (level != 0)
  if level == 1 then .ok (.internal (SizeTable.new 1) .leaves CB.new)
  else .ok (.internal (SizeTable.new level) .internals CB.new)

/-- `NodeRc::new_empty`, `src/node_traits.rs:344-352`, with `Internal::new_empty`,
`src/node_impls/basic.rs:597-602` and `ChildList::new_empty`, `:430-435`. -/
def newEmpty : Node α → Node α
  | .leaf _ => emptyLeaf
  | .internal s t _ => .internal (SizeTable.new s.level) t CB.new

/-- `NodeRc::len`, `src/node_traits.rs:383-388`; `Leaf::len`, `Internal::len`
(`src/node_impls/basic.rs:141-143`, `:768-770`). -/
def len : Node α → M Nat
  | .leaf b => .ok b.len
  | .internal s _ _ => s.cumulativeSize

/-- `NodeRc::slots`, `src/node_traits.rs:391-396`; `Internal::slots`,
`src/node_impls/basic.rs:772-774`. -/
def slots : Node α → Nat
  | .leaf b => b.len
  | .internal _ _ c => c.len

/-- `NodeRc::is_empty`, `src/node_traits.rs:399-404`, with `LeafTrait::is_empty` (`:56-58`) and
`InternalTrait::is_empty` (`:249-251`): both test `len() == 0`. -/
def isEmpty (nd : Node α) : M Bool := do
  let n ← nd.len
  .ok (n == 0)

/-- `NodeRc::free_slots`, `src/node_traits.rs:455-460`; `Leaf::free_space`
(`src/node_impls/basic.rs:145-147`), `Internal::free_slots` (`:776-778`, `:545-547`). -/
def freeSlots : Node α → M Nat
  | .leaf b => b.freeSpace
  | .internal _ _ c => usub RRB_WIDTH c.len

/-- `NodeRc::is_full`, `src/node_traits.rs:407-412`, `:64-66`, `:260-262`. -/
def isFull (nd : Node α) : M Bool := do
  let n ← nd.freeSlots
  .ok (n == 0)

/-- `NodeRc::level`, `src/node_traits.rs:415-420`; `Internal::level`,
`src/node_impls/basic.rs:764-766`. -/
def level : Node α → Nat
  | .leaf _ => 0
  | .internal s _ _ => s.level

/-- `NodeRc::is_leaf`, `src/node_traits.rs:423-425`. -/
def isLeaf (nd : Node α) : Bool := nd.level == 0

/-- The loop of `Internal::share_children_with` over the size tables,
`src/node_impls/basic.rs:625-628`. -/
def shareSizes (shareSide : Side) : Nat → SizeTable → SizeTable → M (SizeTable × SizeTable)
  | 0, s, d => .ok (s, d)
  | n + 1, s, d => do
    let r ← s.popChild shareSide
    let d ← d.pushChild shareSide.negate r.1
    shareSizes shareSide n r.2 d

/-- `NodeRc::share_children_with`, `src/node_traits.rs:358-380`; `Leaf::share_children_with`,
`src/node_impls/basic.rs:183-191`; `Internal::share_children_with`, `:604-632`.
Returns the number moved, the new `self` and the new `destination`. -/
def shareChildrenWith (src dst : Node α) (shareSide : Side) (len : Nat) :
    M (Nat × Node α × Node α) :=
  match src, dst with
  | .leaf b, .leaf d => do
    let r ← b.decantInto d shareSide len
    .ok (r.1, .leaf r.2.1, .leaf r.2.2)
  | .internal s t c, .internal s' t' c' => do
    massert (s.level == s'.level)
    massert (c.len == s.len)
    massert (t == t')
    let r ← c.decantInto c' shareSide len
    let q ← (if r.1 != 0 then shareSizes shareSide r.1 s s' else .ok (s, s'))
    .ok (r.1, .internal q.1 t r.2.1, .internal q.2 t' r.2.2)
  | .leaf _, .internal _ _ _ => .error .panic
  | .internal _ _ _, .leaf _ => .error .panic

/-- The packing loop of `Internal::pack_children`, `src/node_impls/basic.rs:648-667` and
`:678-697` (the same for both arms). The first argument bounds the number of iterations. -/
def packLoop : Nat → Nat → Nat → CB (Node α) → M (CB (Node α))
  | 0, _, readPosition, children =>
    if readPosition < children.len then .error .diverge else .ok children
  | fuel + 1, writePosition, readPosition, children =>
    if readPosition < children.len then
      if readPosition == writePosition then packLoop fuel writePosition (readPosition + 1) children
      else do
        let p ← children.pairMut writePosition readPosition
        let write ← readSlot children.data p.1
        let read ← readSlot children.data p.2
        let r ← read.shareChildrenWith write .front RRB_WIDTH
        let data ← assignSlot children.data p.1 r.2.2
        let data ← assignSlot data p.2 r.2.1
        let full ← r.2.2.isFull
        let empty ← r.2.1.isEmpty
        packLoop fuel (if full then writePosition + 1 else writePosition)
          (if empty then readPosition + 1 else readPosition) { children with data := data }
    else .ok children

/-- `while children.back().unwrap().load().is_empty() { children.pop_back(); }`,
`src/node_impls/basic.rs:668-670` and `:699-701`. -/
def packTrim : Nat → CB (Node α) → M (CB (Node α))
  | 0, _ => .error .diverge
  | fuel + 1, children => do
    let last ← unwrap (← children.back)
    let e ← last.isEmpty
    if e then do
      let r ← children.popBack
      packTrim fuel r.2
    else .ok children

/-- `Internal::pack_children`, `src/node_impls/basic.rs:634-715`. Called on a leaf it is a type
error in the code (`internal_mut` panics). -/
def packChildren : Node α → M (Node α)
  | .leaf _ => .error .panic
  | .internal s t c => do
    let e ← (Node.internal s t c).isEmpty
    if e then .ok (.internal s t c)
    else do
      massert ((s.level == 1) == (t == .leaves))
      massert (c.len == s.len)
      let c ← packLoop (2 * c.len) 0 1 c
      let c ← packTrim (c.len + 1) c
      let s ← c.foldIter (fun (s : SizeTable) (child : Node α) => do
        let n ← child.len
        s.pushChild .back n) (SizeTable.new s.level)
      massert ((s.level == 1) == (t == .leaves))
      massert (c.len == s.len)
      .ok (.internal s t c)

/-- `Internal::pop_child`, `src/node_impls/basic.rs:741-747`, reached through
`internal_mut()` (`src/node_traits.rs:519-525`), which panics on a leaf. -/
def popChild (nd : Node α) (side : Side) : M (Node α × Node α) :=
  match nd with
  | .leaf _ => .error .panic
  | .internal s t c => do
    let r ← s.popChild side
    let q ← c.pop side
    .ok (q.1, .internal r.2 t q.2)

/-- `node.leaf()` / `node.internal()` when a node is put into a list of children,
`src/node_impls/basic.rs:752-753`, `src/node_traits.rs:467-486`. -/
def checkTag (t : Tag) : Node α → M Unit
  | .leaf _ => massert (t == .leaves)
  | .internal _ _ _ => massert (t == .internals)

/-- `Internal::push_child`, `src/node_impls/basic.rs:749-755`. -/
def pushChild (nd : Node α) (side : Side) (child : Node α) : M (Node α) :=
  match nd with
  | .leaf _ => .error .panic
  | .internal s t c => do
    let n ← child.len
    let s ← s.pushChild side n
    checkTag t child
    let c ← c.push side child
    .ok (.internal s t c)

/-- `Leaf::push`, `src/node_impls/basic.rs:162-164`, through `leaf_mut()`. -/
def leafPush (nd : Node α) (side : Side) (x : α) : M (Node α) :=
  match nd with
  | .leaf b => do
    let b ← b.push side x
    .ok (.leaf b)
  | .internal _ _ _ => .error .panic

/-- `Leaf::pop`, `src/node_impls/basic.rs:166-168`, through `leaf_mut()`. -/
def leafPop (nd : Node α) (side : Side) : M (α × Node α) :=
  match nd with
  | .leaf b => do
    let r ← b.pop side
    .ok (r.1, .leaf r.2)
  | .internal _ _ _ => .error .panic

/-- `NodeRc::get`, `src/node_traits.rs:428-433`; `Leaf::get`, `src/node_impls/basic.rs:149-151`;
`Internal::get`, `:717-723`; `ChildList::get`, `:503-508`. The first argument bounds the depth. -/
def getAux : Nat → Node α → Nat → M (Option α)
  | 0, _, _ => .error .diverge
  | _ + 1, .leaf b, idx => b.get idx
  | fuel + 1, .internal s _ c, idx => do
    let p ← s.positionInfoFor idx
    match p with
    | some (arrayIdx, newIdx) => do
      let child ← unwrap (← c.get arrayIdx)
      getAux fuel child newIdx
    | none => .ok none

/-- `NodeRc::get`; see `getAux`. -/
def get (nd : Node α) (idx : Nat) : M (Option α) := getAux (nd.level + 1) nd idx

/-- `NodeRc::get_mut`, `src/node_traits.rs:436-441`; `Leaf::get_mut`,
`src/node_impls/basic.rs:158-160`; `Internal::get_mut`, `:733-739`; `ChildList::get_mut`,
`:525-534`; followed by an assignment of `x` through the returned pointer. `none` when the code
returns `None`. -/
def setAux : Nat → Node α → Nat → α → M (Option (Node α))
  | 0, _, _, _ => .error .diverge
  | _ + 1, .leaf b, idx, x => do
    let r ← b.set idx x
    .ok (r.map .leaf)
  | fuel + 1, .internal s t c, idx, x => do
    let p ← s.positionInfoFor idx
    match p with
    | some (arrayIdx, newIdx) => do
      let child ← unwrap (← c.get arrayIdx)
      let r ← setAux fuel child newIdx x
      match r with
      | some child => do
        let c ← unwrap (← c.set arrayIdx child)
        .ok (some (.internal s t c))
      | none => .ok none
    | none => .ok none

/-- `NodeRc::get_mut` and assignment; see `setAux`. -/
def set (nd : Node α) (idx : Nat) (x : α) : M (Option (Node α)) := setAux (nd.level + 1) nd idx x

/-- `LeafTrait::debug_check_invariants` (`src/node_traits.rs:121-124`),
`Internal::debug_check_invariants` (`src/node_impls/basic.rs:888-915`),
`NodeRc::debug_check_invariants` (`src/node_traits.rs:558-567`). -/
def debugCheckAux : Nat → Node α → Nat → Nat → M Unit
  | 0, _, _, _ => .error .diverge
  | _ + 1, .leaf b, reportedSize, reportedLevel => do
    massert (reportedSize == b.len)
    massert (reportedLevel == 0)
  | fuel + 1, .internal s _ c, reportedSize, reportedLevel => do
    massert (reportedLevel == s.level)
    massert (c.len == s.len)
    let r ← c.foldIter (fun (st : Nat × Nat) (child : Node α) => do
      let childSize ← unwrap (← s.getChildSize st.1)
      let lv ← usub reportedLevel 1
      debugCheckAux fuel child childSize lv
      .ok (st.1 + 1, st.2 + childSize)) (0, 0)
    massert (r.2 == reportedSize)

/-- `NodeRc::debug_check_invariants`; see `debugCheckAux`. -/
def debugCheck (nd : Node α) (reportedSize reportedLevel : Nat) : M Unit :=
  debugCheckAux (nd.level + 1) nd reportedSize reportedLevel

/-- The loop of `Leaf::split`, `src/node_impls/basic.rs:173-176`. -/
def splitLoop : Nat → CB α → CB α → M (CB α × CB α)
  | 0, b, o => .ok (b, o)
  | n + 1, b, o => do
    let r ← b.pop .front
    let o ← o.push .back r.1
    splitLoop n r.2 o

/-- `Leaf::split`, `src/node_impls/basic.rs:170-181`, and `Internal::split_at_child`, `:829-838`,
through `NodeRc::split_at_child`, `src/node_traits.rs:534-543`. Returns what `self` becomes (the
first part) and the returned node (the rest). -/
def splitAtChild (nd : Node α) (idx : Nat) : M (Node α × Node α) :=
  match nd with
  | .leaf b =>
    if idx ≤ b.len then do
      let r ← splitLoop idx b CB.new
      .ok (.leaf r.2, .leaf r.1)
    else .error .panic
  | .internal s t c =>
    if idx ≤ c.len then do
      let r ← (Node.internal s t c).shareChildrenWith (Node.internal s t c).newEmpty .front idx
      .ok (r.2.2, r.2.1)
    else .error .panic

/-- `NodeRc::split_at_position`, `src/node_traits.rs:545-554`, and
`Internal::split_at_position`, `src/node_impls/basic.rs:840-863`. Returns what `self` becomes and
the returned node. The first argument bounds the depth. -/
def splitAtPositionAux : Nat → Node α → Nat → M (Node α × Node α)
  | 0, _, _ => .error .diverge
  | _ + 1, .leaf b, position => (Node.leaf b).splitAtChild position
  | fuel + 1, .internal s t c, originalPosition => do
    let originalLen ← (Node.internal s t c).len
    massert (decide (originalPosition ≤ originalLen))
    let p ← unwrap (← s.positionInfoFor originalPosition)
    let r ← (Node.internal s t c).splitAtChild p.1
    let q ← r.2.popChild .front
    let nextLen ← q.1.len
    let fin ←
      (if p.2 == 0 then do
        let result ← q.2.pushChild .front q.1
        .ok (r.1, result)
      else if p.2 == nextLen then do
        let self ← r.1.pushChild .back q.1
        .ok (self, q.2)
      else do
        let sub ← splitAtPositionAux fuel q.1 p.2
        let self ← r.1.pushChild .back sub.1
        let result ← q.2.pushChild .front sub.2
        .ok (self, result))
    fin.1.debugCheck originalPosition fin.1.level
    let d ← usub originalLen originalPosition
    fin.2.debugCheck d fin.2.level
    .ok fin

/-- `NodeRc::split_at_position`; see `splitAtPositionAux`. -/
def splitAtPosition (nd : Node α) (position : Nat) : M (Node α × Node α) :=
  splitAtPositionAux (nd.level + 1) nd position

end Node
end Librrb
