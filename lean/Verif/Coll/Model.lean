import Verif.Common
import Verif.Mtv.Spec
/-!
# collection of multi_type_vector instances

`multi_type_vector/collection.hpp` and `collection_def.inl` (line numbers are those of the latter):
several containers of one length are traversed sideways.  A collection holds pointers; `mem` says
which container is at an address.  `size_t` arithmetic wraps around.

Simplifications: the overloads of `init_insert_vector` (234-262) differ only in how they get at
the pointer; the text of exceptions and `reserve` are left out; `block_end` of an item is never
read and left out; the two counters an iterator increments do not wrap around (they stay below a
length, or `position` throws).
-/

namespace Mdds.Coll

open Mdds.Mtv

variable {α : Type}

/-- Number of values of `size_t` and `uintptr_t`. -/
def W : Nat := 2 ^ 64

/-- The containers, by address. -/
abbrev Mem (α : Type) := Nat → St α

/-- `collection::range` (hpp 132-139). -/
structure Range where
  start : Nat
  size : Nat
  deriving DecidableEq, Repr

/-- The members (hpp 141-146). -/
structure Coll where
  vecs : List Nat
  mtvSize : Nat
  identity : Nat
  elem : Range
  col : Range
  deriving DecidableEq, Repr

/-- `mtv_item` (hpp 31-40): the container and the block its last position was in. -/
structure Item where
  vec : Nat
  blockPos : Nat
  deriving DecidableEq, Repr

/-- `node` (hpp 43-65); the fields are not initialised by a constructor, `none` until they are
set.  `elemPosition` also names the container its iterator belongs to. -/
structure Node where
  type : Option (Option Ty)
  index : Nat
  position : Option Nat
  elemPosition : Option (Nat × Nat × Nat)
  deriving DecidableEq, Repr

/-- `side_iterator` (hpp 76-81). -/
structure It where
  items : List Item
  node : Node
  elemPos : Nat
  elemEnd : Nat
  offset : Nat
  identity : Nat
  deriving DecidableEq, Repr

/-- Default constructor 103-105. -/
def nothing : Coll := ⟨[], 0, 0, ⟨0, 0⟩, ⟨0, 0⟩⟩

/-- `check_vector_size` 264-274 and the following `emplace_back` for one container. -/
def addVec (mem : Mem α) (c : Coll) (v : Nat) : Outcome Coll :=
  if (mem v).blocks = [] then .err .invalidArg
  else if c.mtvSize = 0 then .ok { c with vecs := c.vecs ++ [v], mtvSize := (mem v).cur }
  else if c.mtvSize ≠ (mem v).cur then .err .invalidArg
  else .ok { c with vecs := c.vecs ++ [v] }

/-- The loop 114-115. -/
def addVecs (mem : Mem α) : List Nat → Coll → Outcome Coll
  | [], c => .ok c
  | v :: vs, c => (addVec mem c v).bind (addVecs mem vs)

/-- The value that identifies the collection, 117-126. -/
def identityOf (v : Nat) (vs : List Nat) : Nat := vs.foldl (fun id p => (id <<< 1) % W ^^^ p) v

/-- Constructor from a range of containers 107-134.  With an empty range the first element is
read all the same (119); `assert` 128. -/
def mkRange (mem : Mem α) (vs : List Nat) : Outcome Coll :=
  (addVecs mem vs nothing).bind fun c =>
    match c.vecs with
    | [] => .ub
    | v :: rest =>
      if c.mtvSize = 0 then .ub
      else .ok { c with identity := identityOf v rest, elem := ⟨0, c.mtvSize⟩, col := ⟨0, vs.length⟩ }

/-- `check_collection_range` 184-199 and `check_element_range` 201-216 against the bound `n`. -/
def checkRange (n start size : Nat) : Bool :=
  !(decide (start ≥ n) || size == 0 || decide ((start + size) % W > n))

/-- `set_collection_range` 168-174. -/
def setCollectionRange (start size : Nat) (c : Coll) : Outcome Coll :=
  if checkRange c.vecs.length start size then .ok { c with col := ⟨start, size⟩ } else .err .invalidArg

/-- `set_element_range` 176-182. -/
def setElementRange (start size : Nat) (c : Coll) : Outcome Coll :=
  if checkRange c.mtvSize start size then .ok { c with elem := ⟨start, size⟩ } else .err .invalidArg

/-- `build_iterator_state` 218-232; moving an iterator past the end of the vector of pointers is
undefined behaviour. -/
def buildState (c : Coll) : Outcome (List Item) :=
  if c.col.start + c.col.size ≤ c.vecs.length then
    .ok (((c.vecs.drop c.col.start).take c.col.size).map fun v => ⟨v, 0⟩)
  else .ub

/-- `swap` 158-166. -/
def swap (p : Coll × Coll) : Coll × Coll := (p.2, p.1)

/-- `size` 152-156. -/
def size (c : Coll) : Nat := c.mtvSize

/-- 27-32, 67-73: look up the element position in item `k`, keep the block for the next time,
and describe the element. -/
def visit (mem : Mem α) (items : List Item) (k index pos : Nat) : Outcome (List Item × Node) :=
  match items[k]? with
  | none => .ub
  | some x =>
    match position (some (some x.blockPos)) pos (mem x.vec) with
    | .ok (p, _) =>
      match (mem x.vec).blocks[p.1]? with
      | none => .ub
      | some b => .ok (items.set k { x with blockPos := p.1 }, ⟨some b.ty, index, some pos, some (x.vec, p)⟩)
    | .err e _ => .err e
    | .ub => .ub

/-- `begin` 136-142 with the constructor 15-33. -/
def begin_ (mem : Mem α) (c : Coll) : Outcome It :=
  (buildState c).bind fun items =>
    let it : It := ⟨items, ⟨none, c.col.start, none, none⟩, c.elem.start, (c.elem.start + c.elem.size) % W, c.col.start, c.identity⟩
    if items = [] then .ok it
    else (visit mem items 0 c.col.start c.elem.start).bind fun r => .ok { it with items := r.1, node := r.2 }

/-- `end` 144-150 with the constructor 35-47. -/
def end_ (c : Coll) : Outcome It :=
  (buildState c).bind fun items =>
    .ok ⟨items, ⟨none, c.col.start, none, none⟩, (c.elem.start + c.elem.size) % W, (c.elem.start + c.elem.size) % W, c.col.start, c.identity⟩

/-- `operator++` 49-76. -/
def next (mem : Mem α) (it : It) : Outcome It :=
  let index := it.node.index + 1
  if index - it.offset ≥ it.items.length then
    let it' := { it with node := { it.node with index := it.offset }, elemPos := it.elemPos + 1 }
    if it.elemPos + 1 ≥ it.elemEnd then .ok it'
    else (visit mem it.items 0 it.offset (it.elemPos + 1)).bind fun r => .ok { it' with items := r.1, node := r.2 }
  else (visit mem it.items (index - it.offset) index it.elemPos).bind fun r => .ok { it with items := r.1, node := r.2 }

/-- `operator==` 86-99. -/
def It.eq (a b : It) : Bool :=
  a.identity == b.identity && a.elemEnd == b.elemEnd && a.elemPos == b.elemPos && a.node.index == b.node.index

/-- What a visitor reads: index, position, and the value with the type the node names
(`node::get`, hpp 56-60). -/
def readNode (mem : Mem α) (n : Node) : Outcome (Nat × Nat × Cell α) :=
  match n.type, n.position, n.elemPosition with
  | some none, some pos, some _ => .ok (n.index, pos, none)
  | some (some ty), some pos, some (v, p) =>
    match getAt p ty (mem v) with
    | .ok (x, _) => .ok (n.index, pos, some (ty, x))
    | .err e _ => .err e
    | .ub => .ub
  | _, _, _ => .ub

/-- `for (it = c.begin(); it != c.end(); ++it)`, reading each node; `none` when the loop has not
ended after `fuel` rounds. -/
def loop (mem : Mem α) (stop : It) : Nat → It → Option (Outcome (List (Nat × Nat × Cell α)))
  | 0, _ => none
  | fuel + 1, it =>
    if it.eq stop then some (.ok [])
    else
      match readNode mem it.node with
      | .ub => some .ub
      | .err e => some (.err e)
      | .ok v =>
        match next mem it with
        | .ub => some .ub
        | .err e => some (.err e)
        | .ok it' => (loop mem stop fuel it').map (Outcome.map (v :: ·))

/-- The whole traversal. -/
def traverse (mem : Mem α) (c : Coll) (fuel : Nat) : Option (Outcome (List (Nat × Nat × Cell α))) :=
  match begin_ mem c, end_ c with
  | .ok it, .ok stop => loop mem stop fuel it
  | .err e, _ | _, .err e => some (.err e)
  | _, _ => some .ub

end Mdds.Coll
