import Verif.Aos.Spec
import Verif.Mtv.Iter

/-!
# multi_type_vector, array of structures: iterator objects

The iterators of the array-of-structures layout as objects the caller keeps (`aos/iterator.hpp`,
`iterator_node.hpp`, `aos/main_def.inl` 71-195 and 885-990, `aos/main.hpp` 1353-1365).  An iterator holds
one position in the single array of blocks, and the end position; `update_node` copies the fields of
the block it is at.  The commands, the answers, the stores and the conventions on dangling positions are
those of `Verif/Mtv/Iter.lean`; the calls are the functions of `Verif/Aos/Model.lean`.
-/

namespace Mdds.Aos.Iter
open Mdds Mdds.Mtv Mdds.Mtv.Iter

variable {α : Type}

/-- An iterator (aos/iterator.hpp 18-82): the node, the position and the end position in the array of
blocks; `arr` is the store they belong to. -/
structure AIt where
  rev : Bool
  const : Bool
  node : Node
  arr : Option Nat
  pos : Nat
  end_ : Nat
  deriving DecidableEq, Repr

/-- `update_node` (aos/iterator.hpp 44-60). -/
def AIt.update (s : St α) (it : AIt) : Option AIt := do
  let b ← look it.rev s.blocks it.pos
  let ty := match b.data with
    | some d => some d.ty
    | none => none
  pure { it with node := { it.node with info := ⟨ty, b.pos, b.size, b.data.map EB.id⟩ } }

/-- `iterator_common_base(pos, end, parent, block_index)` (aos/iterator.hpp 32-38). -/
def AIt.make (s : St α) (rev const : Bool) (parent : Option Nat) (idx arr pos end_ : Nat) : Option AIt :=
  let it : AIt := ⟨rev, const, Node.mk0 parent idx, some arr, pos, end_⟩
  if pos ≠ end_ then it.update s else some it

/-- `begin`, `cbegin`, `rbegin`, `crbegin` (aos/main_def.inl 135-207). -/
def makeBegin (s : St α) (rev const : Bool) (c a : Nat) : Option AIt :=
  if rev then AIt.make s true const (some c) 0 a s.blocks.length 0
  else AIt.make s false const (some c) 0 a 0 s.blocks.length

/-- `end`, `cend`, `rend`, `crend` (aos/main_def.inl 141-207). -/
def makeEnd (s : St α) (rev const : Bool) (c a : Nat) : Option AIt :=
  if rev then AIt.make s true const (some c) 0 a 0 0
  else AIt.make s false const (some c) s.blocks.length a s.blocks.length s.blocks.length

/-- `get_iterator(block_index)` and `get_const_iterator` (aos/main.hpp 1353-1365); advancing beyond the
end is undefined. -/
def getIterator (s : St α) (const : Bool) (c a i : Nat) : Option AIt :=
  if i ≤ s.blocks.length then AIt.make s false const (some c) i a i s.blocks.length else none

/-- `operator++` (aos/iterator.hpp 62-70, 178-183 and 247-252; iterator_node.hpp 68-92). -/
def AIt.inc (s : St α) (it : AIt) : Option AIt := do
  let nd := if it.rev then it.node else { it.node with idx := it.node.idx + 1 }
  let pos ← stepUp it.rev s.blocks.length it.pos
  if pos = it.end_ then pure { it with node := nd, pos := pos }
  else AIt.update s { it with node := nd, pos := pos }

/-- `operator--` (aos/iterator.hpp 72-77, 185-190 and 254-259). -/
def AIt.dec (s : St α) (it : AIt) : Option AIt := do
  let pos ← stepDown it.rev s.blocks.length it.pos
  let it' ← AIt.update s { it with pos := pos }
  pure { it' with node := if it.rev then it'.node else { it'.node with idx := it'.node.idx - 1 } }

/-- `operator==` (aos/iterator.hpp 84-94 and 261-264; iterator_node.hpp 60-65). -/
def AIt.eq (x y : AIt) : Bool :=
  if x.pos ≠ x.end_ ∧ y.pos ≠ y.end_ ∧ x.node ≠ y.node then false
  else x.pos = y.pos && x.end_ = y.end_

/-- `const_iterator_base(const iterator_base&)` (aos/iterator.hpp 228-235). -/
def AIt.toConst (s : St α) (it : AIt) : Option AIt :=
  match it.arr with
  | none => none
  | some a => AIt.make s it.rev true it.node.parent it.node.idx a it.pos it.end_

/-- Containers, their stores, and the iterators the caller keeps. -/
structure AWorld (α : Type) where
  stores : Nat → Option (St α)
  ctrs : Nat → Option Nat
  its : Nat → Option AIt
  next : Nat

def AWorld.empty : AWorld α := ⟨fun _ => none, fun _ => none, fun _ => none, 0⟩

/-- The store of a container. -/
def AWorld.store (w : AWorld α) (c : Nat) : Option (Nat × St α) := do
  let a ← w.ctrs c
  let s ← w.stores a
  pure (a, s)

/-- The store an iterator's positions belong to, if it still exists. -/
def AWorld.arrays (w : AWorld α) (it : AIt) : Option (St α) := it.arr.bind w.stores

/-- The hint a call on container `c` gets from an iterator (aos/main_def.inl 919-925). -/
def AWorld.hint (w : AWorld α) (c : Nat) : Option Nat → Option At
  | none => some none
  | some i => (w.its i).map fun it => some (if it.node.parent = some c then some it.node.idx else none)

/-- Keep an iterator returned by a call on `c`, whose store is now `s` at `a`. -/
def AWorld.keep (w : AWorld α) (s : St α) (const : Bool) (c a : Nat) : Option Nat → Option Nat → Option (AWorld α)
  | some i, some k => (getIterator s const c a k).map fun it => { w with its := put w.its i (some it) }
  | _, _ => some w

/-- The container `c` with store `a` after a call that ended in `s'`: in place, or in a new store. -/
def AWorld.commit (w : AWorld α) (c a : Nat) (same : Bool) (s' : St α) : AWorld α × Nat :=
  if same then ({ w with stores := put w.stores a (some s') }, a)
  else ({ w with stores := put (put w.stores a none) w.next (some s'), ctrs := put w.ctrs c (some w.next), next := w.next + 1 },
    w.next)

/-- A modifying call. -/
def AWorld.doCall (w : AWorld α) (c : Nat) (f : Call α) (hint ret : Option Nat) : Outcome (AWorld α × Ans α) :=
  match w.store c, w.hint c hint with
  | some (a, s), some h =>
    match callRun (f.withAt h) s with
    | .ok (r, s') =>
      let (w', a') := w.commit c a (inPlace s f) s'
      match w'.keep s' false c a' ret r.idx with
      | some w'' => .ok (w'', r.ans)
      | none => .ub
    | .err e s' => .ok ({ w with stores := put w.stores a (some s') }, .threw e)
    | .ub => .ub
  | _, _ => .ub

/-- A call on two containers `c` and `d` with stores `a` and `b` ended: when it threw both are as it left
them, otherwise both get new stores and the returned iterator of `c` is kept. -/
def AWorld.both (w : AWorld α) (c d a b : Nat) (ret : Option Nat) : Res2 α (Option Nat) → Outcome (AWorld α × Ans α)
  | .ok r s t =>
    match (((w.commit c a false s).1).commit d b false t).1.keep s false c (w.commit c a false s).2 ret r with
    | some w' => .ok (w', .unit)
    | none => .ub
  | .err e s t => .ok ({ w with stores := put (put w.stores a (some s)) b (some t) }, .threw e)
  | .ub => .ub

/-- One step. -/
def AWorld.step (w : AWorld α) : Cmd α → Outcome (AWorld α × Ans α)
  | .make c k =>
    match w.ctrs c, ctorRun k with
    | none, .ok s => .ok ({ w with stores := put w.stores w.next (some s), ctrs := put w.ctrs c (some w.next), next := w.next + 1 }, .unit)
    | none, .err e => .ok (w, .threw e)
    | _, _ => .ub
  | .destroy c =>
    match w.store c with
    | some (a, _) => .ok ({ w with stores := put w.stores a none, ctrs := put w.ctrs c none }, .unit)
    | none => .ub
  -- aos/main_def.inl 4376-4382
  | .swap c d =>
    match w.ctrs c, w.ctrs d with
    | some a, some b => .ok ({ w with ctrs := put (put w.ctrs c (some b)) d (some a) }, .unit)
    | _, _ => .ub
  -- aos/main_def.inl 326-334
  | .moveNew c d =>
    match w.ctrs c, w.store d with
    | none, some (a, s) =>
      .ok ({ w with ctrs := put (put w.ctrs c (some a)) d (some w.next), stores := put w.stores w.next (some (husk s)),
                    next := w.next + 1 }, .unit)
    | _, _ => .ub
  -- aos/main_def.inl 4525-4532
  | .moveTo c d =>
    match w.store c, w.store d with
    | some (a, _), some (b, s) =>
      if c = d then .ok (w, .unit)
      else .ok ({ w with ctrs := put (put w.ctrs c (some b)) d (some w.next),
                         stores := put (put w.stores a none) w.next (some (husk s)), next := w.next + 1 }, .unit)
    | _, _ => .ub
  | .call c f hint ret => w.doCall c f hint ret
  -- `c = d`: `C57_self_transfer_fails`
  | .transfer c d first last dest hint ret =>
    if c = d then .ub
    else
      match w.store c, w.store d, w.hint c hint with
      | some (a, s), some (b, t), some h => w.both c d a b ret ((Aos.transfer h first last dest s t).map some)
      | _, _, _ => .ub
  | .swapRange c d first last dest =>
    if c = d then .ub
    else
      match w.store c, w.store d with
      | some (a, s), some (b, t) => w.both c d a b none ((Aos.swapRange first last dest s t).map fun _ => none)
      | _, _ => .ub
  -- aos/main_def.inl 1674-1760
  | .position c const pos hint ret =>
    match w.store c, w.hint c hint with
    | some (a, s), some h =>
      match Aos.position h pos s with
      | .ok (r, _) =>
        match w.keep s const c a (some ret) (some r.1) with
        | some w' => .ok (w', .num r.2)
        | none => .ub
      | .err e _ => .ok (w, .threw e)
      | .ub => .ub
    | _, _ => .ub
  | .begin_ c rev const i =>
    match w.store c with
    | some (a, s) =>
      match makeBegin s rev const c a with
      | some it => .ok ({ w with its := put w.its i (some it) }, .unit)
      | none => .ub
    | none => .ub
  | .end_ c rev const i =>
    match w.store c with
    | some (a, s) =>
      match makeEnd s rev const c a with
      | some it => .ok ({ w with its := put w.its i (some it) }, .unit)
      | none => .ub
    | none => .ub
  -- aos/iterator.hpp 29-30
  | .fresh rev const i => .ok ({ w with its := put w.its i (some ⟨rev, const, Node.mk0 none 0, none, 0, 0⟩) }, .unit)
  -- aos/iterator.hpp 40-42 and 96-102
  | .copy i j =>
    match w.its j with
    | some it => .ok ({ w with its := put w.its i (some it) }, .unit)
    | none => .ub
  | .convert i j =>
    match w.its j with
    | some it =>
      match w.arrays it with
      | some s =>
        match it.toConst s with
        | some it' => if it.const then .ub else .ok ({ w with its := put w.its i (some it') }, .unit)
        | none => .ub
      | none => .ub
    | none => .ub
  -- aos/iterator.hpp 104-109
  | .swapIt i j =>
    match w.its i, w.its j with
    | some x, some y =>
      if x.rev = y.rev ∧ x.const = y.const then .ok ({ w with its := put (put w.its i (some y)) j (some x) }, .unit) else .ub
    | _, _ => .ub
  | .inc i =>
    match w.its i with
    | some it =>
      match w.arrays it with
      | some s =>
        match it.inc s with
        | some it' => .ok ({ w with its := put w.its i (some it') }, .unit)
        | none => .ub
      | none => .ub
    | none => .ub
  | .dec i =>
    match w.its i with
    | some it =>
      match w.arrays it with
      | some s =>
        match it.dec s with
        | some it' => .ok ({ w with its := put w.its i (some it') }, .unit)
        | none => .ub
      | none => .ub
    | none => .ub
  -- aos/iterator.hpp 158-176 and 237-245
  | .deref i =>
    match w.its i with
    | some it => .ok (w, .info it.node.info)
    | none => .ub
  | .equal i j =>
    match w.its i, w.its j with
    | some x, some y =>
      if x.rev = y.rev ∧ x.const = y.const ∧ x.arr = y.arr ∧ (w.arrays x).isSome then .ok (w, .bool (x.eq y)) else .ub
    | _, _ => .ub
  -- aos/main_def.inl 71-112; a reverse iterator is not a position
  | .next i off =>
    match w.its i with
    | some it =>
      if it.rev then .ub
      else if off + 1 < it.node.info.size then .ok (w, .num (off + 1))
      else
        match w.arrays it with
        | some s =>
          match it.inc s with
          | some it' => .ok ({ w with its := put w.its i (some it') }, .num 0)
          | none => .ub
        | none => .ub
    | none => .ub
  -- aos/main_def.inl 122-126
  | .logical i off =>
    match w.its i with
    | some it => if it.rev then .ub else .ok (w, .num (it.node.info.pos + off))
    | none => .ub

/-- A program: the answers, in order, and the final world. -/
def AWorld.run (w : AWorld α) : List (Cmd α) → Outcome (AWorld α × List (Ans α))
  | [] => .ok (w, [])
  | c :: cs =>
    match w.step c with
    | .ok (w', x) =>
      match w'.run cs with
      | .ok (w'', xs) => .ok (w'', x :: xs)
      | .err e => .err e
      | .ub => .ub
    | .err e => .err e
    | .ub => .ub

end Mdds.Aos.Iter
