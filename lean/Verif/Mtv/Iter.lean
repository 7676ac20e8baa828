import Verif.Mtv.Spec
import Verif.Mtv.Swap

/-!
# multi_type_vector: iterator objects

The iterators of the structure-of-arrays layout as objects that the caller keeps, copies,
moves, compares and uses as position hints while containers change, are swapped, moved and
destroyed (`soa/iterator.hpp`, `iterator_node.hpp`, `soa/main_def.inl` 303-359 and 4064-4190).

* An iterator holds a *copy* of the description of its block (the node), the address of the
  container, for forward iterators also the block index, and one position in each of the three
  parallel arrays together with the three end positions.
* The arrays of a container live in a *store* with its own identity.  Swapping and moving
  containers passes stores on, so positions in them stay usable; destroying a container ends
  its store.  A call that may move the contents of the arrays gives its container a new store:
  positions in the old one are dangling.  The calls that write in place are `set` on a cell that
  already has the type of the value, `push_back` of a value of the type of the last block (both change
  no array length) and calls that throw.
* Using a dangling or default constructed position other than by copying the iterator, reading
  its node or passing it as a hint is undefined.  So is comparing positions of two stores.
* A reverse iterator is modelled by the index of its `base()`.
* Comparing or converting iterators of different kinds does not compile; it is `ub` here.
* `transfer` and the range `swap` give both containers new stores; a container with itself is left
  out here (`C33_self`).
* Not modelled: `get(pos)` (see C29), post-increment (absent), copy-on-write containers,
  printing.
-/

namespace Mdds.Mtv.Iter
open Mdds

variable {α : Type}

/-- The public fields of `iterator_value_node` (iterator_node.hpp 14-30): type, position, size
and the address of the element block. -/
structure Info where
  ty : Option Ty
  pos : Nat
  size : Nat
  data : Option Nat
  deriving DecidableEq, Repr

/-- The fields for a block. -/
def _root_.Mdds.Mtv.Blk.info (b : Blk α) : Info := ⟨b.ty, b.pos, b.size, b.data.map EB.id⟩

/-- `iterator_value_node` with `__private_data` (iterator_node.hpp 14-75). -/
structure Node where
  info : Info
  parent : Option Nat
  idx : Nat
  deriving DecidableEq, Repr

/-- `iterator_value_node(parent, block_index)` (iterator_node.hpp 24-30). -/
def Node.mk0 (parent : Option Nat) (idx : Nat) : Node := ⟨⟨none, 0, 0, none⟩, parent, idx⟩

/-- `grouped_iterator_type` (soa/iterator.hpp 50-82): positions in the three arrays. -/
structure Cur where
  p : Nat
  s : Nat
  b : Nat
  deriving DecidableEq, Repr

/-- An iterator: `iterator`, `const_iterator`, `reverse_iterator` or `const_reverse_iterator`
(`rev`, `const`); `arr` is the store its positions belong to. -/
structure It where
  rev : Bool
  const : Bool
  node : Node
  arr : Option Nat
  pos : Cur
  end_ : Cur
  deriving DecidableEq, Repr

/-- `++` on a position in an array of `n` elements. -/
def stepUp (rev : Bool) (n i : Nat) : Option Nat :=
  if rev then (if i = 0 then none else some (i - 1)) else if i < n then some (i + 1) else none

/-- `--` on a position in an array of `n` elements. -/
def stepDown (rev : Bool) (n i : Nat) : Option Nat :=
  if rev then (if i < n then some (i + 1) else none) else if i = 0 then none else some (i - 1)

/-- `*` on a position in an array. -/
def look {τ : Type} (rev : Bool) (l : List τ) (i : Nat) : Option τ :=
  if rev then (if i = 0 then none else l[i - 1]?) else l[i]?

/-- `grouped_iterator_type::inc` (soa/iterator.hpp 56-61). -/
def Cur.inc (rev : Bool) (n : Nat) (c : Cur) : Option Cur := do
  let p ← stepUp rev n c.p
  let s ← stepUp rev n c.s
  let b ← stepUp rev n c.b
  pure ⟨p, s, b⟩

/-- `grouped_iterator_type::dec` (soa/iterator.hpp 63-68). -/
def Cur.dec (rev : Bool) (n : Nat) (c : Cur) : Option Cur := do
  let p ← stepDown rev n c.p
  let s ← stepDown rev n c.s
  let b ← stepDown rev n c.b
  pure ⟨p, s, b⟩

/-- `update_node` (soa/iterator.hpp 113-129). -/
def It.update (s : St α) (it : It) : Option It := do
  let p ← look it.rev (s.blocks.map Blk.pos) it.pos.p
  let n ← look it.rev (s.blocks.map Blk.size) it.pos.s
  let d ← look it.rev (s.blocks.map Blk.data) it.pos.b
  pure { it with node := { it.node with info := ⟨d.map EB.ty, p, n, d.map EB.id⟩ } }

/-- `iterator_updater(pos, end, parent, block_index)` (soa/iterator.hpp 91-98). -/
def It.make (s : St α) (rev const : Bool) (parent : Option Nat) (idx arr : Nat) (pos end_ : Cur) : Option It :=
  let it : It := ⟨rev, const, Node.mk0 parent idx, some arr, pos, end_⟩
  if pos = end_ then some it else it.update s

/-- All three positions at one index. -/
def Cur.all (i : Nat) : Cur := ⟨i, i, i⟩

/-- `begin`, `cbegin`, `rbegin`, `crbegin` (soa/main_def.inl 4064-4190) of container `c` with
store `a`. -/
def makeBegin (s : St α) (rev const : Bool) (c a : Nat) : Option It :=
  if rev then It.make s true const (some c) 0 a (.all s.blocks.length) (.all 0)
  else It.make s false const (some c) 0 a (.all 0) (.all s.blocks.length)

/-- `end`, `cend`, `rend`, `crend` (soa/main_def.inl 4072-4200). -/
def makeEnd (s : St α) (rev const : Bool) (c a : Nat) : Option It :=
  if rev then It.make s true const (some c) 0 a (.all 0) (.all 0)
  else It.make s false const (some c) s.blocks.length a (.all s.blocks.length) (.all s.blocks.length)

/-- `get_iterator(block_index)` and `get_const_iterator` (soa/main.hpp 1510-1538). -/
def getIterator (s : St α) (const : Bool) (c a i : Nat) : Option It :=
  if i ≤ s.blocks.length then It.make s false const (some c) i a (.all i) (.all s.blocks.length) else none

/-- `operator++` (soa/iterator.hpp 131-139 and 250-255; iterator_node.hpp 77-107): the block
index of a forward iterator, the positions, then the node unless at the end. -/
def It.inc (s : St α) (it : It) : Option It := do
  let nd := if it.rev then it.node else { it.node with idx := it.node.idx + 1 }
  let pos ← it.pos.inc it.rev s.blocks.length
  if pos = it.end_ then pure { it with node := nd, pos := pos }
  else It.update s { it with node := nd, pos := pos }

/-- `operator--` (soa/iterator.hpp 141-146 and 257-262). -/
def It.dec (s : St α) (it : It) : Option It := do
  let pos ← it.pos.dec it.rev s.blocks.length
  let it' ← It.update s { it with pos := pos }
  pure { it' with node := if it.rev then it'.node else { it'.node with idx := it'.node.idx - 1 } }

/-- `operator==` (soa/iterator.hpp 159-169; iterator_node.hpp 70-75). -/
def It.eq (x y : It) : Bool :=
  if x.pos ≠ x.end_ ∧ y.pos ≠ y.end_ ∧ x.node ≠ y.node then false
  else x.pos = y.pos && x.end_ = y.end_

/-- `const_iterator_base(const iterator_base&)` (soa/iterator.hpp 318-326): the node is read
again. -/
def It.toConst (s : St α) (it : It) : Option It :=
  match it.arr with
  | none => none
  | some a => It.make s it.rev true it.node.parent it.node.idx a it.pos it.end_

/-- Containers (by name), their stores, the iterators (by name) the caller keeps. -/
structure World (α : Type) where
  stores : Nat → Option (St α)
  ctrs : Nat → Option Nat
  its : Nat → Option It
  next : Nat

def World.empty : World α := ⟨fun _ => none, fun _ => none, fun _ => none, 0⟩

/-- `f` with `x` at `i`. -/
def put {τ : Type} (f : Nat → Option τ) (i : Nat) (x : Option τ) : Nat → Option τ := fun j => if j = i then x else f j

/-- The store of a container. -/
def World.store (w : World α) (c : Nat) : Option (Nat × St α) := do
  let a ← w.ctrs c
  let s ← w.stores a
  pure (a, s)

/-- The store an iterator's positions belong to, if it still exists. -/
def World.arrays (w : World α) (it : It) : Option (St α) := it.arr.bind w.stores

/-- What the caller does. -/
inductive Cmd (α : Type) where
  /-- a constructor -/
  | make (c : Nat) (k : Ctor α)
  | destroy (c : Nat)
  /-- `c.swap(d)` -/
  | swap (c d : Nat)
  /-- `multi_type_vector c(std::move(d))` -/
  | moveNew (c d : Nat)
  /-- `c = std::move(d)` -/
  | moveTo (c d : Nat)
  /-- a modifying call, optionally with the iterator `hint`, and with the returned iterator kept
  as `ret`; the call's own `At` is not used -/
  | call (c : Nat) (f : Call α) (hint ret : Option Nat)
  /-- `c.transfer(first, last, d, dest)`, `c.transfer(hint, first, last, d, dest)` -/
  | transfer (c d first last dest : Nat) (hint ret : Option Nat)
  /-- `c.swap(first, last, d, dest)` -/
  | swapRange (c d first last dest : Nat)
  /-- `position(pos)`, `position(hint, pos)`, the iterator kept as `ret` -/
  | position (c : Nat) (const : Bool) (pos : Nat) (hint : Option Nat) (ret : Nat)
  | begin_ (c : Nat) (rev const : Bool) (i : Nat)
  | end_ (c : Nat) (rev const : Bool) (i : Nat)
  /-- a default constructed iterator -/
  | fresh (rev const : Bool) (i : Nat)
  /-- `i = j`, also copy construction -/
  | copy (i j : Nat)
  /-- `i = const_iterator(j)` -/
  | convert (i j : Nat)
  /-- `i.swap(j)` -/
  | swapIt (i j : Nat)
  | inc (i : Nat)
  | dec (i : Nat)
  /-- `*i` -/
  | deref (i : Nat)
  /-- `i == j` -/
  | equal (i j : Nat)
  /-- `next_position({i, off})`, with the new iterator back in `i` -/
  | next (i off : Nat)
  /-- `logical_position({i, off})` -/
  | logical (i off : Nat)

/-- What the caller sees. -/
inductive Ans (α : Type) where
  | unit
  | info (x : Info)
  | bool (b : Bool)
  | num (n : Nat)
  | value (v : Option α)
  | threw (e : Err)
  deriving DecidableEq, Repr

/-- The call with a given overload and hint. -/
def _root_.Mdds.Mtv.Call.withAt (h : At) : Call α → Call α
  | .set _ pos ty x => .set h pos ty x
  | .setRange _ pos ty vs => .setRange h pos ty vs
  | .insert _ pos ty vs => .insert h pos ty vs
  | .insertEmpty _ pos n => .insertEmpty h pos n
  | .setEmpty _ p q => .setEmpty h p q
  | .release _ pos ty => .release h pos ty
  | .releaseRange _ p q => .releaseRange h p q
  | c => c

/-- Calls that change no array length and move no element of the arrays: see the header. -/
def inPlace (s : St α) : Call α → Bool
  | .set _ pos ty _ => typeAt (contents s) pos = some ty
  | .pushBack ty _ => (s.blocks.getLast?.bind Blk.ty) = some ty
  | _ => false

/-- The hint a call on container `c` gets from an iterator: its block index when it was made by
this container (the test `pos_data.parent == this`, soa/main_def.inl 4230-4263; whether the
index exists is tested in `getBlockPositionHint`). -/
def World.hint (w : World α) (c : Nat) : Option Nat → Option At
  | none => some none
  | some i => (w.its i).map fun it => some (if it.node.parent = some c then some it.node.idx else none)

/-- The iterator a call returned. -/
def _root_.Mdds.Mtv.Ret.idx : Ret α → Option Nat
  | .unit => none
  | .iter i => some i
  | .val _ i => some i

/-- The value a call returned. -/
def _root_.Mdds.Mtv.Ret.ans : Ret α → Ans α
  | .val v _ => .value v
  | _ => .unit

/-- Keep an iterator returned by a call on `c`, whose store is now `s` at `a`. -/
def World.keep (w : World α) (s : St α) (const : Bool) (c a : Nat) : Option Nat → Option Nat → Option (World α)
  | some i, some k => (getIterator s const c a k).map fun it => { w with its := put w.its i (some it) }
  | _, _ => some w

/-- The container `c` with store `a` after a call that ended in `s'`. -/
def World.commit (w : World α) (c a : Nat) (same : Bool) (s' : St α) : World α × Nat :=
  if same then ({ w with stores := put w.stores a (some s') }, a)
  else ({ w with stores := put (put w.stores a none) w.next (some s'), ctrs := put w.ctrs c (some w.next), next := w.next + 1 },
    w.next)

/-- A moved-from block store: the arrays are empty; `m_cur_size` is only copied. -/
def husk (s : St α) : St α := ⟨[], s.cur, [], [], s.next⟩

/-- A modifying call. -/
def World.doCall (w : World α) (c : Nat) (f : Call α) (hint ret : Option Nat) : Outcome (World α × Ans α) :=
  match w.store c, w.hint c hint with
  | some (a, s), some h =>
    match (f.withAt h).run s with
    | .ok (r, s') =>
      let (w', a') := w.commit c a (inPlace s f) s'
      match w'.keep s' false c a' ret r.idx with
      | some w'' => .ok (w'', r.ans)
      | none => .ub
    | .err e s' => .ok ({ w with stores := put w.stores a (some s') }, .threw e)
    | .ub => .ub
  | _, _ => .ub

def _root_.Mdds.Mtv.Res2.map {β γ : Type} (f : β → γ) : Res2 α β → Res2 α γ
  | .ok r s t => .ok (f r) s t
  | .err e s t => .err e s t
  | .ub => .ub

/-- A call on two containers `c` and `d` with stores `s` at `a` and `t` at `b` ended: when it threw
both are as it left them, otherwise both get new stores and the returned iterator of `c` is kept. -/
def World.both (w : World α) (c d a b : Nat) (ret : Option Nat) : Res2 α (Option Nat) → Outcome (World α × Ans α)
  | .ok r s t =>
    match (((w.commit c a false s).1).commit d b false t).1.keep s false c (w.commit c a false s).2 ret r with
    | some w' => .ok (w', .unit)
    | none => .ub
  | .err e s t => .ok ({ w with stores := put (put w.stores a (some s)) b (some t) }, .threw e)
  | .ub => .ub

/-- One step. -/
def World.step (w : World α) : Cmd α → Outcome (World α × Ans α)
  | .make c k =>
    match w.ctrs c, k.run with
    | none, .ok s => .ok ({ w with stores := put w.stores w.next (some s), ctrs := put w.ctrs c (some w.next), next := w.next + 1 }, .unit)
    | none, .err e => .ok (w, .threw e)
    | _, _ => .ub
  | .destroy c =>
    match w.store c with
    | some (a, _) => .ok ({ w with stores := put w.stores a none, ctrs := put w.ctrs c none }, .unit)
    | none => .ub
  -- soa/main_def.inl 5429-5437 and 253-258
  | .swap c d =>
    match w.ctrs c, w.ctrs d with
    | some a, some b => .ok ({ w with ctrs := put (put w.ctrs c (some b)) d (some a) }, .unit)
    | _, _ => .ub
  -- soa/main_def.inl 518-527
  | .moveNew c d =>
    match w.ctrs c, w.store d with
    | none, some (a, s) =>
      .ok ({ w with ctrs := put (put w.ctrs c (some a)) d (some w.next), stores := put w.stores w.next (some (husk s)),
                    next := w.next + 1 }, .unit)
    | _, _ => .ub
  -- soa/main_def.inl 5549-5558: a temporary takes the source's arrays, swaps with `c` and is destroyed
  | .moveTo c d =>
    match w.store c, w.store d with
    | some (a, _), some (b, s) =>
      if c = d then .ok (w, .unit)
      else .ok ({ w with ctrs := put (put w.ctrs c (some b)) d (some w.next),
                         stores := put (put w.stores a none) w.next (some (husk s)), next := w.next + 1 }, .unit)
    | _, _ => .ub
  | .call c f hint ret => w.doCall c f hint ret
  -- soa/main_def.inl 778-896
  | .transfer c d first last dest hint ret =>
    if c = d then .ub
    else
      match w.store c, w.store d, w.hint c hint with
      | some (a, s), some (b, t), some h => w.both c d a b ret ((Mtv.transfer false h first last dest s t).map some)
      | _, _, _ => .ub
  -- soa/main_def.inl 5438-5505
  | .swapRange c d first last dest =>
    if c = d then .ub
    else
      match w.store c, w.store d with
      | some (a, s), some (b, t) => w.both c d a b none ((Mtv.swapRange first last dest s t).map fun _ => none)
      | _, _ => .ub
  -- soa/main_def.inl 683-777
  | .position c const pos hint ret =>
    match w.store c, w.hint c hint with
    | some (a, s), some h =>
      match Mtv.position h pos s with
      | .ok (r, _) =>
        match w.keep s const c a (some ret) (some r.1) with
        | some w' => .ok (w', .num r.2)
        | none => .ub
      | .err e _ => .ok (w, .threw e)
      | .ub => .ub
    | _, _ => .ub
  | .begin_ c rev const i =>
    match w.store c with
    | some (a, s) =>
      match makeBegin s rev const c a with
      | some it => .ok ({ w with its := put w.its i (some it) }, .unit)
      | none => .ub
    | none => .ub
  | .end_ c rev const i =>
    match w.store c with
    | some (a, s) =>
      match makeEnd s rev const c a with
      | some it => .ok ({ w with its := put w.its i (some it) }, .unit)
      | none => .ub
    | none => .ub
  -- soa/iterator.hpp 88-89
  | .fresh rev const i => .ok ({ w with its := put w.its i (some ⟨rev, const, Node.mk0 none 0, none, .all 0, .all 0⟩) }, .unit)
  -- soa/iterator.hpp 108-111 and 171-177
  | .copy i j =>
    match w.its j with
    | some it => .ok ({ w with its := put w.its i (some it) }, .unit)
    | none => .ub
  | .convert i j =>
    match w.its j with
    | some it =>
      match w.arrays it with
      | some s =>
        match it.toConst s with
        | some it' => if it.const then .ub else .ok ({ w with its := put w.its i (some it') }, .unit)
        | none => .ub
      | none => .ub
    | none => .ub
  -- soa/iterator.hpp 179-184
  | .swapIt i j =>
    match w.its i, w.its j with
    | some x, some y =>
      if x.rev = y.rev ∧ x.const = y.const then .ok ({ w with its := put (put w.its i (some y)) j (some x) }, .unit) else .ub
    | _, _ => .ub
  | .inc i =>
    match w.its i with
    | some it =>
      match w.arrays it with
      | some s =>
        match it.inc s with
        | some it' => .ok ({ w with its := put w.its i (some it') }, .unit)
        | none => .ub
      | none => .ub
    | none => .ub
  | .dec i =>
    match w.its i with
    | some it =>
      match w.arrays it with
      | some s =>
        match it.dec s with
        | some it' => .ok ({ w with its := put w.its i (some it') }, .unit)
        | none => .ub
      | none => .ub
    | none => .ub
  -- soa/iterator.hpp 230-248: always the node
  | .deref i =>
    match w.its i with
    | some it => .ok (w, .info it.node.info)
    | none => .ub
  | .equal i j =>
    match w.its i, w.its j with
    | some x, some y =>
      if x.rev = y.rev ∧ x.const = y.const ∧ x.arr = y.arr ∧ (w.arrays x).isSome then .ok (w, .bool (x.eq y)) else .ub
    | _, _ => .ub
  -- soa/main_def.inl 303-344; a reverse iterator is not a position
  | .next i off =>
    match w.its i with
    | some it =>
      if it.rev then .ub
      else if off + 1 < it.node.info.size then .ok (w, .num (off + 1))
      else
        match w.arrays it with
        | some s =>
          match it.inc s with
          | some it' => .ok ({ w with its := put w.its i (some it') }, .num 0)
          | none => .ub
        | none => .ub
    | none => .ub
  -- soa/main_def.inl 354-359
  | .logical i off =>
    match w.its i with
    | some it => if it.rev then .ub else .ok (w, .num (it.node.info.pos + off))
    | none => .ub

/-- A program: the answers, in order, and the final world. -/
def World.run (w : World α) : List (Cmd α) → Outcome (World α × List (Ans α))
  | [] => .ok (w, [])
  | c :: cs =>
    match w.step c with
    | .ok (w', x) =>
      match w'.run cs with
      | .ok (w'', xs) => .ok (w'', x :: xs)
      | .err e => .err e
      | .ub => .ub
    | .err e => .err e
    | .ub => .ub

end Mdds.Mtv.Iter
