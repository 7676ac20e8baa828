import Verif.Trie.IterLemmas

/-!
# trie_map: iterators kept while the map changes

Source: `/repo/include/mdds/trie_map_itr.hpp` (`itr.hpp`), `trie_map_def.inl` (`tm.inl`), `trie_map.hpp` (`tm.hpp`).

`Model.lean` copies the nodes into the iterator, so there an iterator cannot notice that the map was changed
after the iterator was made.  Here an iterator holds what the code holds: pointers to nodes and positions in
`std::map` objects.

Simplifications for the whole file:
* a node is named by its path from the root.  Elements of a `std::map` never move, so a pointer to a node, or a
  position at a child, stays good until that very element is removed; from then on the reference is `dead`,
  also if a node is created at the same path again;
* a position is named by the unit of the child that it refers to, or it is the end position, which stays good
  as long as its map exists;
* the value under a pointer is the current value of the node.  (The code does not reset the value object when
  a key with longer keys below it is erased; reading it through an old iterator is the outcome `.err`, not an
  answer.)
* one map; move construction and `swap` are not part of this model.
-/
namespace Mdds.Trie.Kept
open Mdds.Trie

variable {V : Type}

/-- `trie_node*` (`tm.hpp` 196-209). -/
inductive Ptr where
  | live (path : Key)
  | dead
  deriving DecidableEq, Repr

/-- `std::map<key_unit_type, trie_node>::iterator` (`tm.hpp` 198). -/
inductive Pos where
  | child (c : Nat)
  | end_
  | dead
  deriving DecidableEq, Repr

/-- `stack_item` (`tm.hpp` 211-231). -/
structure Item where
  node : Ptr
  pos : Pos
  deriving DecidableEq, Repr

/-- `iterator_base` (`itr.hpp` 88-93).  Top of the stack first. -/
structure It where
  stack : List Item
  buf : Key
  key : Key
  value : Ptr
  kind : Kind
  deriving DecidableEq, Repr

/-- The node behind a pointer. -/
def node (root : Node V) : Ptr → Outcome (Node V)
  | .live p => match findNode p root with
    | some n => .ok n
    | none => .ub
  | .dead => .ub

/-- Pointer to a child, `&child_pos->second`. -/
def Ptr.child : Ptr → Nat → Ptr
  | .live p, c => .live (p ++ [c])
  | .dead, _ => .dead

/-- Where a position stands among the children of its node. -/
def rank (ks : Kids V) : Pos → Option Nat
  | .child c => ks.idxOf? c
  | .end_ => some ks.length
  | .dead => none

/-- Position with a given rank. -/
def posAt (ks : Kids V) (i : Nat) : Pos :=
  match ks.get? i with
  | some (c, _) => .child c
  | none => .end_

/-- `children.begin()`. -/
def first (ks : Kids V) : Pos := posAt ks 0

/-- `++child_pos`; beyond the end it is undefined. -/
def next (ks : Kids V) (p : Pos) : Outcome Pos :=
  match rank ks p with
  | none => .ub
  | some i => if i < ks.length then .ok (posAt ks (i + 1)) else .ub

/-- `--child_pos`; before the first child it is undefined. -/
def prev (ks : Kids V) (p : Pos) : Outcome Pos :=
  match rank ks p with
  | some (j + 1) => .ok (posAt ks j)
  | _ => .ub

/-- `push_child_node_to_stack` (`itr.hpp` 95-103) for the child `c` of the node behind `p`. -/
def pushChild (root : Node V) (p : Ptr) (c : Nat) : Outcome Item :=
  match node root (p.child c) with
  | .ok n => .ok ⟨p.child c, first n.kids⟩
  | .err e => .err e
  | .ub => .ub

/-- State of the walk: stack, key buffer, kind. -/
structure Walk where
  stack : List Item
  buf : Key
  kind : Kind
  deriving DecidableEq, Repr

/-- The upward part of `operator++` (`itr.hpp` 175-205); the first item is the top of the stack. -/
def goUp (root : Node V) (x : Item) : List Item → Key → Outcome Walk
  | [], buf => .ok ⟨[x], buf, .end_⟩
  | it :: st, buf =>
    match node root it.node with
    | .err e => .err e
    | .ub => .ub
    | .ok n => match next n.kids it.pos with
      | .err e => .err e
      | .ub => .ub
      | .ok (.child c) => match pushChild root it.node c with
        | .ok top => .ok ⟨top :: ⟨it.node, .child c⟩ :: st, buf.dropLast ++ [c], .normal⟩
        | .err e => .err e
        | .ub => .ub
      | .ok p => goUp root ⟨it.node, p⟩ st buf.dropLast

/-- One round of the loop of `operator++` (`itr.hpp` 168-211): with children the code follows
`children.begin()` and leaves the stored position of the item as it is. -/
def incRound (root : Node V) (x : Item) (st : List Item) (buf : Key) (n : Node V) : Outcome Walk :=
  match n.kids with
  | .nil => goUp root x st buf
  | .cons c _ _ _ => match pushChild root x.node c with
    | .ok top => .ok ⟨top :: x :: st, buf ++ [c], .normal⟩
    | .err e => .err e
    | .ub => .ub

/-- The loop of `operator++` (`itr.hpp` 164-211), at most as many rounds as the first argument says. -/
def incLoop (root : Node V) : Nat → List Item → Key → Outcome Walk
  | _, [], _ => .ub
  | 0, _ :: _, _ => .ub
  | fuel + 1, it :: st, buf =>
    match node root it.node with
    | .err e => .err e
    | .ub => .ub
    | .ok n => match incRound root it st buf n with
      | .err e => .err e
      | .ub => .ub
      | .ok w =>
        if w.kind = .end_ then .ok w
        else match w.stack with
          | [] => .ub
          | top :: _ => match node root top.node with
            | .err e => .err e
            | .ub => .ub
            | .ok m => if m.val.isSome then .ok w else incLoop root fuel w.stack w.buf

/-- The iterator after a walk: at the end position the current key and value stay as they were
(`itr.hpp` 189-190), else they are set from the buffer and the top node (`itr.hpp` 213-215, 292-294). -/
def settle (it : It) (w : Walk) : Outcome It :=
  if w.kind = .end_ then .ok { it with stack := w.stack, buf := w.buf, kind := .end_ }
  else match w.stack with
    | [] => .ub
    | top :: _ => .ok ⟨w.stack, w.buf, w.buf, top.node, w.kind⟩

/-- Bound for the number of rounds of a walk: one more than the number of nodes. -/
def rounds (root : Node V) : Nat := root.kids.nodes + 1

/-- `operator++` (`itr.hpp` 164-217). -/
def inc (root : Node V) (it : It) : Outcome It :=
  match incLoop root (rounds root) it.stack it.buf with
  | .ok w => settle it w
  | .err e => .err e
  | .ub => .ub

/-- `descend_to_previus_leaf_node` (`itr.hpp` 109-129). -/
def descPrev (root : Node V) : Nat → List Item → Key → Outcome (List Item × Key)
  | _, [], _ => .ub
  | 0, _ :: _, _ => .ub
  | fuel + 1, it :: st, buf =>
    match node root it.node with
    | .err e => .err e
    | .ub => .ub
    | .ok n => match prev n.kids it.pos with
      | .err e => .err e
      | .ub => .ub
      | .ok (.child c) => match node root (it.node.child c) with
        | .err e => .err e
        | .ub => .ub
        | .ok ch =>
          if ch.kids.isEmpty then .ok (⟨it.node.child c, .end_⟩ :: ⟨it.node, .child c⟩ :: st, buf ++ [c])
          else descPrev root fuel (⟨it.node.child c, .end_⟩ :: ⟨it.node, .child c⟩ :: st) (buf ++ [c])
      | .ok _ => .ub

/-- Result of a descent. -/
def walkOf : Outcome (List Item × Key) → Outcome Walk
  | .ok (st, buf) => .ok ⟨st, buf, .normal⟩
  | .err e => .err e
  | .ub => .ub

/-- Third branch of `operator--` (`itr.hpp` 242-265); asking whether a dead position is the first one is
undefined. -/
def decLeaf (root : Node V) (fuel : Nat) : List Item → Key → Outcome Walk
  | _ :: it :: st, buf =>
    match node root it.node with
    | .err e => .err e
    | .ub => .ub
    | .ok p =>
      if it.pos = .dead then .ub
      else if it.pos ≠ first p.kids then walkOf (descPrev root fuel (it :: st) buf.dropLast)
      else if p.val.isSome then .ok ⟨it :: st, buf.dropLast, .normal⟩
      else decLeaf root fuel (it :: st) buf.dropLast
  | _, _ => .ub

/-- Fourth branch of `operator--` (`itr.hpp` 266-290). -/
def decInner (root : Node V) (fuel : Nat) : List Item → Key → Outcome Walk
  | [_, it], buf => walkOf (descPrev root fuel [it] buf.dropLast)
  | _ :: it :: x :: st, buf =>
    match node root it.node with
    | .err e => .err e
    | .ub => .ub
    | .ok p =>
      if p.val.isSome then .ok ⟨it :: x :: st, buf.dropLast, .normal⟩
      else decInner root fuel (it :: x :: st) buf.dropLast
  | _, _ => .ub

/-- `operator--` (`itr.hpp` 226-290), up to the update of the current key. -/
def decWalk (root : Node V) (it : It) : Outcome Walk :=
  match it.stack with
  | [] => .ub
  | top :: st =>
    match node root top.node with
    | .err e => .err e
    | .ub => .ub
    | .ok n =>
      if it.kind = .end_ ∧ n.val.isSome then .ok ⟨it.stack, it.buf, .normal⟩
      else if st.isEmpty then walkOf (descPrev root (rounds root) it.stack it.buf)
      else if n.kids.isEmpty then decLeaf root (rounds root) it.stack it.buf
      else decInner root (rounds root) it.stack it.buf

/-- `operator--` (`itr.hpp` 226-296). -/
def dec (root : Node V) (it : It) : Outcome It :=
  match decWalk root it with
  | .ok w => settle it w
  | .err e => .err e
  | .ub => .ub

/-- `operator*` and `operator->` (`itr.hpp` 154-162).  A node whose value was erased is reported as `.err`. -/
def deref (root : Node V) (it : It) : Outcome (Key × V) :=
  match node root it.value with
  | .ok n => match n.val with
    | some v => .ok (it.key, v)
    | none => .err .keyNotFound
  | .err e => .err e
  | .ub => .ub

/-- A child is changed through a pointer to it. -/
def _root_.Mdds.Trie.Kids.change (c : Nat) (f : Node V → Node V) : Kids V → Kids V
  | .nil => .nil
  | .cons d v k r => if d = c then .cons d (f ⟨v, k⟩).val (f ⟨v, k⟩).kids r else .cons d v k (r.change c f)

/-- The value object of the node at a path is assigned to; `has_value` and the children stay. -/
def setValue (v : V) : Key → Node V → Node V
  | [], n => ⟨n.val.map fun _ => v, n.kids⟩
  | c :: k, n => ⟨n.val, n.kids.change c (setValue v k)⟩

/-- `it->second = v` and `(*it).second = v` (`itr.hpp` 154-162, `ref_pair.hpp` 14-53).  As for reading, a node whose value was
erased is reported as `.err`. -/
def write (root : Node V) (it : It) (v : V) : Outcome (Node V) :=
  match it.value with
  | .dead => .ub
  | .live p => match findNode p root with
    | none => .ub
    | some n => if n.val.isSome then .ok (setValue v p root) else .err .keyNotFound

/-- `operator==` of iterators (`itr.hpp` 143-152, `tm.hpp` 226-230). -/
def eq (a b : It) : Outcome Bool :=
  if a.kind ≠ b.kind then .ok false
  else if a.kind = .empty then .ok true
  else match a.stack, b.stack with
    | x :: _, y :: _ =>
      if x.node = .dead ∨ y.node = .dead then .ub
      else if x.node ≠ y.node then .ok false
      else if x.pos = .dead ∨ y.pos = .dead then .ub
      else .ok (decide (x.pos = y.pos))
    | _, _ => .ub

/-- Constructor from a stack and a buffer (`itr.hpp` 138-141). -/
def mkIt (st : List Item) (buf : Key) (kind : Kind) : Outcome It :=
  match st with
  | [] => .ub
  | top :: _ => .ok ⟨st, buf, buf, top.node, kind⟩

/-- `end()` (`tm.inl` 722-736). -/
def endIt : It := ⟨[⟨.live [], .end_⟩], [], [], .live [], .end_⟩

/-- Loop of `begin()` (`tm.inl` 683-690, 710-717). -/
def leftmost (root : Node V) : Nat → List Item → Key → Outcome It
  | _, [], _ => .ub
  | 0, _ :: _, _ => .ub
  | fuel + 1, it :: st, buf =>
    match node root it.node with
    | .err e => .err e
    | .ub => .ub
    | .ok n =>
      if n.val.isSome then mkIt (it :: st) buf .normal
      else match it.pos with
        | .child c => match pushChild root it.node c with
          | .ok top => leftmost root fuel (top :: it :: st) (buf ++ [c])
          | .err e => .err e
          | .ub => .ub
        | _ => .ub

/-- `begin()` (`tm.inl` 666-720). -/
def begin_ (root : Node V) : Outcome It :=
  match root.kids with
  | .nil => .ok endIt
  | .cons c _ _ _ => match pushChild root (.live []) c with
    | .ok top => leftmost root (rounds root) [top, ⟨.live [], .child c⟩] [c]
    | .err e => .err e
    | .ub => .ub

/-- `find_prefix_node_with_stack` (`tm.inl` 856-877); `p` is the path of the node `n`. -/
def findStack : Key → Key → Node V → List Item → List Item
  | [], p, n, st => ⟨.live p, first n.kids⟩ :: st
  | c :: k, p, n, st => match n.kids.find? c with
    | none => st
    | some ch => findStack k (p ++ [c]) ch (⟨.live p, .child c⟩ :: st)

/-- `build_key_buffer_from_node_stack` (`tm.inl` 879-891). -/
def stackKey (st : List Item) : Key :=
  st.tail.reverse.filterMap fun s => match s.pos with | .child c => some c | _ => none

/-- `find` (`tm.inl` 930-974). -/
def find (root : Node V) (k : Key) : Outcome It :=
  match findStack k [] root [] with
  | [] => .ok endIt
  | top :: st => match node root top.node with
    | .ok n => if n.val.isSome then mkIt (top :: st) (stackKey (top :: st)) .normal else .ok endIt
    | .err e => .err e
    | .ub => .ub

/-! ### what a change of the map does to the references held by iterators -/

def Ptr.mark (root : Node V) : Ptr → Ptr
  | .live p => if (findNode p root).isSome then .live p else .dead
  | .dead => .dead

/-- A position dies with the child that it refers to. -/
def Item.mark (root : Node V) (it : Item) : Item :=
  ⟨it.node.mark root, match it.pos with
    | .child c => if it.node.mark root ≠ .dead ∧ (it.node.child c).mark root ≠ .dead then .child c else .dead
    | p => p⟩

/-- References to elements that are not in the tree `root`, the one after the call, die. -/
def It.mark (root : Node V) (it : It) : It :=
  { it with stack := it.stack.map (·.mark root), value := it.value.mark root }

/-- The map and the iterators held by the program. -/
structure World (V : Type) where
  root : Node V
  its : Nat → Option It

def World.empty : World V := ⟨⟨none, .nil⟩, fun _ => none⟩

/-- The calls of a program.  `i`, `j` are variables that hold iterators. -/
inductive Cmd (V : Type) where
  | insert (k : Key) (v : V)
  | erase (k : Key)
  | clear
  | begin_ (i : Nat)
  | end_ (i : Nat)
  | find (i : Nat) (k : Key)
  | inc (i : Nat)
  | dec (i : Nat)
  | copy (i j : Nat)
  | deref (i : Nat)
  | write (i : Nat) (v : V)
  | eq (i j : Nat)

/-- What the program is told. -/
inductive Ans (V : Type) where
  | unit
  | bool (b : Bool)
  | entry (k : Key) (v : V)
  deriving DecidableEq, Repr

/-- The tree changes; the iterators' references to removed elements die. -/
def World.change (w : World V) (root : Node V) : World V := ⟨root, fun i => (w.its i).map (·.mark root)⟩

def World.put (w : World V) (i : Nat) (it : It) : World V := { w with its := fun j => if j = i then some it else w.its j }

/-- Store the iterator that a call returned. -/
def World.putO (w : World V) (i : Nat) : Outcome It → Outcome (World V × Ans V)
  | .ok it => .ok (w.put i it, .unit)
  | .err e => .err e
  | .ub => .ub

/-- One call. Using a variable that holds no iterator is undefined. -/
def step (w : World V) : Cmd V → Outcome (World V × Ans V)
  | .insert k v => .ok (w.change (insert k v w.root), .unit)
  | .erase k => .ok (w.change (erase k w.root).1, .bool (erase k w.root).2)
  | .clear => .ok (w.change (clear w.root), .unit)
  | .begin_ i => w.putO i (begin_ w.root)
  | .end_ i => .ok (w.put i endIt, .unit)
  | .find i k => w.putO i (find w.root k)
  | .inc i => match w.its i with
    | some it => w.putO i (inc w.root it)
    | none => .ub
  | .dec i => match w.its i with
    | some it => w.putO i (dec w.root it)
    | none => .ub
  | .copy i j => match w.its j with
    | some it => .ok (w.put i it, .unit)
    | none => .ub
  | .deref i => match w.its i with
    | some it => match deref w.root it with
      | .ok (k, v) => .ok (w, .entry k v)
      | .err e => .err e
      | .ub => .ub
    | none => .ub
  | .write i v => match w.its i with
    | some it => match write w.root it v with
      | .ok t => .ok ({ w with root := t }, .unit)
      | .err e => .err e
      | .ub => .ub
    | none => .ub
  | .eq i j => match w.its i, w.its j with
    | some a, some b => match eq a b with
      | .ok r => .ok (w, .bool r)
      | .err e => .err e
      | .ub => .ub
    | _, _ => .ub

/-- A program. -/
def run (w : World V) : List (Cmd V) → Outcome (World V × List (Ans V))
  | [] => .ok (w, [])
  | c :: cs => match step w c with
    | .ok (w', a) => match run w' cs with
      | .ok (w'', as) => .ok (w'', a :: as)
      | .err e => .err e
      | .ub => .ub
    | .err e => .err e
    | .ub => .ub

/-- The answers alone. -/
def answers (p : List (Cmd V)) : Outcome (List (Ans V)) :=
  match run World.empty p with
  | .ok (_, as) => .ok as
  | .err e => .err e
  | .ub => .ub

end Mdds.Trie.Kept
