import Verif.Common

/-!
# trie_map: model

Source: `/repo/include/mdds/trie_map.hpp` (`tm.hpp`), `trie_map_def.inl` (`tm.inl`),
`trie_map_itr.hpp` (`itr.hpp`).

Simplifications for the whole file:
* key units are natural numbers ordered by `<` (the code uses only `<` and `==` on them);
* `std::map<key_unit_type, trie_node>` is a list of children kept in key order;
* an iterator's node pointers are the nodes themselves, its child positions are indices; two
  iterators into the same tree refer to the same node iff their key buffers agree;
* `m_current_key` and `m_current_value_ptr` are read off the stack (in state `normal` they always
  equal the buffer and the value of the top node).
-/
namespace Mdds.Trie

variable {V : Type}

abbrev Key := List Nat

/-- Children of a node, first child / next sibling (`tm.hpp` 195-208): key unit, value, children of
this child, remaining children. -/
inductive Kids (V : Type) where
  | nil
  | cons (c : Nat) (val : Option V) (kids : Kids V) (rest : Kids V)
  deriving DecidableEq, Repr

/-- `trie_node` (`tm.hpp` 195-208); `val = none` is `has_value == false`. -/
structure Node (V : Type) where
  val : Option V
  kids : Kids V
  deriving DecidableEq, Repr

def Kids.toList : Kids V → List (Nat × Node V)
  | .nil => []
  | .cons c v k r => (c, ⟨v, k⟩) :: r.toList

def Kids.length : Kids V → Nat
  | .nil => 0
  | .cons _ _ _ r => r.length + 1

def Kids.isEmpty : Kids V → Bool
  | .nil => true
  | .cons _ _ _ _ => false

/-- The child at an index; `none` is `children.end()`. -/
def Kids.get? : Kids V → Nat → Option (Nat × Node V)
  | .nil, _ => none
  | .cons c v k _, 0 => some (c, ⟨v, k⟩)
  | .cons _ _ _ r, i + 1 => r.get? i

/-- Index of the child with a given key unit (`std::map::find`). -/
def Kids.idxOf? (c : Nat) : Kids V → Option Nat
  | .nil => none
  | .cons d _ _ r => if d = c then some 0 else (r.idxOf? c).map (· + 1)

/-- Child with a given key unit. -/
def Kids.find? (c : Nat) : Kids V → Option (Node V)
  | .nil => none
  | .cons d v k r => if d = c then some ⟨v, k⟩ else r.find? c

/-- `children.erase(pos)`. -/
def Kids.eraseIdx : Kids V → Nat → Kids V
  | .nil, _ => .nil
  | .cons _ _ _ r, 0 => r
  | .cons c v k r, i + 1 => .cons c v k (r.eraseIdx i)

/-- Write a child back after it was changed through a pointer. -/
def Kids.setIdx : Kids V → Nat → Node V → Kids V
  | .nil, _, _ => .nil
  | .cons c _ _ r, 0, n => .cons c n.val n.kids r
  | .cons c v k r, i + 1, n => .cons c v k (r.setIdx i n)

/-- `lower_bound`, insertion of a new node if the unit is missing, and recursion into the child
(`tm.inl` 826-837); `f` is the recursive call. -/
def Kids.upd (c : Nat) (f : Node V → Node V) : Kids V → Kids V
  | .nil => let n := f ⟨none, .nil⟩; .cons c n.val n.kids .nil
  | .cons d v k r =>
    if d < c then .cons d v k (r.upd c f)
    else if c < d then let n := f ⟨none, .nil⟩; .cons c n.val n.kids (.cons d v k r)
    else let n := f ⟨v, k⟩; .cons d n.val n.kids r

/-- Default constructor (`tm.inl` 654-656). -/
def empty : Node V := ⟨none, .nil⟩

/-- `insert_into_tree` (`tm.inl` 816-838). -/
def insert : Key → V → Node V → Node V
  | [], v, n => ⟨some v, n.kids⟩
  | c :: k, v, n => ⟨n.val, n.kids.upd c (insert k v)⟩

/-- `find_prefix_node` (`tm.inl` 840-854); also the walk `root_node().child(c1).child(c2)...`
(`tm.inl` 616-652, 758-762). -/
def findNode : Key → Node V → Option (Node V)
  | [], n => some n
  | c :: k, n => match n.kids.find? c with
    | none => none
    | some ch => findNode k ch

/-- Stack of (node, child position), top first (`tm.hpp` 210-233). -/
abbrev Stack (V : Type) := List (Node V × Nat)

/-- `find_prefix_node_with_stack` (`tm.inl` 856-877).  When a child is missing the function returns
with the part of the stack that it has already built. -/
def findStack : Key → Node V → Stack V → Stack V
  | [], n, st => (n, 0) :: st
  | c :: k, n, st => match n.kids.idxOf? c with
    | none => st
    | some i => match n.kids.get? i with
      | none => st
      | some ch => findStack k ch.2 ((n, i) :: st)

/-- `build_key_buffer_from_node_stack` (`tm.inl` 879-891): key units of the child positions of all
items but the top one. -/
def stackKey : Stack V → Key
  | [] => []
  | _ :: st => (st.reverse.filterMap fun s => (s.1.kids.get? s.2).map (·.1))

inductive Kind where
  | normal | end_ | empty
  deriving DecidableEq, Repr

/-- `iterator_base` (`itr.hpp` 64-141). -/
structure Iter (V : Type) where
  stack : Stack V
  buf : Key
  kind : Kind
  deriving Repr

/-- `end()` (`tm.inl` 722-736) and `search_results::end` (`itr.hpp` 431-440); `pre` is the prefix. -/
def endIter (root : Node V) (pre : Key) : Iter V := ⟨[(root, root.kids.length)], pre, .end_⟩

/-- `find` (`tm.inl` 930-974). -/
def find (root : Node V) (k : Key) : Iter V :=
  match findStack k root [] with
  | [] => endIter root []
  | (n, i) :: st =>
    match n.val with
    | none => endIter root []
    | some _ => ⟨(n, i) :: st, stackKey ((n, i) :: st), .normal⟩

/-- The bottom part of `erase` (`tm.inl` 795-805): `n` is the current node after the change, the stack
holds its ancestors.  While the node is empty it is removed from its parent; the rest of the ancestors
keep pointing to their changed children. Returns the root. -/
def pruneUp : Node V → Stack V → Node V
  | n, [] => n
  | n, (p, i) :: st =>
    if n.val.isNone ∧ n.kids.isEmpty then pruneUp ⟨p.val, p.kids.eraseIdx i⟩ st
    else pruneUp ⟨p.val, p.kids.setIdx i n⟩ st

/-- `erase` (`tm.inl` 778-808). -/
def erase (k : Key) (root : Node V) : Node V × Bool :=
  match findStack k root [] with
  | [] => (root, false)
  | (n, _) :: st =>
    match n.val with
    | none => (root, false)
    | some _ => (pruneUp ⟨none, n.kids⟩ st, true)

/-- `count_values` (`tm.inl` 893-902) on children. -/
def Kids.count : Kids V → Nat
  | .nil => 0
  | .cons _ v k r => (if v.isSome then 1 else 0) + k.count + r.count

/-- `size` (`tm.inl` 993-999). -/
def size (n : Node V) : Nat := (if n.val.isSome then 1 else 0) + n.kids.count

/-- `empty` (`tm.inl` 1001-1005). -/
def isEmpty (n : Node V) : Bool := n.kids.isEmpty && n.val.isNone

/-- `clear` (`tm.inl` 1007-1012). -/
def clear (_n : Node V) : Node V := ⟨none, .nil⟩

/-- `descend_for_equality` (`tm.inl` 904-928) on children, after the comparison of their numbers. -/
def Kids.beq [DecidableEq V] : Kids V → Kids V → Bool
  | .nil, .nil => true
  | .cons c v k r, .cons c' v' k' r' =>
    if c ≠ c' then false
    else if v ≠ v' then false
    else if k.length ≠ k'.length then false
    else k.beq k' && r.beq r'
  | _, _ => false

/-- `operator==` (`tm.inl` 746-750, 904-914). -/
def beq [DecidableEq V] (a b : Node V) : Bool :=
  if a.val ≠ b.val then false
  else if a.kids.length ≠ b.kids.length then false
  else a.kids.beq b.kids

/-! ## Iterators -/

/-- Push first children until a node with a value is reached (`tm.inl` 683-690, `itr.hpp` 419-426): a node
without value and without children makes the code dereference `children.end()`. -/
def leftmost : Option V → Kids V → Stack V → Key → Outcome (Iter V)
  | some _, _, st, buf => .ok ⟨st, buf, .normal⟩
  | none, .nil, _, _ => .ub
  | none, .cons c v k _, st, buf => leftmost v k ((⟨v, k⟩, 0) :: st) (buf ++ [c])

/-- `begin()` (`tm.inl` 666-720): the root's own value is not considered. -/
def begin_ (root : Node V) : Outcome (Iter V) :=
  match root.kids with
  | .nil => .ok (endIter root [])
  | .cons c v k _ => leftmost v k [(⟨v, k⟩, 0), (root, 0)] [c]

/-- `search_results::begin` (`itr.hpp` 408-429). -/
def searchBegin (n : Node V) (pre : Key) : Outcome (Iter V) := leftmost n.val n.kids [(n, 0)] pre

/-- `prefix_search` (`tm.inl` 976-991): node and prefix; `none` is the null node. -/
def prefixSearch (root : Node V) (pre : Key) : Option (Node V × Key) := (findNode pre root).map (·, pre)

/-- The upward part of `operator++` (`itr.hpp` 170-205): pop until an ancestor has another child, push
that child.  The second argument is the stack below the top item. -/
def goUp (top : Node V × Nat) : Stack V → Key → Iter V
  | [], buf => ⟨[top], buf, .end_⟩
  | (p, i) :: st, buf =>
    match p.kids.get? (i + 1) with
    | some ch => ⟨(ch.2, 0) :: (p, i + 1) :: st, buf.dropLast ++ [ch.1], .normal⟩
    | none => goUp (p, i + 1) st buf.dropLast

/-- `operator++` (`itr.hpp` 164-217); each round of the `do` loop visits one more node, `fuel` bounds
the rounds. -/
def inc : Nat → Iter V → Outcome (Iter V)
  | 0, _ => .ub
  | fuel + 1, it =>
    match it.stack with
    | [] => .ub
    | (n, i) :: st =>
      let it' : Iter V := match n.kids with
        | .nil => goUp (n, i) st it.buf
        | .cons c v k _ => ⟨(⟨v, k⟩, 0) :: (n, i) :: st, it.buf ++ [c], .normal⟩
      if it'.kind = .end_ then .ok it'
      else match it'.stack with
        | [] => .ub
        | (m, _) :: _ => if m.val.isSome then .ok it' else inc fuel it'

/-- `descend_to_previus_leaf_node` (`itr.hpp` 107-129).  Moving before the first child is undefined. -/
def descPrev : Nat → Stack V → Key → Outcome (Stack V × Key)
  | 0, _, _ => .ub
  | fuel + 1, st, buf =>
    match st with
    | [] => .ub
    | (n, i) :: st =>
      match i with
      | 0 => .ub
      | j + 1 => match n.kids.get? j with
        | none => .ub
        | some ch =>
          let st' := (ch.2, ch.2.kids.length) :: (n, j) :: st
          if ch.2.kids.isEmpty then .ok (st', buf ++ [ch.1]) else descPrev fuel st' (buf ++ [ch.1])

/-- Third branch of `operator--` (`itr.hpp` 244-266): from a leaf, go up; turn left where possible, else
stop at the first node with a value. -/
def decLeaf (fuel : Nat) : Stack V → Key → Outcome (Iter V)
  | _ :: (p, i) :: st, buf =>
    if i ≠ 0 then
      match descPrev fuel ((p, i) :: st) buf.dropLast with
      | .ok (st', buf') => .ok ⟨st', buf', .normal⟩
      | .err e => .err e
      | .ub => .ub
    else if p.val.isSome then .ok ⟨(p, i) :: st, buf.dropLast, .normal⟩
    else decLeaf fuel ((p, i) :: st) buf.dropLast
  | _, _ => .ub

/-- Fourth branch of `operator--` (`itr.hpp` 267-290): from a node with children, go up to the next node
with a value or to the root; only at the root turn left. -/
def decInner (fuel : Nat) : Stack V → Key → Outcome (Iter V)
  | [_, (p, i)], buf =>
    match descPrev fuel [(p, i)] buf.dropLast with
    | .ok (st', buf') => .ok ⟨st', buf', .normal⟩
    | .err e => .err e
    | .ub => .ub
  | _ :: (p, i) :: q :: st, buf =>
    if p.val.isSome then .ok ⟨(p, i) :: q :: st, buf.dropLast, .normal⟩
    else decInner fuel ((p, i) :: q :: st) buf.dropLast
  | _, _ => .ub

/-- `operator--` (`itr.hpp` 226-296). -/
def dec (fuel : Nat) (it : Iter V) : Outcome (Iter V) :=
  match it.stack with
  | [] => .ub
  | (n, i) :: st =>
    if it.kind = .end_ ∧ n.val.isSome then .ok { it with kind := .normal }
    else if st.isEmpty then
      match descPrev fuel [(n, i)] it.buf with
      | .ok (st', buf') => .ok ⟨st', buf', .normal⟩
      | .err e => .err e
      | .ub => .ub
    else if n.kids.isEmpty then decLeaf fuel it.stack it.buf
    else decInner fuel it.stack it.buf

/-- `operator*` (`itr.hpp` 154-162). -/
def deref (it : Iter V) : Option (Key × V) :=
  match it.kind, it.stack with
  | .normal, (n, _) :: _ => n.val.map (it.buf, ·)
  | _, _ => none

/-- `operator==` of iterators into the same tree (`itr.hpp` 143-152). -/
def iterEq (a b : Iter V) : Bool :=
  decide (a.kind = b.kind) &&
    (decide (a.kind = .empty) || (decide (a.buf = b.buf) && decide (a.stack.head?.map (·.2) = b.stack.head?.map (·.2))))

/-- `for (it = first; it != last; ++it) visit(*it)` with at most `n` rounds. -/
def collect (fuel : Nat) : Nat → Iter V → Iter V → Outcome (List (Key × V))
  | 0, _, _ => .ub
  | n + 1, it, last =>
    if iterEq it last then .ok []
    else match deref it with
      | none => .ub
      | some kv => match inc fuel it with
        | .ok it' => match collect fuel n it' last with
          | .ok l => .ok (kv :: l)
          | .err e => .err e
          | .ub => .ub
        | .err e => .err e
        | .ub => .ub

/-- Loop over the whole container. -/
def iterateAll (fuel : Nat) (root : Node V) : Outcome (List (Key × V)) :=
  match begin_ root with
  | .ok it => collect fuel fuel it (endIter root [])
  | .err e => .err e
  | .ub => .ub

/-- Loop over a prefix search result. -/
def iterateSearch (fuel : Nat) (root : Node V) (pre : Key) : Outcome (List (Key × V)) :=
  match prefixSearch root pre with
  | none => .ok []
  | some (n, p) => match searchBegin n p with
    | .ok it => collect fuel fuel it (endIter n p)
    | .err e => .err e
    | .ub => .ub

/-! ## Operations and histories -/

inductive Op (V : Type) where
  | insert (k : Key) (v : V)
  | erase (k : Key)
  | clear

def step (n : Node V) : Op V → Node V
  | .insert k v => insert k v n
  | .erase k => (erase k n).1
  | .clear => clear n

def run (n : Node V) (ops : List (Op V)) : Node V := ops.foldl step n

end Mdds.Trie
