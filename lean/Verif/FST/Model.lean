import Verif.Common

/-!
# flat_segment_tree: model

Source: `/repo/include/mdds/flat_segment_tree.hpp` (`fst.hpp` below),
`flat_segment_tree_def.inl` (`fst.inl`), `flat_segment_tree_itr.hpp` (`itr.hpp`)
and the shared tree builder `/repo/include/mdds/node.hpp`.

Simplifications, valid for the whole file:
* keys are `Int` (no overflow); values are any type with decidable `==`;
* the doubly linked list `m_left_leaf .. m_right_leaf` is a list of
  (key, value) pairs, the right leaf included; a `node*` is an index into it, so
  "walk off the list" becomes an index past the end and dereferencing it is `ub`;
* reference counting of nodes is not modelled.
-/
namespace Mdds.FST

variable {V : Type}

/-- A leaf node: key and value (`node.hpp` 95-181). -/
abbrev Leaf (V : Type) := Int × V

/-! ## Non-leaf tree (`node.hpp`) -/

/-- Non-leaf nodes (`node.hpp` 40-95).  `bottom` has leaf children (given by leaf
index), `inner` has non-leaf children; the right child may be missing. -/
inductive Tree where
  | bottom (low high : Int) (left : Nat) (right : Option Nat)
  | inner1 (low high : Int) (left : Tree)
  | inner2 (low high : Int) (left right : Tree)
  deriving DecidableEq, Repr

def Tree.low : Tree → Int
  | .bottom l _ _ _ => l
  | .inner1 l _ _ => l
  | .inner2 l _ _ _ => l

def Tree.high : Tree → Int
  | .bottom _ h _ _ => h
  | .inner1 _ h _ => h
  | .inner2 _ h _ _ => h

/-- `make_parent_node` (`node.hpp` 244-260) with two non-leaf children:
low of the left child, high of the right child (`fill_nonleaf_parent_node` 262-300). -/
def mkInner2 (a b : Tree) : Tree := .inner2 a.low b.high a b

/-- `make_parent_node` with a missing right child: low and high of the left child. -/
def mkInner1 (a : Tree) : Tree := .inner1 a.low a.high a

/-- First level of `tree_builder::build` (`node.hpp` 218-241): leaves are paired
up; `high` of a pair is the key of the leaf after the right leaf if there is one,
else the key of the right leaf; an unpaired last leaf gets `low = high = key`.
`i` is the index of the first leaf of the list. -/
def buildBottom : Nat → List Int → List Tree
  | _, [] => []
  | i, [k] => [.bottom k k i none]
  | i, [k1, k2] => [.bottom k1 k2 i (some (i + 1))]
  | i, k1 :: _k2 :: k3 :: ks => .bottom k1 k3 i (some (i + 1)) :: buildBottom (i + 2) (k3 :: ks)

/-- One level of `build_tree_non_leaf` (`node.hpp` 302-339). -/
def pairUp : List Tree → List Tree
  | [] => []
  | [a] => [mkInner1 a]
  | a :: b :: ts => mkInner2 a b :: pairUp ts

theorem pairUp_length (ts : List Tree) : (pairUp ts).length = (ts.length + 1) / 2 := by
  induction ts using pairUp.induct with
  | case1 => simp [pairUp]
  | case2 => simp [pairUp]
  | case3 a b ts ih => simp [pairUp, ih]; omega

/-- `build_tree_non_leaf` (`node.hpp` 302-339): repeat until one node is left.  The C++ loop has
no bound; `fuel` is one here, and `buildTreeOf` starts with the number of nodes, which is
always enough (`buildUp_good`). -/
def buildUpN : Nat → List Tree → Option Tree
  | _, [] => none
  | _, [t] => some t
  | 0, _ :: _ :: _ => none
  | n + 1, a :: b :: rest => buildUpN n (pairUp (a :: b :: rest))

def buildUp (ts : List Tree) : Option Tree := buildUpN ts.length ts

/-- `tree_builder::build` (`node.hpp` 218-241) on the list of leaf keys. -/
def buildTreeOf (keys : List Int) : Option Tree := buildUp (buildBottom 0 keys)

/-! ## Container state -/

/-- `fst.hpp` 790-797: leaf list, default value, root of the non-leaf tree and the
`m_valid_tree` flag. -/
structure State (V : Type) where
  leaves : List (Leaf V)
  init : V
  root : Option Tree
  valid : Bool
  deriving DecidableEq, Repr

/-- Constructor (`fst.inl` 57-75).  `dv` is `value_type{}`, the value stored in the
right leaf. -/
def mk (dv : V) (minKey maxKey : Int) (init : V) : State V :=
  { leaves := [(minKey, init), (maxKey, dv)], init := init, root := none, valid := false }

/-- Copy constructor (`fst.inl` 77-104): leaves and default value; no tree. -/
def copy (s : State V) : State V := { leaves := s.leaves, init := s.init, root := none, valid := false }

/-- `get_insertion_pos_leaf` (`fst.inl` 810-827): first index `>= from` whose key is
`>= key`; `none` is the null pointer. -/
def insPos (ls : List (Leaf V)) (key : Int) (start : Nat) : Option Nat :=
  ((ls.drop start).findIdx? (fun n => decide (key ≤ n.1))).map (start + ·)

/-- `get_insertion_pos_leaf_reverse` (`fst.inl` 793-808): walking left from `start`
(inclusive), first node with key `< key`. -/
def insPosRev (ls : List (Leaf V)) (key : Int) : Nat → Option Nat
  | 0 => match ls[0]? with
    | some n => if n.1 < key then some 0 else none
    | none => none
  | i + 1 => match ls[i + 1]? with
    | some n => if n.1 < key then some (i + 1) else insPosRev ls key i
    | none => none

/-- Outcome of an insertion: the new leaf list, the index the returned iterator
points to (`none` = end), and the `changed` flag. -/
structure InsRes (V : Type) where
  leaves : List (Leaf V)
  pos : Option Nat
  changed : Bool
  deriving DecidableEq, Repr

/-- `adjust_segment_range` (`fst.inl` 837-857). -/
def adjustRange (lo hi : Int) (s e : Int) : Option (Int × Int) :=
  if e ≤ s then none
  else if e < lo ∨ hi ≤ s then none
  else some (if s < lo then lo else s, if hi < e then hi else e)

section
variable [DecidableEq V]

/-- Start-node part of `insert_to_pos` (`fst.inl` 214-263).  `i`/`j` are the indices of
`start_pos`/`end_pos`.  Result: the list with the start node in place, the index of
`new_start_node`, `old_value`, the index of `end_pos` in the new list, `changed`. -/
def insStart (ls : List (Leaf V)) (i j : Nat) (s : Int) (val : V) :
    Outcome (List (Leaf V) × Nat × V × Nat × Bool) :=
  match ls[i]? with
  | none => .ub
  | some sp =>
    let prev := if i = 0 then none else ls[i - 1]?
    if sp.1 = s then
      match prev with
      | some pv =>
        if pv.2 = val then .ok (ls, i - 1, sp.2, j, false)
        else .ok (ls.set i (sp.1, val), i, sp.2, j, decide (sp.2 ≠ val))
      | none => .ok (ls.set i (sp.1, val), i, sp.2, j, decide (sp.2 ≠ val))
    else
      match prev with
      | none => .ub                           -- start_pos->prev is null
      | some pv =>
        if pv.2 = val then .ok (ls, i - 1, pv.2, j, false)
        else .ok (ls.take i ++ (s, val) :: ls.drop i, i, pv.2, j + 1, true)

/-- Unlinking loop and end-node part of `insert_to_pos` (`fst.inl` 265-323).  The loop walks
from `ns+1` to `end_pos` (index `j`); when `end_pos` is not to the right of
`new_start_node` it runs past the right leaf and dereferences null. -/
def insEnd (ls1 : List (Leaf V)) (ns : Nat) (old0 : V) (j : Nat) (ch0 : Bool) (e : Int) (val : V) :
    Outcome (InsRes V) :=
  if j ≤ ns then .ub
  else
    let removed := (ls1.drop (ns + 1)).take (j - (ns + 1))
    let old := (removed.getLast?.map (·.2)).getD old0
    let ch1 := ch0 || decide (removed ≠ [])
    match ls1[j]? with
    | none => .ub
    | some ep =>
      if ep.1 = e then
        if j + 1 < ls1.length ∧ ep.2 = val then
          .ok ⟨ls1.take (ns + 1) ++ ls1.drop (j + 1), some ns, true⟩
        else
          .ok ⟨ls1.take (ns + 1) ++ ls1.drop j, some ns, ch1⟩
      else if old = val then
        .ok ⟨ls1.take (ns + 1) ++ ls1.drop j, some ns, ch1⟩
      else
        .ok ⟨ls1.take (ns + 1) ++ (e, old) :: ls1.drop j, some ns, true⟩

/-- `insert_to_pos` (`fst.inl` 202-329), `i` = index of `start_pos`. -/
def insertToPos (ls : List (Leaf V)) (i : Nat) (s e : Int) (val : V) : Outcome (InsRes V) :=
  match insStart ls i ((insPos ls e i).getD (ls.length - 1)) s val with
  | .err x => .err x
  | .ub => .ub
  | .ok (ls1, ns, old0, j, ch0) => insEnd ls1 ns old0 j ch0 e val

/-- Left and right leaf keys; the leaf list is never empty in a live object
(a moved-from object has null leaves: `ub`). -/
def bounds (ls : List (Leaf V)) : Outcome (Int × Int) :=
  match ls.head?, ls.getLast? with
  | some a, some b => .ok (a.1, b.1)
  | _, _ => .ub

/-- `insert_segment_impl` (`fst.inl` 166-199). -/
def insertSegment (ls : List (Leaf V)) (s e : Int) (val : V) (forward : Bool) : Outcome (InsRes V) :=
  match bounds ls with
  | .err x => .err x
  | .ub => .ub
  | .ok (lo, hi) =>
    match adjustRange lo hi s e with
    | none => .ok ⟨ls, none, false⟩
    | some (s, e) =>
      let startPos : Option Nat :=
        if forward then insPos ls s 0
        else match insPosRev ls s (ls.length - 1) with
          | some p => if p + 1 < ls.length then some (p + 1) else none   -- p->next
          | none => some 0
      match startPos with
      | none => .ok ⟨ls, none, false⟩           -- "Insertion position not found"
      | some i => insertToPos ls i s e val

/-- `insert(pos, …)` (`fst.inl` 331-358) for a position `p` of this container
(`none`: a null or foreign iterator). -/
def insertHint (ls : List (Leaf V)) (p : Option Nat) (s e : Int) (val : V) : Outcome (InsRes V) :=
  match p with
  | none => insertSegment ls s e val true
  | some p =>
    match ls[p]? with
    | none => .ub
    | some n =>
      if s < n.1 then insertSegment ls s e val true
      else match bounds ls with
        | .err x => .err x
        | .ub => .ub
        | .ok (lo, hi) =>
          match adjustRange lo hi s e with
          | none => .ok ⟨ls, none, false⟩
          | some (s, e) =>
            match insPos ls s p with
            | none => .ub                       -- insert_to_pos dereferences null
            | some i => insertToPos ls i s e val

/-! ## Shifting -/

/-- `append_new_segment` (`fst.hpp` 686-714) on the leaf list; the flag says whether a
node was inserted (which invalidates the tree). -/
def appendNewSegment (ls : List (Leaf V)) (init : V) (startKey : Int) : Outcome (List (Leaf V) × Bool) :=
  let n := ls.length
  if n < 2 then .ub
  else match ls[n - 2]?, ls[n - 1]? with
    | some p, some r =>
      if p.1 = startKey then .ok (ls.take (n - 2) ++ [(p.1, init), r], false)
      else if p.2 = init then .ok (ls, false)
      else .ok (ls.take (n - 1) ++ [(startKey, init), r], true)
    | _, _ => .ub

/-- `shift_leaf_key_left` (`fst.hpp` 738-747) on the nodes from index `i` up to, not
including, the right leaf. -/
def shiftKeysLeft (ls : List (Leaf V)) (i : Nat) (d : Int) : List (Leaf V) :=
  ls.take i ++ ((ls.drop i).dropLast.map fun n => (n.1 - d, n.2)) ++ (ls.drop i).drop ((ls.drop i).length - 1)

/-- Part of `shift_left` (`fst.inl` 361-456) after the unlinking loop: when the node before
the removed range has the value of the last removed node, the node at `s` is dropped. -/
def joinPre (pre : List (Leaf V)) (s : Int) (lastVal : V) : List (Leaf V) :=
  match pre.getLast? with
  | some p => if p.2 = lastVal then pre else pre ++ [(s, lastVal)]
  | none => pre ++ [(s, lastVal)]

/-- `shift_left` (`fst.inl` 361-456): new leaf list and whether the tree stays valid. -/
def shiftLeftLeaves (ls : List (Leaf V)) (init : V) (s e : Int) : Outcome (List (Leaf V) × Bool) :=
  if s ≥ e then .ok (ls, true)
  else match bounds ls with
  | .err x => .err x
  | .ub => .ub
  | .ok (lo, hi) =>
    if s < lo ∨ e < lo then .ok (ls, true)
    else if s > hi ∨ e > hi then .ok (ls, true)
    else
      let idx : Option Nat := if lo = s then some 0 else insPos ls s 1
      match idx with
      | none => .ok (ls, true)
      | some i =>
        let size := e - s
        if i = ls.length - 1 then
          -- the removed range starts after the last node before the right leaf
          (appendNewSegment ls init (if hi ≤ e then s else hi - size)).map fun r => (r.1, !r.2)
        else match ls[i]? with
          | none => .ub
          | some nd =>
            if e < nd.1 then
              (appendNewSegment (shiftKeysLeft ls i size) init (hi - size)).map fun r => (r.1, false)
            else
              -- nodes after i with key <= e are unlinked (never the right leaf)
              let mid := (ls.drop (i + 1)).dropLast.takeWhile (fun n => decide (n.1 ≤ e))
              let lastVal := (mid.getLast?.map (·.2)).getD nd.2
              let rest := ls.drop (i + 1 + mid.length)
              let pre' := joinPre (ls.take i) s lastVal
              (appendNewSegment (shiftKeysLeft (pre' ++ rest) pre'.length size) init (hi - size)).map
                fun r => (r.1, false)

/-- `shift_leaf_key_right` (`fst.hpp` 749-778) on the nodes `ns` between the start node and
the right leaf: shifted nodes are kept while they stay below the right leaf's key. -/
def shiftKeysRight (ns : List (Leaf V)) (hi d : Int) : List (Leaf V) :=
  match ns with
  | [] => []
  | n :: t => if n.1 + d < hi then (n.1 + d, n.2) :: shiftKeysRight t hi d else []

/-- Shift the nodes from index `i` (the right leaf stays). -/
def shiftRightFrom (ls : List (Leaf V)) (i : Nat) (hi d : Int) : List (Leaf V) :=
  ls.take i ++ shiftKeysRight (ls.drop i).dropLast hi d ++ (ls.drop i).drop ((ls.drop i).length - 1)

/-- `shift_right` (`fst.inl` 458-519): new leaf list and whether the tree stays valid. -/
def shiftRightLeaves (ls : List (Leaf V)) (init : V) (pos size : Int) (skip : Bool) :
    Outcome (List (Leaf V) × Bool) :=
  if size ≤ 0 then .ok (ls, true)
  else match bounds ls with
  | .err x => .err x
  | .ub => .ub
  | .ok (lo, hi) =>
    if pos < lo ∨ hi ≤ pos then .ok (ls, true)
    else if lo = pos then
      match ls with
      | [] => .ub
      | l :: t =>
        let t' := shiftRightFrom t 0 hi size
        if l.2 ≠ init ∧ skip = false then
          if size < hi - lo then .ok ((l.1, init) :: (pos + size, l.2) :: t', false)
          else .ok ((l.1, init) :: t', false)
        else .ok (l :: t', false)
    else
      match insPos ls pos 1 with
      | none => .ok (ls, true)
      | some i =>
        match ls[i]? with
        | none => .ub
        | some n =>
          let i' := if skip = true ∧ n.1 = pos then i + 1 else i
          if i' < ls.length then .ok (shiftRightFrom ls i' hi size, false)
          else .ok (ls, true)

/-! ## State-level operations -/

/-- Mutating operations of the public API. -/
inductive Op (V : Type) where
  | insertFront (s e : Int) (v : V)
  | insertBack (s e : Int) (v : V)
  | insertAt (hint : Option Nat) (s e : Int) (v : V)
  | shiftLeft (s e : Int)
  | shiftRight (pos size : Int) (skip : Bool)
  | buildTree
  | clear
  | recopy          -- replace the object by a copy of itself (copy constructor + swap)
  deriving DecidableEq, Repr

/-- Store the result of an insertion; `m_valid_tree` is reset iff changed (`fst.inl` 325-326). -/
def applyIns (st : State V) (r : Outcome (InsRes V)) : Outcome (State V) :=
  r.map fun r => { st with leaves := r.leaves, valid := if r.changed then false else st.valid }

def applyShift (st : State V) (r : Outcome (List (Leaf V) × Bool)) : Outcome (State V) :=
  r.map fun r => { st with leaves := r.1, valid := st.valid && r.2 }

/-- `build_tree` (`fst.inl` 740-758). -/
def buildTree (st : State V) : State V :=
  { st with root := buildTreeOf (st.leaves.map (·.1)), valid := true }

/-- `clear` (`fst.inl` 150-163): keep the two border nodes, reset the left value. -/
def clear (st : State V) : Outcome (State V) :=
  match st.leaves.head?, st.leaves.getLast? with
  | some l, some r => .ok { st with leaves := [(l.1, st.init), r], root := none, valid := false }
  | _, _ => .ub

def step (st : State V) : Op V → Outcome (State V)
  | .insertFront s e v => applyIns st (insertSegment st.leaves s e v true)
  | .insertBack s e v => applyIns st (insertSegment st.leaves s e v false)
  | .insertAt h s e v => applyIns st (insertHint st.leaves h s e v)
  | .shiftLeft s e => applyShift st (shiftLeftLeaves st.leaves st.init s e)
  | .shiftRight p n k => applyShift st (shiftRightLeaves st.leaves st.init p n k)
  | .buildTree => .ok (buildTree st)
  | .clear => clear st
  | .recopy => .ok (copy st)

def run (st : State V) : List (Op V) → Outcome (State V)
  | [] => .ok st
  | o :: os => match step st o with
    | .ok st' => run st' os
    | .err e => .err e
    | .ub => .ub

/-! ## Queries -/

/-- What a successful search reports: node index (the returned iterator), value,
start and end key of the segment. -/
structure Hit (V : Type) where
  idx : Nat
  value : V
  start : Int
  stop : Int
  deriving DecidableEq, Repr

/-- `search_impl` (`fst.inl` 520-546) at node index `pos`.  `stop` is written only when the
node has a successor; on the right leaf this cannot happen for in-range keys. -/
def searchImpl (ls : List (Leaf V)) (pos : Nat) (key : Int) : Outcome (Option (Hit V)) :=
  match ls[pos]? with
  | none => .ub
  | some n =>
    if n.1 = key then
      match ls[pos + 1]? with
      | some nx => .ok (some ⟨pos, n.2, n.1, nx.1⟩)
      | none => .ub                        -- end_key left unset
    else match (if pos = 0 then none else ls[pos - 1]?) with
      | some p => if p.1 < key then .ok (some ⟨pos - 1, p.2, p.1, n.1⟩) else .ok none
      | none => .ok none

/-- `search(key, value, start, end)` (`fst.inl` 548-560). -/
def search (ls : List (Leaf V)) (key : Int) : Outcome (Option (Hit V)) :=
  match bounds ls with
  | .err x => .err x
  | .ub => .ub
  | .ok (lo, hi) =>
    if key < lo ∨ hi ≤ key then .ok none
    else match insPos ls key 0 with
      | none => .ub                        -- search_impl dereferences null
      | some p => searchImpl ls p key

/-- `search(pos, key, value, start, end)` (`fst.inl` 562-590). -/
def searchHint (ls : List (Leaf V)) (p : Option Nat) (key : Int) : Outcome (Option (Hit V)) :=
  match bounds ls with
  | .err x => .err x
  | .ub => .ub
  | .ok (lo, hi) =>
    if key < lo ∨ hi ≤ key then .ok none
    else match p with
      | none => search ls key
      | some p => match ls[p]? with
        | none => .ub
        | some n =>
          if key < n.1 then search ls key
          else match insPos ls key p with
            | none => .ub
            | some q => searchImpl ls q key

/-- `search_by_key_impl` (`fst.inl` 605-623): index of the node, `none` = end.
`start = none` is the null position of a default-constructed iterator. -/
def searchByKey (ls : List (Leaf V)) (start : Option Nat) (key : Int) : Outcome (Option Nat) :=
  match bounds ls with
  | .err x => .err x
  | .ub => .ub
  | .ok (lo, hi) =>
    if key < lo ∨ hi ≤ key then .ok none
    else match start.bind (insPos ls key ·) with
      | none => .ok none
      | some p => match ls[p]? with
        | none => .ub
        | some n =>
          if n.1 = key then .ok (some p)
          else match (if p = 0 then none else ls[p - 1]?) with
            | some q => if q.1 < key then .ok (some (p - 1)) else .ok none
            | none => .ok none

/-- Descent of `search_tree_for_leaf_node` (`fst.inl` 675-737) from a non-leaf node. -/
def descend (ls : List (Leaf V)) (key : Int) : Tree → Outcome (Option Nat)
  | .bottom _ high l r =>
    match r with
    | none => .ub                          -- leaf_right is null: key2 = leaf_right->key
    | some r => match ls[l]?, ls[r]? with
      | some a, some b =>
        if a.1 ≤ key ∧ key < b.1 then .ok (some l)
        else if b.1 ≤ key ∧ key < high then .ok (some r)
        else .ok none
      | _, _ => .ub
  | .inner1 _ _ a =>
    if a.low ≤ key ∧ key < a.high then descend ls key a else .ok none
  | .inner2 _ _ a b =>
    if a.low ≤ key ∧ key < a.high then descend ls key a
    else if b.low ≤ key ∧ key < b.high then descend ls key b
    else .ok none

/-- `search_tree_for_leaf_node` (`fst.inl` 662-738). -/
def searchTreeLeaf (st : State V) (key : Int) : Outcome (Option Nat) :=
  match st.root, st.valid with
  | some t, true =>
    match bounds st.leaves with
    | .err x => .err x
    | .ub => .ub
    | .ok (lo, hi) =>
      if key < lo ∨ hi ≤ key then .ok none else descend st.leaves key t
  | _, _ => .ok none

/-- `search_tree(key, value, start, end)` (`fst.inl` 625-650). -/
def searchTree (st : State V) (key : Int) : Outcome (Option (Hit V)) :=
  match searchTreeLeaf st key with
  | .err x => .err x
  | .ub => .ub
  | .ok none => .ok none
  | .ok (some i) => match st.leaves[i]? with
    | none => .ub
    | some n => match st.leaves[i + 1]?, st.leaves.getLast? with
      | some nx, _ => .ok (some ⟨i, n.2, n.1, nx.1⟩)
      | none, some r => .ok (some ⟨i, n.2, n.1, r.1⟩)
      | none, none => .ub

/-- `operator==` (`fst.inl` 760-791): walk both leaf lists, compare key and value. -/
def leavesEq : List (Leaf V) → List (Leaf V) → Bool
  | [], [] => true
  | [], _ :: _ => false
  | _ :: _, [] => false
  | a :: as, b :: bs =>
    if ¬ a.1 = b.1 then false else if ¬ a.2 = b.2 then false else leavesEq as bs

def State.beq (a b : State V) : Bool := leavesEq a.leaves b.leaves

end

/-! ## Iterators -/

/-- Iterator position (`itr.hpp` 73-152): node index and the end flag. -/
structure It where
  pos : Nat
  atEnd : Bool
  deriving DecidableEq, Repr

/-- `begin()` / `end()`: `init_pos` (`itr.hpp` 19-22) is the left leaf, or the right leaf
with the end flag set. -/
def itBegin : It := ⟨0, false⟩
def itEnd (ls : List (Leaf V)) : It := ⟨ls.length - 1, true⟩

/-- Forward handler `inc` (`itr.hpp` 24-31). -/
def itInc (ls : List (Leaf V)) (i : It) : It :=
  if i.pos = ls.length - 1 then { i with atEnd := true } else { i with pos := i.pos + 1 }

/-- Forward handler `dec` (`itr.hpp` 33-39); moving before the left leaf gives a null
position. -/
def itDec (i : It) : Option It :=
  if i.atEnd then some { i with atEnd := false }
  else if i.pos = 0 then none else some { i with pos := i.pos - 1 }

/-- Reverse handler (`itr.hpp` 45-71): starts at the right leaf; the end flag is set when
incremented at the left leaf. -/
def ritBegin (ls : List (Leaf V)) : It := ⟨ls.length - 1, false⟩
def ritEnd : It := ⟨0, true⟩
def ritInc (i : It) : It :=
  if i.pos = 0 then { i with atEnd := true } else { i with pos := i.pos - 1 }

/-- `for (it = begin; it != end; ++it) visit(*it)`; `fuel` bounds the number of steps,
`none` means the loop did not reach `end` within it. -/
def iterate (ls : List (Leaf V)) (inc : It → It) (stop : It) : Nat → It → Option (List (Leaf V))
  | 0, i => if i = stop then some [] else none
  | fuel + 1, i =>
    if i = stop then some []
    else match ls[i.pos]? with
      | none => none
      | some n => (iterate ls inc stop fuel (inc i)).map (n :: ·)

/-- Segment iterator (`itr.hpp` 154-299): indices of `m_start` and of `m_end`
(`none` = null, the end position). -/
structure SegIt where
  start : Nat
  stop : Option Nat
  deriving DecidableEq, Repr

/-- `node->next` of the node at index `i`. -/
def nextIdx (ls : List (Leaf V)) (i : Nat) : Option Nat :=
  if i + 1 < ls.length then some (i + 1) else none

/-- `begin_segment` (`fst.inl` 39-43). -/
def segBegin (ls : List (Leaf V)) : SegIt := ⟨0, nextIdx ls 0⟩

/-- `end_segment` (`fst.inl` 45-49). -/
def segEnd (ls : List (Leaf V)) : SegIt := ⟨ls.length - 1, none⟩

/-- `operator++` (`itr.hpp` 247-254); at the right leaf `m_start->next` is null and the next
dereference is undefined (`none`). -/
def segInc (ls : List (Leaf V)) (i : SegIt) : Option SegIt :=
  (nextIdx ls i.start).map fun n => ⟨n, nextIdx ls n⟩

/-- `operator*` after `update_node` (`itr.hpp` 286-295); stale at the end position (`none`). -/
def segDeref (ls : List (Leaf V)) (i : SegIt) : Option (Int × Int × V) :=
  match i.stop with
  | none => none
  | some e => match ls[i.start]?, ls[e]? with
    | some a, some b => some (a.1, b.1, a.2)
    | _, _ => none

/-- `for (it = begin_segment(); it != end_segment(); ++it) visit(*it)`; `none`: the loop hit
undefined behaviour or did not end within `fuel`. -/
def segIterate (ls : List (Leaf V)) : Nat → SegIt → Option (List (Int × Int × V))
  | 0, _ => none
  | fuel + 1, i =>
    if i = segEnd ls then some []
    else match segDeref ls i, segInc ls i with
      | some v, some i' => (segIterate ls fuel i').map (v :: ·)
      | _, _ => none

/-- `const_iterator::to_segment` (`fst.inl` 8-17) for an iterator of this container. -/
def toSegment (ls : List (Leaf V)) (i : It) : SegIt :=
  if i.atEnd then segEnd ls
  else match nextIdx ls i.pos with
    | none => segEnd ls
    | some n => ⟨i.pos, some n⟩

/-! ## Whole-object operations -/

/-- `swap` (`fst.inl` 139-148). -/
def swap (a b : State V) : State V × State V := (b, a)

/-- Copy assignment (`fst.inl` 121-127): copy, then swap with the copy. -/
def assign (_dst src : State V) : State V := (swap _dst (copy src)).1

/-- Move constructor (`fst.inl` 106-114): the new object and the moved-from source, whose leaf
pointers are null. -/
def moveOut (src : State V) : State V × State V :=
  (src, { leaves := [], init := src.init, root := none, valid := false })

/-- `count_leaf_nodes` (`node.hpp` 375-385) = `leaf_size()`. -/
def leafSize (st : State V) : Nat := st.leaves.length

/-- `count_needed_nonleaf_nodes` (`node.hpp` 388-404).  A leaf count of zero would loop
forever in the code (`fuel` runs out: `none`); containers always have two leaves. -/
def countNonleaf (n : Nat) : Nat → Nat → Option Nat
  | acc, fuel + 1 =>
    if n = 1 then some acc
    else
      let n' := (if n % 2 = 1 then n + 1 else n) / 2
      countNonleaf n' (acc + n') fuel
  | _, 0 => none

end Mdds.FST
