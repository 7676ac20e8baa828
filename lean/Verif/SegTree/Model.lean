import Verif.Common

/-!
# segment_tree: model

Source: `/repo/include/mdds/segment_tree.hpp` (`st.hpp`), `segment_tree_def.inl` (`st.inl`) and the
tree builder of `/repo/include/mdds/node.hpp`.

Simplifications for the whole file:
* keys are `Int`, values any type with lawful `==`; `dv` is `value_type{}`;
* a segment is referred to by its index in `m_segment_store`, as in the code;
* nodes are referred to by their path from the root instead of by pointer;
* a null `data_chain` and an empty one are both `[]` (the code never distinguishes them in its
  results: `push_back_chain` skips both, `st.inl` 129-138);
* the kind of a node's children (leaf or non-leaf) is fixed by the constructor: the builder pairs
  leaves only on the lowest level.
-/
namespace Mdds.SegTree

variable {V : Type}

/-- `segment_type` (`st.hpp` 54-70). -/
structure Seg (V : Type) where
  start : Int
  stop : Int
  value : V
  deriving DecidableEq, Repr

/-- `segment_type{}`: marks an erased entry of the store. -/
def deleted (dv : V) : Seg V := ⟨0, 0, dv⟩

/-- Leaf node: key and data chain. -/
structure LeafN where
  key : Int
  chain : List Nat
  deriving DecidableEq, Repr

/-- Non-leaf nodes with their data chains (`node.hpp` 40-95, `st.hpp` 79-95). -/
inductive Tree where
  | bot1 (low high : Int) (chain : List Nat) (a : LeafN)
  | bot2 (low high : Int) (chain : List Nat) (a b : LeafN)
  | one (low high : Int) (chain : List Nat) (a : Tree)
  | two (low high : Int) (chain : List Nat) (a b : Tree)
  deriving DecidableEq, Repr

def Tree.low : Tree → Int
  | .bot1 l _ _ _ => l
  | .bot2 l _ _ _ _ => l
  | .one l _ _ _ => l
  | .two l _ _ _ _ => l

def Tree.high : Tree → Int
  | .bot1 _ h _ _ => h
  | .bot2 _ h _ _ _ => h
  | .one _ h _ _ => h
  | .two _ h _ _ _ => h

/-- First level of `tree_builder::build` (`node.hpp` 218-241, `fill_nonleaf_parent_node` 262-300). -/
def bottoms : List Int → List Tree
  | [] => []
  | [k] => [.bot1 k k [] ⟨k, []⟩]
  | [k1, k2] => [.bot2 k1 k2 [] ⟨k1, []⟩ ⟨k2, []⟩]
  | k1 :: k2 :: k3 :: ks => .bot2 k1 k3 [] ⟨k1, []⟩ ⟨k2, []⟩ :: bottoms (k3 :: ks)

/-- One level of `build_tree_non_leaf` (`node.hpp` 302-339). -/
def pairUp : List Tree → List Tree
  | [] => []
  | [a] => [.one a.low a.high [] a]
  | a :: b :: ts => .two a.low b.high [] a b :: pairUp ts

/-- `build_tree_non_leaf` (`node.hpp` 302-339); `fuel` bounds the recursion, and the number of
nodes is always enough (`buildUpN_good`). -/
def buildUpN : Nat → List Tree → Option Tree
  | _, [] => none
  | _, [t] => some t
  | 0, _ :: _ :: _ => none
  | n + 1, a :: b :: rest => buildUpN n (pairUp (a :: b :: rest))

/-- `tree_builder::build` (`node.hpp` 218-241) on the leaf keys. -/
def buildNodes (keys : List Int) : Option Tree := buildUpN (bottoms keys).length (bottoms keys)

/-- Position of a node: left (`false`) / right (`true`) turns from the root. -/
abbrev Path := List Bool

/-- Mark one leaf in `descend_tree_and_mark` (`st.inl` 372-386). -/
def markLeaf (i : Nat) (s e : Int) (l : LeafN) : LeafN × List Path :=
  if s ≤ l.key ∧ l.key < e then (⟨l.key, l.chain ++ [i]⟩, [[]]) else (l, [])

/-- `descend_tree_and_mark` (`st.inl` 363-404): the marked tree and the marked nodes. -/
def mark (i : Nat) (s e : Int) : Tree → Tree × List Path
  | .bot1 low high c a =>
    if e < low ∨ high ≤ s then (.bot1 low high c a, [])
    else if s ≤ low ∧ high < e then (.bot1 low high (c ++ [i]) a, [[]])
    else
      let ra := markLeaf i s e a
      (.bot1 low high c ra.1, ra.2.map (false :: ·))
  | .bot2 low high c a b =>
    if e < low ∨ high ≤ s then (.bot2 low high c a b, [])
    else if s ≤ low ∧ high < e then (.bot2 low high (c ++ [i]) a b, [[]])
    else
      let ra := markLeaf i s e a
      let rb := markLeaf i s e b
      (.bot2 low high c ra.1 rb.1, ra.2.map (false :: ·) ++ rb.2.map (true :: ·))
  | .one low high c a =>
    if e < low ∨ high ≤ s then (.one low high c a, [])
    else if s ≤ low ∧ high < e then (.one low high (c ++ [i]) a, [[]])
    else
      let ra := mark i s e a
      (.one low high c ra.1, ra.2.map (false :: ·))
  | .two low high c a b =>
    if e < low ∨ high ≤ s then (.two low high c a b, [])
    else if s ≤ low ∧ high < e then (.two low high (c ++ [i]) a b, [[]])
    else
      let ra := mark i s e a
      let rb := mark i s e b
      (.two low high c ra.1 rb.1, ra.2.map (false :: ·) ++ rb.2.map (true :: ·))

/-- `descend_tree_for_search` (`st.inl` 14-80): the chains handed to the result inserter. -/
def descend (p : Int) : Tree → List (List Nat)
  | .bot1 low high c a =>
    if p < low ∨ high ≤ p then []
    else if p < a.key then [c] else [c, a.chain]
  | .bot2 low high c a b =>
    if p < low ∨ high ≤ p then []
    else if p < a.key then [c]
    else if b.key ≤ p then [c, b.chain] else [c, a.chain]
  | .one low high c a =>
    if p < low ∨ high ≤ p then []
    else if p < a.low then [c] else c :: descend p a
  | .two low high c a b =>
    if p < low ∨ high ≤ p then []
    else if p < a.low then [c]
    else if a.high ≤ p then c :: descend p b else c :: descend p a

/-- `remove_data_from_chain` (`st.inl` 576-584): overwrite the entry by the last one, pop. -/
def rmChain (i : Nat) (c : List Nat) : List Nat :=
  match c.idxOf? i, c.getLast? with
  | some k, some l => (c.set k l).dropLast
  | _, _ => c

/-- Remove an index from the chain of the node at a path; a path that leads nowhere would be a
dangling pointer (`none`). -/
def removeAt (i : Nat) : Path → Tree → Option Tree
  | [], .bot1 l h c a => some (.bot1 l h (rmChain i c) a)
  | [], .bot2 l h c a b => some (.bot2 l h (rmChain i c) a b)
  | [], .one l h c a => some (.one l h (rmChain i c) a)
  | [], .two l h c a b => some (.two l h (rmChain i c) a b)
  | [false], .bot1 l h c a => some (.bot1 l h c ⟨a.key, rmChain i a.chain⟩)
  | [false], .bot2 l h c a b => some (.bot2 l h c ⟨a.key, rmChain i a.chain⟩ b)
  | [true], .bot2 l h c a b => some (.bot2 l h c a ⟨b.key, rmChain i b.chain⟩)
  | false :: q, .one l h c a => (removeAt i q a).map (.one l h c ·)
  | false :: q, .two l h c a b => (removeAt i q a).map (fun a' => .two l h c a' b)
  | true :: q, .two l h c a b => (removeAt i q b).map (fun b' => .two l h c a b')
  | _, _ => none

/-- `remove_data_from_nodes` (`st.inl` 558-574). -/
def removeAll (i : Nat) : List Path → Tree → Option Tree
  | [], t => some t
  | q :: qs, t => (removeAt i q t).bind (removeAll i qs)

/-- Container state (`st.hpp` 529-551).  `leaves` are the keys of the leaf nodes between
`m_left_leaf` and `m_right_leaf`; `tagged` is `m_tagged_nodes_map`. -/
structure State (V : Type) where
  store : List (Seg V)
  root : Option Tree
  leaves : List Int
  tagged : List (Nat × List Path)
  valid : Bool
  deriving DecidableEq, Repr

/-- Default constructor (`st.inl` 246-249). -/
def mk : State V := ⟨[], none, [], [], false⟩

/-- Insert a key into a sorted duplicate-free list. -/
def insKey (k : Int) : List Int → List Int
  | [] => [k]
  | x :: xs => if k < x then k :: x :: xs else if k = x then x :: xs else x :: insKey k xs

/-- `std::sort` followed by `std::unique` (`st.inl` 437-438 and 706-708). -/
def sortUnique (ks : List Int) : List Int := ks.foldr insKey []

/-- Boundary keys in store order (`st.inl` 413-421). -/
def rawKeys (segs : List (Seg V)) : List Int := segs.flatMap fun s => [s.start, s.stop]

/-- The marking loop of `build_tree` (`st.inl` 349-357) from index `i` on. -/
def markAll : Nat → List (Seg V) → Tree → Tree × List (Nat × List Path)
  | _, [], t => (t, [])
  | i, s :: ss, t =>
    let r := mark i s.start s.stop t
    let rest := markAll (i + 1) ss r.1
    (rest.1, (i, r.2) :: rest.2)

section
variable [DecidableEq V]

/-- Stored entries that are not erased. -/
def live (dv : V) (st : State V) : List (Seg V) := st.store.filter fun s => decide (s ≠ deleted dv)

/-- `build_tree` (`st.inl` 316-361) with `erase_deleted_segments` (82-97) and
`build_leaf_nodes`/`create_leaf_node_instances` (406-464).  Without segments there are no leaves:
the function returns early, and `m_tagged_nodes_map` keeps its old content. -/
def buildTree (dv : V) (st : State V) : State V :=
  let store := live dv st
  let keys := sortUnique (rawKeys store)
  match buildNodes keys with
  | none => { store, root := none, leaves := keys, tagged := st.tagged, valid := false }
  | some t =>
    let r := markAll 0 store t
    { store, root := some r.1, leaves := keys, tagged := r.2, valid := true }

/-- `insert` (`st.inl` 468-476). -/
def insert (s e : Int) (v : V) (st : State V) : Outcome (State V) :=
  if e ≤ s then .err .invalidArg
  else .ok { st with store := st.store ++ [⟨s, e, v⟩], valid := false }

/-- `search` (`st.inl` 478-490) with `push_back_chain` (129-138): the non-empty chains. -/
def search (st : State V) (p : Int) : List (List Nat) :=
  match st.root, st.valid with
  | some t, true => (descend p t).filter (fun c => decide (c ≠ []))
  | _, _ => []

/-- `remove_value_pos` (`st.inl` 586-611). -/
def removeValuePos (dv : V) (pos : Nat) (st : State V) : Outcome (State V) :=
  if pos < st.store.length then
    let store := st.store.set pos (deleted dv)
    if st.valid = false then .ok { st with store }
    else match st.tagged.lookup pos with
      | none => .ok { st with store }
      | some nodes =>
        match st.root with
        | none => .ub
        | some t => match removeAll pos nodes t with
          | none => .ub
          | some t' =>
            .ok { st with store, root := some t', tagged := st.tagged.filter (fun x => decide (x.1 ≠ pos)) }
  else .ub

/-- The loop of `erase_if` (`st.inl` 503-517): `n` positions from `pos` on are left to visit. -/
def eraseIfLoop (dv : V) (pred : Seg V → Bool) : Nat → Nat → State V → Nat → Outcome (State V × Nat)
  | 0, _, st, cnt => .ok (st, cnt)
  | n + 1, pos, st, cnt =>
    match st.store[pos]? with
    | none => .ub
    | some seg =>
      if seg = deleted dv then eraseIfLoop dv pred n (pos + 1) st cnt
      else if pred seg = false then eraseIfLoop dv pred n (pos + 1) st cnt
      else match removeValuePos dv pos st with
        | .err x => .err x
        | .ub => .ub
        | .ok st' => eraseIfLoop dv pred n (pos + 1) st' (cnt + 1)

/-- `erase_if` (`st.inl` 498-518). -/
def eraseIf (dv : V) (pred : Seg V → Bool) (st : State V) : Outcome (State V × Nat) :=
  eraseIfLoop dv pred st.store.length 0 st 0

/-- `clear` (`st.inl` 532-539). -/
def clear (_st : State V) : State V := ⟨[], none, [], [], false⟩

/-- Copy constructor (`st.inl` 251-257). -/
def copy (dv : V) (st : State V) : State V :=
  let c : State V := ⟨st.store, none, [], [], st.valid⟩
  if st.valid then buildTree dv c else c

/-- Move constructor (`st.hpp` 314, defaulted): containers are moved from, but the raw pointer
`m_root_node` and the flag `m_valid_tree` are copied. The source's root then points into the node
pool that now belongs to the new object. -/
structure MovedFrom where
  danglingRoot : Bool
  valid : Bool
  deriving DecidableEq, Repr

def moveOut (st : State V) : State V × MovedFrom := (st, ⟨st.root.isSome, st.valid⟩)

/-- `size` (`st.inl` 541-546). -/
def size (dv : V) (st : State V) : Nat := st.store.countP fun s => decide (s ≠ deleted dv)

/-- `empty` (`st.inl` 548-556). -/
def isEmpty (dv : V) (st : State V) : Bool :=
  if st.store.isEmpty then true else size dv st == 0

/-- `leaf_size` (`st.hpp` 459-463) = `count_leaf_nodes` (`node.hpp` 375-385), which starts counting
at one. -/
def leafSize (st : State V) : Nat := if st.leaves = [] then 1 else st.leaves.length

/-- `boundary_keys` (`st.inl` 692-711). -/
def boundaryKeys (dv : V) (st : State V) : List Int := sortUnique (rawKeys (live dv st))

/-- `operator==` (`st.inl` 281-314).  `rhs` is a set of pointers, so equal segments at different
positions are counted separately, and a matched one is not removed. -/
def beq (dv : V) (a b : State V) : Bool :=
  if a.valid ≠ b.valid then false
  else
    let rhs := live dv b
    (live dv a).all (fun s => rhs.any (fun x => decide (s = x))) && ((live dv a).length == rhs.length)

/-! ## Operations and histories -/

inductive Op (V : Type) where
  | insert (s e : Int) (v : V)
  | build
  | eraseAt (pos : Nat)            -- erase(iterator) with `cur_pos() = pos`
  | eraseIf (pred : Seg V → Bool)
  | clear
  | recopy                          -- replace the object by a copy of itself

/-- One call; an exception leaves the state as it was. -/
def step (dv : V) (st : State V) : Op V → Outcome (State V)
  | .insert s e v => match insert s e v st with
    | .ok st' => .ok st'
    | .err _ => .ok st
    | .ub => .ub
  | .build => .ok (buildTree dv st)
  | .eraseAt pos => removeValuePos dv pos st
  | .eraseIf pred => (eraseIf dv pred st).map (·.1)
  | .clear => .ok (clear st)
  | .recopy => .ok (copy dv st)

def run (dv : V) (st : State V) : List (Op V) → Outcome (State V)
  | [] => .ok st
  | o :: os => match step dv st o with
    | .ok st' => run dv st' os
    | .err e => .err e
    | .ub => .ub

end

/-! ## Result iterator -/

/-- `const_iterator_base` (`st.hpp` 167-229): chain index, position in the chain, end flag. -/
structure It where
  chain : Nat
  pos : Nat
  atEnd : Bool
  deriving DecidableEq, Repr

/-- `move_to_front` (`st.inl` 215-230). -/
def itBegin (res : List (List Nat)) : It := if res = [] then ⟨0, 0, true⟩ else ⟨0, 0, false⟩

/-- `move_to_end` (`st.inl` 232-244). -/
def itEnd (res : List (List Nat)) : It :=
  match res.getLast? with
  | none => ⟨0, 0, true⟩
  | some c => ⟨res.length - 1, c.length - 1, true⟩

/-- `operator++` (`st.inl` 140-171). -/
def itInc (res : List (List Nat)) (i : It) : Option It :=
  match res[i.chain]? with
  | none => none
  | some c =>
    if i.pos + 1 = c.length then
      if i.chain + 1 = res.length then some { i with atEnd := true }
      else some { i with chain := i.chain + 1, pos := 0 }
    else some { i with pos := i.pos + 1 }

/-- `operator--` (`st.inl` 173-197).  At the very first position it returns null without moving. -/
def itDec (res : List (List Nat)) (i : It) : Option It :=
  if res = [] then some i
  else if i.atEnd then some { i with atEnd := false }
  else if i.pos = 0 then
    if i.chain = 0 then some i
    else match res[i.chain - 1]? with
      | none => none
      | some c => some { i with chain := i.chain - 1, pos := c.length - 1 }
  else some { i with pos := i.pos - 1 }

/-- `cur_pos` (`st.hpp` 219-222): the store index. -/
def itCur (res : List (List Nat)) (i : It) : Option Nat := res[i.chain]?.bind (·[i.pos]?)

/-- `for (it = begin; it != end; ++it) visit(it.cur_pos())`; `none`: undefined behaviour or more than
`fuel` steps. -/
def iterate (res : List (List Nat)) : Nat → It → Option (List Nat)
  | 0, _ => none
  | fuel + 1, i =>
    if i = itEnd res then some []
    else match itCur res i, itInc res i with
      | some x, some i' => (iterate res fuel i').map (x :: ·)
      | _, _ => none

/-- `size()` of the results (`st.inl` 117-127). -/
def resSize (res : List (List Nat)) : Nat := (res.map List.length).sum

end Mdds.SegTree
