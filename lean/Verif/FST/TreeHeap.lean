import Verif.SegTree.Heap
import Verif.FST.HeapHistory

/-!
# flat_segment_tree: the search tree in memory, and iterators

`HeapModel.lean` and `HeapHistory.lean` have the leaf nodes of any number of containers.  Here the
other members are added: the pool of non-leaf nodes (a `std::vector`), the root pointer into it and
the flag `m_valid_tree`; and iterators, which are raw pointers to leaf nodes kept by the program.
Reading a node after the end of its life, following a null pointer, or taking a leaf for a
non-leaf node is `ub`.

Source: `/repo/include/mdds/flat_segment_tree.hpp` (`fst.hpp`), `flat_segment_tree_def.inl`
(`fst.inl`), `flat_segment_tree_itr.hpp` (`itr.hpp`), `/repo/include/mdds/node.hpp` (`node.hpp`).

Simplifications, valid for the whole file:
* the tree builder is a template shared with `segment_tree`; it is the one of `SegTree/Heap.lean`;
* a member function works on leaves and on the pool.  These are different members and different
  nodes, so here it does all its work on the leaves (`memStep`) and then all its work on the pool
  (`poolPart`);
* elements of a pool have addresses of their own, never used again; clearing a pool ends the life
  of its elements; a moved-from `std::vector` is empty.
-/
namespace Mdds.FST.Pool

open Mdds.FST.Mem (Call Out slot Prog)
open Mdds.SegTree.Mem (MemG ActG Act Inner Ptr onLeaves getObj setObj newObj endObj readInner build countLeaves needed)

variable {V : Type}

/-- The members that have to do with the tree (`fst.hpp` 790-797).  The pool has the addresses
`base`, …, `base + size - 1`. -/
structure Tree where
  base : Nat
  size : Nat
  root : Option Nat
  valid : Bool
  deriving DecidableEq, Repr

/-- No tree (`fst.inl` 58-60, 79-81). -/
def Tree.new : Tree := ⟨0, 0, none, false⟩

/-- An iterator (`itr.hpp` 154-157): the container it was made by, the leaf node, the end flag. -/
structure Iter where
  db : Nat
  pos : Option Nat
  fin : Bool
  deriving DecidableEq, Repr

/-- Leaves, pools, containers and kept iterators. -/
abbrev Mem (V : Type) := MemG V Tree Iter

abbrev Prg (V α : Type) := ActG V Tree Iter α

/-- `m_nonleaf_node_pool.clear()`. -/
def poolClear (o : Nat) : Prg V Unit := do
  let x ← getObj o
  (fun m => .ok ((), { m with nl := fun p => if x.base ≤ p ∧ p < x.base + x.size then none else m.nl p }) : Prg V Unit)
  setObj o { x with base := 0, size := 0 }

/-- `m_nonleaf_node_pool.resize(n)` of an empty pool. -/
def poolResize (o n : Nat) : Prg V Unit := do
  let x ← getObj o
  let b ← (fun m => .ok (m.next, { m with nl := fun p => if m.next ≤ p ∧ p < m.next + n then some Inner.new else m.nl p, next := m.next + n }) : Prg V Nat)
  setObj o { x with base := b, size := n }

/-! ## Constructors, assignment and the like: the members that are not leaves -/

/-- Move constructor (`fst.inl` 106-114). -/
def moveT (o r : Nat) : Prg V Unit := do
  let x ← getObj r
  newObj o x
  setObj r Tree.new

/-- `swap` (`fst.inl` 139-148). -/
def swapT (a b : Nat) : Prg V Unit := do
  let x ← getObj a
  let y ← getObj b
  setObj a y
  setObj b x

/-- `destroy` (`fst.inl` 829-835). -/
def destroyT (o : Nat) : Prg V Unit := do
  poolClear o
  let x ← getObj o
  setObj o { x with root := none }

/-- Destructor (`fst.inl` 116-119), then the members. -/
def destructT (o : Nat) : Prg V Unit := do
  destroyT o
  endObj o

/-- `m_valid_tree = false`. -/
def invalidate (o : Nat) : Prg V Unit := do
  let x ← getObj o
  setObj o { x with valid := false }

/-- What a call does to the members other than the leaves, `flag` being what the work on the
leaves reported (`HeapHistory.lean`, `Out`): constructors (`fst.inl` 57-114), destructor, assignment
(121-136; number 0 is the temporary), `swap`, `clear` (150-163), insertions (`if (changed)
m_valid_tree = false`, 285-286), shifts. -/
def poolPart (flag : Bool) : Call V → Prg V Unit
  | .make o _ _ _ => newObj (slot o) Tree.new
  | .destroy o => destructT (slot o)
  | .copy o _ => newObj (slot o) Tree.new
  | .move o r => moveT (slot o) (slot r)
  | .assignCopy o _ => do
    newObj 0 Tree.new
    swapT (slot o) 0
    destructT 0
  | .assignMove o r => do
    moveT 0 (slot r)
    swapT (slot o) 0
    destructT 0
  | .swap a b => swapT (slot a) (slot b)
  | .clear o => do
    destroyT (slot o)
    invalidate (slot o)
  | .insert o _ _ _ _ => if flag then invalidate (slot o) else Act.ret ()
  | .insertAt o _ _ _ _ => if flag then invalidate (slot o) else Act.ret ()
  | .shiftLeft o _ _ => if flag then Act.ret () else invalidate (slot o)
  | .shiftRight o _ _ _ => if flag then Act.ret () else invalidate (slot o)

/-! ## The tree -/

/-- `build_tree` (`fst.inl` 740-758). -/
def buildP (o : Nat) : Prg V Unit := do
  match (← onLeaves (Mdds.FST.Mem.get (.left o))) with
  | none => Act.ret ()
  | some _ => do
    poolClear o
    let n ← onLeaves (countLeaves o)
    poolResize o (needed n)
    let x ← getObj o
    let r ← build o x.base x.size
    setObj o { x with root := r, valid := true }

/-- The end of `search_tree_for_leaf_node` (`fst.inl` 717-737), `n` being the lowest non-leaf node
and `a` its left child. -/
def pickP (key : Int) (n : Inner) (a : Nat) : Prg V (Option Nat) :=
  match n.right with
  | some (.leaf b) => do
    let k1 ← onLeaves (Mdds.FST.Mem.getKey a)
    let k2 ← onLeaves (Mdds.FST.Mem.getKey b)
    return (if k1 ≤ key ∧ key < k2 then some a else if k2 ≤ key ∧ key < n.high then some b else none)
  | _ => Act.undef

/-- The loop of `search_tree_for_leaf_node` (`fst.inl` 678-715), and then its end. -/
def descendP (key : Int) : Nat → Nat → Prg V (Option Nat)
  | 0, _ => Act.undef
  | fuel + 1, p => do
    let n ← readInner p
    match n.left with
    | none => return none
    | some (.leaf a) => pickP key n a
    | some (.inner q) => do
      let nq ← readInner q
      if nq.low ≤ key ∧ key < nq.high then descendP key fuel q
      else match n.right with
        | none => return none
        | some (.leaf _) => Act.undef
        | some (.inner q) => do
          let nq ← readInner q
          if nq.low ≤ key ∧ key < nq.high then descendP key fuel q else return none

/-- The keys of the two border leaves. -/
def boundsP (o : Nat) : Prog V (Int × Int) := do
  let l ← Mdds.FST.Mem.nonnull (← Mdds.FST.Mem.get (.left o))
  let lo ← Mdds.FST.Mem.getKey l
  let r ← Mdds.FST.Mem.nonnull (← Mdds.FST.Mem.get (.right o))
  let hi ← Mdds.FST.Mem.getKey r
  return (lo, hi)

/-- `search_tree_for_leaf_node` (`fst.inl` 662-738). -/
def treeLeafP (o : Nat) (key : Int) : Prg V (Option Nat) := do
  let x ← getObj o
  match x.root, x.valid with
  | some p, true => do
    let (lo, hi) ← onLeaves (boundsP o)
    if key < lo ∨ hi ≤ key then return none else descendP key x.size p
  | _, _ => return none

/-- What a search reports through its pointer arguments: value, start and end of the segment. -/
abbrev Found (V : Type) := Option (V × Int × Int)

/-- Keep an iterator. -/
def keep (x : Nat) (i : Iter) : Prg V Unit := fun m =>
  .ok ((), { m with res := Mdds.FST.Mem.upd m.res x (some i) })

/-- `const_iterator(this, true)` (`itr.hpp` 21-24, 88-94). -/
def endIter (o : Nat) : Prg V Iter := do
  let r ← onLeaves (Mdds.FST.Mem.get (.right (slot o)))
  return ⟨o, r, true⟩

/-- Value and borders of the segment at a leaf (`fst.inl` 634-649). -/
def reportP (o a : Nat) : Prog V (V × Int × Int) := do
  let v ← Mdds.FST.Mem.getVal a
  let s ← Mdds.FST.Mem.getKey a
  match (← Mdds.FST.Mem.getNext a) with
  | some b => do
    let e ← Mdds.FST.Mem.getKey b
    return (v, s, e)
  | none => do
    let r ← Mdds.FST.Mem.nonnull (← Mdds.FST.Mem.get (.right o))
    let e ← Mdds.FST.Mem.getKey r
    return (v, s, e)

/-- `search_tree` (`fst.inl` 625-650); the program keeps the iterator in its variable `x`. -/
def findP (x o : Nat) (key : Int) : Prg V (Found V) := do
  match (← treeLeafP (slot o) key) with
  | none => do
    keep x (← endIter o)
    return none
  | some a => do
    let f ← onLeaves (reportP (slot o) a)
    keep x ⟨o, some a, false⟩
    return some f

/-! ## Linear search -/

/-- `search_impl` (`fst.inl` 520-546); leaving `*end_key` unset is `ub`. -/
def searchImplP (key : Int) (p : Nat) : Prog V (Option (Nat × V × Int × Int)) := do
  let k ← Mdds.FST.Mem.getKey p
  if k = key then
    let v ← Mdds.FST.Mem.getVal p
    let n ← Mdds.FST.Mem.nonnull (← Mdds.FST.Mem.getNext p)
    let e ← Mdds.FST.Mem.getKey n
    return some (p, v, k, e)
  else
    match (← Mdds.FST.Mem.getPrev p) with
    | none => return none
    | some q => do
      let kq ← Mdds.FST.Mem.getKey q
      if kq < key then
        let v ← Mdds.FST.Mem.getVal q
        return some (q, v, kq, k)
      else return none

/-- Where a search begins (`fst.inl` 558, 577-588): at the given position, unless it is already past
the key. -/
def startP (key : Int) (l : Option Nat) (p : Option Nat) : Prog V (Option Nat) :=
  match p with
  | none => Prog.ret l
  | some a => do
    let k ← Mdds.FST.Mem.getKey a
    return (if key < k then l else some a)

/-- `search` (`fst.inl` 548-560) and `search` with a position (562-590), `p` being the position if
it was made by this container (573). -/
def searchP (o : Nat) (key : Int) (p : Option Nat) : Prog V (Option (Nat × V × Int × Int)) := do
  let (lo, hi) ← boundsP o
  if key < lo ∨ hi ≤ key then return none
  else
    let l ← Mdds.FST.Mem.get (.left o)
    let start ← startP key l p
    let q ← Mdds.FST.Mem.insPosP key (← Mdds.FST.Mem.loopBound) start
    searchImplP key (← Mdds.FST.Mem.nonnull q)

/-- A kept iterator. -/
def recall (x : Nat) : Prg V Iter := fun m =>
  match m.res x with
  | none => .ub
  | some i => .ok (i, m)

/-- `pos.get_pos()`, or null if the position was made by another container (`fst.inl` 572-573). -/
def hintPos (o : Nat) : Option Nat → Prg V (Option Nat)
  | none => Act.ret none
  | some y => do
    let i ← recall y
    return (if i.db = o then i.pos else none)

/-- `search` (`fst.inl` 548-590); the program keeps the iterator in `x`; the position, if one is
given, is in the variable `hint`. -/
def scanP (x o : Nat) (key : Int) (hint : Option Nat) : Prg V (Found V) := do
  let p ← hintPos o hint
  match (← onLeaves (searchP (slot o) key p)) with
  | none => do
    keep x (← endIter o)
    return none
  | some (a, v, s, e) => do
    keep x ⟨o, some a, false⟩
    return some (v, s, e)

/-! ## Iterators -/

/-- `begin` (`itr.hpp` 21-24). -/
def beginP (x o : Nat) : Prg V Unit := do
  let l ← onLeaves (Mdds.FST.Mem.get (.left (slot o)))
  keep x ⟨o, l, false⟩

/-- `operator++` (`itr.hpp` 26-32, 107-112); the container the iterator was made by must be
there. -/
def nextP (x : Nat) : Prg V Unit := do
  let i ← recall x
  let _ ← getObj (slot i.db)
  let r ← onLeaves (Mdds.FST.Mem.get (.right (slot i.db)))
  if i.pos = r then keep x { i with fin := true }
  else
    let a ← onLeaves (Mdds.FST.Mem.nonnull i.pos)
    let n ← onLeaves (Mdds.FST.Mem.getNext a)
    keep x { i with pos := n }

/-- `*it` (`itr.hpp` 128-131). -/
def lookP (x : Nat) : Prg V (Leaf V) := do
  let i ← recall x
  let a ← onLeaves (Mdds.FST.Mem.nonnull i.pos)
  let k ← onLeaves (Mdds.FST.Mem.getKey a)
  let v ← onLeaves (Mdds.FST.Mem.getVal a)
  return (k, v)

/-! ## Programs -/

inductive Cmd (V : Type) where
  | call (c : Call V)
  | build (o : Nat)
  | find (x o : Nat) (key : Int)
  | scan (x o : Nat) (key : Int) (hint : Option Nat)
  | begin (x o : Nat)
  | next (x : Nat)
  | look (x : Nat)
  deriving DecidableEq, Repr

/-- What a call tells its caller. -/
inductive Ret (V : Type) where
  | nothing
  | out (r : Out V)
  | found (r : Found V)
  | leaf (r : Leaf V)

/-- The memory of a program, and `m_init_val` of every existing container. -/
structure State (V : Type) where
  mem : Mem V
  init : Nat → Option V

/-- Before anything was constructed. -/
def State.start : State V := ⟨Mdds.SegTree.Mem.empty, fun _ => none⟩

/-- Run `p` on the memory. -/
def State.exec {α : Type} (s : State V) (p : Prg V α) (k : α → Ret V) : Outcome (State V × Ret V) :=
  match p s.mem with
  | .ok (a, m) => .ok (⟨m, s.init⟩, k a)
  | .err e => .err e
  | .ub => .ub

section
variable [DecidableEq V]

/-- One call, in memory. -/
def Cmd.exec (dv : V) (s : State V) : Cmd V → Outcome (State V × Ret V)
  | .call c =>
    match Mdds.FST.Mem.memStep dv ⟨s.mem.lh, s.init⟩ c with
    | .ok (m, out) => State.exec ⟨{ s.mem with lh := m.heap }, m.init⟩ (poolPart out.2 c) fun _ => .out out
    | .err e => .err e
    | .ub => .ub
  | .build o => s.exec (do let _ ← (getObj (slot o) : Prg V Tree); buildP (slot o)) fun _ => .nothing
  | .find x o key => s.exec (findP x o key) .found
  | .scan x o key hint => s.exec (do let _ ← (getObj (slot o) : Prg V Tree); scanP x o key hint) .found
  | .begin x o => s.exec (do let _ ← (getObj (slot o) : Prg V Tree); beginP x o) fun _ => .nothing
  | .next x => s.exec (nextP x) fun _ => .nothing
  | .look x => s.exec (lookP x) .leaf

/-- A whole program: its final memory and everything it was told. -/
def runP (dv : V) (s : State V) : List (Cmd V) → Outcome (State V × List (Ret V))
  | [] => .ok (s, [])
  | c :: cs => match c.exec dv s with
    | .ok (s', r) => match runP dv s' cs with
      | .ok (s'', rs) => .ok (s'', r :: rs)
      | .err e => .err e
      | .ub => .ub
    | .err e => .err e
    | .ub => .ub

end

end Mdds.FST.Pool
