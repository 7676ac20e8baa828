import Verif.SegTree.Model
import Verif.FST.HeapModel

/-!
# segment_tree: nodes in memory

`SegTree/Model.lean` treats the tree as a value.  Here it is what it is in the code: leaf nodes in
a heap, doubly linked by counting pointers; non-leaf nodes in a pool (`std::vector`) that is sized
beforehand and filled by the tree builder; raw pointers from non-leaf nodes to their children,
from the container to the root, from `m_tagged_nodes_map` to the marked nodes, and from search
results to data chains and to the store of the container.  Reading or writing through a null
pointer or after the end of an object's life is `ub`, and so is taking more nodes from the pool
than it has.

Source: `/repo/include/mdds/segment_tree.hpp` (`st.hpp`), `segment_tree_def.inl` (`st.inl`),
`/repo/include/mdds/node.hpp` (`node.hpp`).

Simplifications, valid for the whole file:
* leaf nodes and counting pointers are those of `FST/HeapModel.lean`: the same template is
  used by both containers; the value of a leaf is its `data_chain`;
* a `data_chain` is created once and lives as long as its node, so a pointer to it is a pointer
  to the node;
* elements of a pool have addresses of their own, never used again; clearing a pool ends the
  life of its elements;
* the member `parent` is never read; writing it is only a check that the node is alive;
* keys are `Int`; sorting, filtering and comparing segments is as in `Model.lean`;
* a moved-from `std::deque`, `std::vector` or `std::map` is empty.
-/
namespace Mdds.SegTree.Mem

open Mdds.FST.Mem (Heap Prog Root Var Loc)

variable {V : Type}

/-- `std::unique_ptr<value_chain_type>` (`st.hpp` 72-112). -/
abbrev Chain := Option (List Nat)

/-- A `node_base*`; the flag `is_leaf` says which kind of node it is (`node.hpp` 20-37). -/
inductive Ptr where
  | leaf (a : Nat)
  | inner (p : Nat)
  deriving DecidableEq, Repr

/-- `nonleaf_node` (`node.hpp` 38-52). -/
structure Inner where
  low : Int
  high : Int
  chain : Chain
  left : Option Ptr
  right : Option Ptr
  deriving DecidableEq, Repr

/-- A new pool element (`node.hpp` 43-49, 60). -/
def Inner.new : Inner := ⟨0, 0, none, none, none⟩

/-- The members of a container (`st.hpp` 529-551) except `m_left_leaf` and `m_right_leaf`, which
are roots of the heap of leaves.  The pool has the addresses `base`, …, `base + size - 1`. -/
structure Obj (V : Type) where
  store : List (Seg V)
  base : Nat
  size : Nat
  root : Option Nat
  tagged : List (Nat × List Ptr)
  valid : Bool
  deriving DecidableEq, Repr

/-- A new container (`st.inl` 246-249). -/
def Obj.new : Obj V := ⟨[], 0, 0, none, [], false⟩

/-- `search_results` (`st.hpp` 120-165): the container whose store is referred to, and the
chains found. -/
structure Res where
  owner : Nat
  chains : List Ptr
  deriving DecidableEq, Repr

/-- Leaves with values in `L`, pools, the containers `O` and the search results `R` of a program.
The tree builder is a template, so the functions it needs do not depend on `L`, `O` and `R`. -/
structure MemG (L O R : Type) where
  lh : Heap L
  nl : Nat → Option Inner
  next : Nat
  obj : Nat → Option O
  res : Nat → Option R

/-- The memory of a program that uses segment trees. -/
abbrev Mem (V : Type) := MemG Chain (Obj V) Res

variable {L O R : Type}

/-- Memory before anything was constructed. -/
def empty : MemG L O R :=
  { lh := Mdds.FST.Mem.empty, nl := fun _ => none, next := 0, obj := fun _ => none, res := fun _ => none }

/-- A computation on the memory. -/
abbrev ActG (L O R : Type) (α : Type) := MemG L O R → Outcome (α × MemG L O R)

abbrev Act (V : Type) (α : Type) := ActG Chain (Obj V) Res α

namespace Act

def ret {α : Type} (a : α) : ActG L O R α := fun m => .ok (a, m)

/-- Sequential composition. -/
def seq {α β : Type} (p : ActG L O R α) (k : α → ActG L O R β) : ActG L O R β := fun m =>
  match p m with
  | .ok (a, m') => k a m'
  | .err e => .err e
  | .ub => .ub

def undef {α : Type} : ActG L O R α := fun _ => .ub

instance : Monad (ActG L O R) where
  pure := ret
  bind := seq

end Act

/-- Work on the leaves. -/
def onLeaves {α : Type} (p : Prog L α) : ActG L O R α := fun m =>
  match p m.lh with
  | .ok (a, h) => .ok (a, { m with lh := h })
  | .err e => .err e
  | .ub => .ub

/-- Use of a container: it must be there. -/
def getObj (o : Nat) : ActG L O R O := fun m =>
  match m.obj o with
  | none => .ub
  | some x => .ok (x, m)

/-- Assignment to members of a container. -/
def setObj (o : Nat) (x : O) : ActG L O R Unit := fun m =>
  match m.obj o with
  | none => .ub
  | some _ => .ok ((), { m with obj := Mdds.FST.Mem.upd m.obj o (some x) })

/-- A container comes to life. -/
def newObj (o : Nat) (x : O) : ActG L O R Unit := fun m =>
  match m.obj o with
  | none => .ok ((), { m with obj := Mdds.FST.Mem.upd m.obj o (some x) })
  | some _ => .ub

/-- The end of a container's life. -/
def endObj (o : Nat) : ActG L O R Unit := fun m =>
  match m.obj o with
  | none => .ub
  | some _ => .ok ((), { m with obj := Mdds.FST.Mem.upd m.obj o none })

/-- `*p` for a non-leaf node. -/
def readInner (p : Nat) : ActG L O R Inner := fun m =>
  match m.nl p with
  | none => .ub
  | some n => .ok (n, m)

/-- Assignment to members of a non-leaf node. -/
def writeInner (p : Nat) (n : Inner) : ActG L O R Unit := fun m =>
  match m.nl p with
  | none => .ub
  | some _ => .ok ((), { m with nl := Mdds.FST.Mem.upd m.nl p (some n) })

/-- `m_nonleaf_node_pool.clear()`: the elements are destroyed. -/
def poolClear (o : Nat) : Act V Unit := do
  let x ← getObj o
  (fun m => .ok ((), { m with nl := fun p => if x.base ≤ p ∧ p < x.base + x.size then none else m.nl p }) : Act V Unit)
  setObj o { x with base := 0, size := 0 }

/-- `m_nonleaf_node_pool.resize(n)` of an empty pool: `n` new elements. -/
def poolResize (o n : Nat) : Act V Unit := do
  let x ← getObj o
  let b ← (fun m => .ok (m.next, { m with nl := fun p => if m.next ≤ p ∧ p < m.next + n then some Inner.new else m.nl p, next := m.next + n }) : Act V Nat)
  setObj o { x with base := b, size := n }

/-! ## The tree builder -/

/-- `node1->parent = parent_node` (`node.hpp` 250, 254). -/
def touch : Ptr → ActG L O R Unit
  | .leaf a => do let _ ← onLeaves (Mdds.FST.Mem.deref a); return ()
  | .inner p => do let _ ← readInner p; return ()

/-- The lower bound of the parent (`node.hpp` 264-269). -/
def lowOf : Ptr → ActG L O R Int
  | .leaf a => onLeaves (Mdds.FST.Mem.getKey a)
  | .inner p => do let n ← readInner p; return n.low

/-- The upper bound of the parent (`node.hpp` 276-299). -/
def highOf (l : Ptr) : Option Ptr → ActG L O R Int
  | some (.leaf b) => do
    match (← onLeaves (Mdds.FST.Mem.getNext b)) with
    | some c => onLeaves (Mdds.FST.Mem.getKey c)
    | none => onLeaves (Mdds.FST.Mem.getKey b)
  | some (.inner q) => do let n ← readInner q; return n.high
  | none => match l with
    | .leaf a => onLeaves (Mdds.FST.Mem.getKey a)
    | .inner q => do let n ← readInner q; return n.high

/-- `make_parent_node` and `fill_nonleaf_parent_node` (`node.hpp` 244-300): the next element of the
pool becomes the parent.  `k` elements have been used; there must be another.  The members of the
parent are written at once. -/
def makeParent (base size k : Nat) (l : Ptr) (r : Option Ptr) : ActG L O R Nat := do
  if k < size then
    touch l
    match r with
    | some q => touch q
    | none => Act.ret ()
    let lo ← lowOf l
    let hi ← highOf l r
    let n ← readInner (base + k)
    writeInner (base + k) { n with low := lo, high := hi, left := some l, right := r.or n.right }
    return base + k
  else Act.undef

/-- The loop over the leaves (`node.hpp` 224-237); `node1` and `node2` are the local variables
`cur` and `nxt`. -/
def bottomLoop (base size : Nat) : Nat → Nat → ActG L O R (List Nat)
  | 0, _ => Act.undef
  | fuel + 1, k => do
    let a ← onLeaves (do Mdds.FST.Mem.nonnull (← Mdds.FST.Mem.get (.var .cur)))
    onLeaves (do Mdds.FST.Mem.assign (.root (.var .nxt)) (← Mdds.FST.Mem.getNext a))
    let b ← onLeaves (Mdds.FST.Mem.get (.var .nxt))
    let p ← makeParent base size k (.leaf a) (b.map Ptr.leaf)
    let c ← match b with
      | none => Act.ret none
      | some b => onLeaves (Mdds.FST.Mem.getNext b)
    match c with
    | none => do
      onLeaves (Mdds.FST.Mem.drop .nxt)
      return [p]
    | some c => do
      onLeaves (Mdds.FST.Mem.assign (.root (.var .cur)) (some c))
      onLeaves (Mdds.FST.Mem.drop .nxt)
      let ps ← bottomLoop base size fuel (k + 1)
      return p :: ps

/-- One level of `build_tree_non_leaf` (`node.hpp` 312-336). -/
def upLevel (base size : Nat) : Nat → List Nat → ActG L O R (List Nat)
  | _, [] => Act.ret []
  | k, [a] => do
    let p ← makeParent base size k (.inner a) none
    return [p]
  | k, a :: b :: rest => do
    let p ← makeParent base size k (.inner a) (some (.inner b))
    let ps ← upLevel base size (k + 1) rest
    return p :: ps

/-- `build_tree_non_leaf` (`node.hpp` 302-339). -/
def upLoop (base size : Nat) : Nat → Nat → List Nat → ActG L O R (Option Nat)
  | _, _, [] => Act.ret none
  | _, _, [p] => Act.ret (some p)
  | 0, _, _ :: _ :: _ => Act.undef
  | fuel + 1, k, a :: b :: rest => do
    let ps ← upLevel base size k (a :: b :: rest)
    upLoop base size fuel (k + ps.length) ps

/-- `tree_builder::build` (`node.hpp` 216-241). -/
def build (o base size : Nat) : ActG L O R (Option Nat) := do
  match (← onLeaves (Mdds.FST.Mem.get (.left o))) with
  | none => Act.ret none
  | some a => do
    onLeaves (Mdds.FST.Mem.assign (.root (.var .cur)) (some a))
    let ps ← bottomLoop base size (← onLeaves Mdds.FST.Mem.loopBound) 0
    let r ← upLoop base size ps.length ps.length ps
    onLeaves (Mdds.FST.Mem.drop .cur)
    return r

/-! ## Leaves -/

/-- A new node after `c` (`st.inl` 447-450 and 457-460): `c->next.reset(new node); prev_node = c;
cur_node = c->next; cur_node->prev = prev_node`.  `prev_node` and `cur_node` are the local
variables `oldNode` and `dest`. -/
def appendBlank (c : Nat) : Prog Chain Unit := do
  let _ ← Mdds.FST.Mem.alloc (.var .nxt) 0 none
  Mdds.FST.Mem.moveTo (.next c) (.var .nxt)
  Mdds.FST.Mem.assign (.root (.var .oldNode)) (some c)
  Mdds.FST.Mem.assign (.root (.var .dest)) (← Mdds.FST.Mem.getNext c)
  let d ← Mdds.FST.Mem.nonnull (← Mdds.FST.Mem.get (.var .dest))
  Mdds.FST.Mem.assign (.prev d) (← Mdds.FST.Mem.get (.var .oldNode))

/-- The loop of `create_leaf_node_instances` (`st.inl` 452-461). -/
def leafLoop : List Int → Prog Chain Unit
  | [] => Prog.ret ()
  | k :: ks => do
    let c ← Mdds.FST.Mem.nonnull (← Mdds.FST.Mem.get (.var .dest))
    Mdds.FST.Mem.setKey c k
    appendBlank c
    leafLoop ks

/-- `create_leaf_node_instances` (`st.inl` 425-466) on the sorted keys.  The check for fewer
than two keys is made before duplicates are removed; a segment has two different ends. -/
def createLeaves (o : Nat) (keys : List Int) : Prog Chain Unit := do
  Mdds.FST.Mem.assign (.root (.left o)) none
  Mdds.FST.Mem.assign (.root (.right o)) none
  match keys with
  | [] => Prog.ret ()
  | k :: ks =>
    let l ← Mdds.FST.Mem.alloc (.left o) k none
    appendBlank l
    leafLoop ks
    -- prev_node->next.reset(); right = prev_node
    let p ← Mdds.FST.Mem.nonnull (← Mdds.FST.Mem.get (.var .oldNode))
    Mdds.FST.Mem.assign (.next p) none
    Mdds.FST.Mem.assign (.root (.right o)) (some p)
    Mdds.FST.Mem.dropAll [.dest, .oldNode]

/-- The loop of `count_leaf_nodes` (`node.hpp` 375-385). -/
def countLoop (right : Option Nat) : Nat → Option Nat → Nat → Prog L Nat
  | 0, _, _ => Prog.undef
  | fuel + 1, p, n =>
    if p = right then Prog.ret n
    else do
      let a ← Mdds.FST.Mem.nonnull p
      countLoop right fuel (← Mdds.FST.Mem.getNext a) (n + 1)

/-- `count_leaf_nodes` (`node.hpp` 375-385), also `leaf_size` (`st.hpp` 459-463). -/
def countLeaves (o : Nat) : Prog L Nat := do
  countLoop (← Mdds.FST.Mem.get (.right o)) (← Mdds.FST.Mem.loopBound) (← Mdds.FST.Mem.get (.left o)) 1

/-- `count_needed_nonleaf_nodes` (`node.hpp` 388-407).  It does not terminate on zero, which
`count_leaf_nodes` never returns. -/
def needed (n : Nat) : Nat :=
  if n ≤ 1 then 0 else (n + 1) / 2 + needed ((n + 1) / 2)
termination_by n
decreasing_by omega

/-! ## Marking, searching, unmarking -/

/-- Append a position to a data chain, creating it first if there is none. -/
def Chain.push (c : Chain) (i : Nat) : Chain := some (c.getD [] ++ [i])

/-- `descend_tree_and_mark` (`st.inl` 363-404). -/
def markP (i : Nat) (s e : Int) : Nat → Ptr → Act V (List Ptr)
  | 0, _ => Act.undef
  | _ + 1, .leaf a => do
    let k ← onLeaves (Mdds.FST.Mem.getKey a)
    if s ≤ k ∧ k < e then
      let c ← onLeaves (Mdds.FST.Mem.getVal a)
      onLeaves (Mdds.FST.Mem.setVal a (Chain.push c i))
      return [.leaf a]
    else return []
  | fuel + 1, .inner p => do
    let n ← readInner p
    if e < n.low ∨ n.high ≤ s then return []
    else if s ≤ n.low ∧ n.high < e then
      writeInner p { n with chain := Chain.push n.chain i }
      return [.inner p]
    else
      let l ← match n.left with
        | none => Act.ret []
        | some q => markP i s e fuel q
      let r ← match n.right with
        | none => Act.ret []
        | some q => markP i s e fuel q
      return l ++ r

/-- The marking loop of `build_tree` (`st.inl` 349-357). -/
def markAllP (fuel : Nat) (root : Option Nat) : Nat → List (Seg V) → Act V (List (Nat × List Ptr))
  | _, [] => Act.ret []
  | i, s :: ss => do
    let ps ← match root with
      | none => Act.ret []
      | some p => markP i s.start s.stop fuel (.inner p)
    let rest ← markAllP fuel root (i + 1) ss
    return (i, ps) :: rest

/-- The data chain of a node (`st.inl` 563-567 and 23, 33). -/
def chainOf : Ptr → Act V Chain
  | .leaf a => onLeaves (Mdds.FST.Mem.getVal a)
  | .inner p => do let n ← readInner p; return n.chain

/-- `search_result_inserter::operator()` and `push_back_chain` (`st.hpp` 237-243, `st.inl` 129-138):
null and empty chains are passed over. -/
def offer (p : Ptr) (c : Chain) : List Ptr := if c.getD [] = [] then [] else [p]

/-- Which of the two leaves to look at (`st.inl` 50-57); treating a non-leaf node as a leaf would
be undefined. -/
def pickLeaf (pt : Int) (a : Nat) : Option Ptr → Act V Ptr
  | none => Act.ret (.leaf a)
  | some (.inner _) => Act.undef
  | some (.leaf b) => do
    let k ← onLeaves (Mdds.FST.Mem.getKey b)
    return (if k ≤ pt then .leaf b else .leaf a)

/-- `descend_tree_for_search` (`st.inl` 14-80). -/
def descendP (pt : Int) : Nat → Ptr → Act V (List Ptr)
  | 0, _ => Act.undef
  | _ + 1, .leaf a => do
    let c ← chainOf (.leaf a)
    return offer (.leaf a) c
  | fuel + 1, .inner p => do
    let n ← readInner p
    if pt < n.low ∨ n.high ≤ pt then return []
    else
      match n.left with
      | none => return offer (.inner p) n.chain
      | some (.leaf a) =>
        if pt < (← onLeaves (Mdds.FST.Mem.getKey a)) then return offer (.inner p) n.chain
        else
          let child ← pickLeaf pt a n.right
          let rest ← descendP pt fuel child
          return offer (.inner p) n.chain ++ rest
      | some (.inner q) =>
        let nq ← readInner q
        if pt < nq.low then return offer (.inner p) n.chain
        else
          let child := if nq.high ≤ pt then n.right.getD (.inner q) else .inner q
          let rest ← descendP pt fuel child
          return offer (.inner p) n.chain ++ rest

/-- `remove_data_from_nodes` (`st.inl` 558-584). -/
def unmark (i : Nat) : List Ptr → Act V Unit
  | [] => Act.ret ()
  | .leaf a :: ps => do
    match (← onLeaves (Mdds.FST.Mem.getVal a)) with
    | none => Act.ret ()
    | some c => onLeaves (Mdds.FST.Mem.setVal a (some (rmChain i c)))
    unmark i ps
  | .inner p :: ps => do
    let n ← readInner p
    match n.chain with
    | none => Act.ret ()
    | some c => writeInner p { n with chain := some (rmChain i c) }
    unmark i ps

/-! ## Member functions -/

/-- `clear_all_nodes` (`st.inl` 613-621). -/
def clearNodes (o : Nat) : Act V Unit := do
  onLeaves (Mdds.FST.Mem.destroyLeaves o)
  poolClear o
  onLeaves (Mdds.FST.Mem.assign (.root (.left o)) none)
  onLeaves (Mdds.FST.Mem.assign (.root (.right o)) none)
  let x ← getObj o
  setObj o { x with root := none }

section
variable [DecidableEq V]

/-- `build_tree` (`st.inl` 316-361) with `build_leaf_nodes` (406-423). -/
def buildTreeP (dv : V) (o : Nat) : Act V Unit := do
  let x ← getObj o
  let segs := x.store.filter fun s => decide (s ≠ deleted dv)
  setObj o { x with valid := false, store := segs }
  onLeaves (Mdds.FST.Mem.destroyLeaves o)
  onLeaves (createLeaves o (sortUnique (rawKeys segs)))
  poolClear o
  let x ← getObj o
  setObj o { x with root := none }
  match (← onLeaves (Mdds.FST.Mem.get (.left o))) with
  | none => Act.ret ()
  | some _ => do
    let n ← onLeaves (countLeaves o)
    poolResize o (needed n)
    let x ← getObj o
    let r ← build o x.base x.size
    setObj o { x with root := r }
    let tags ← markAllP (x.size + 1) r 0 segs
    setObj o { x with root := r, tagged := tags, valid := true }

/-- `search` (`st.inl` 478-490); the results are kept in the variable `x`. -/
def searchP (x o : Nat) (pt : Int) : Act V Unit := do
  let ob ← getObj o
  let ps ← match ob.root, ob.valid with
    | some p, true => descendP pt (ob.size + 1) (.inner p)
    | _, _ => Act.ret []
  (fun m => .ok ((), { m with res := Mdds.FST.Mem.upd m.res x (some ⟨o, ps⟩) }) : Act V Unit)

/-- All chains of a result, as the iterator reads them (`st.hpp` 212-222). -/
def readChains : List Ptr → Act V (List (List Nat))
  | [] => Act.ret []
  | p :: ps => do
    match (← chainOf p) with
    | none => Act.undef
    | some c => do
      let cs ← readChains ps
      return c :: cs

/-- `(*m_segment_store)[pos]` for a list of positions. -/
def readStore (store : List (Seg V)) : List Nat → Act V (List (Seg V))
  | [] => Act.ret []
  | i :: is => match store[i]? with
    | none => Act.undef
    | some s => do
      let ss ← readStore store is
      return s :: ss

/-- The positions met by `for (it = r.begin(); it != r.end(); ++it)`. -/
def positionsP (x : Nat) : Act V (Nat × List Nat) := do
  let r ← (fun m => match m.res x with
    | none => .ub
    | some r => .ok (r, m) : Act V Res)
  let cs ← readChains r.chains
  match iterate cs (resSize cs + 1) (itBegin cs) with
  | none => Act.undef
  | some is => return (r.owner, is)

/-- The segments met by `for (it = r.begin(); it != r.end(); ++it)`. -/
def readP (x : Nat) : Act V (List (Seg V)) := do
  let (o, is) ← positionsP x
  let ob ← getObj o
  readStore ob.store is

/-- `remove_value_pos` (`st.inl` 586-611). -/
def removePosP (dv : V) (o pos : Nat) : Act V Unit := do
  let x ← getObj o
  if pos < x.store.length then
    let x := { x with store := x.store.set pos (deleted dv) }
    setObj o x
    if x.valid = false then return ()
    else match x.tagged.lookup pos with
      | none => return ()
      | some ps => do
        unmark pos ps
        setObj o { x with tagged := x.tagged.filter fun t => decide (t.1 ≠ pos) }
  else Act.undef

/-- `erase` (`st.inl` 492-496) with the iterator at step `k` of the results in the variable `x`. -/
def eraseP (dv : V) (o x k : Nat) : Act V Unit := do
  let (_, is) ← positionsP (V := V) x
  match is[k]? with
  | none => Act.undef
  | some pos => removePosP dv o pos

/-- The loop of `erase_if` (`st.inl` 503-517). -/
def eraseIfLoopP (dv : V) (o : Nat) (pred : Seg V → Bool) : Nat → Nat → Nat → Act V Nat
  | 0, _, cnt => Act.ret cnt
  | n + 1, pos, cnt => do
    let x ← getObj o
    match x.store[pos]? with
    | none => Act.undef
    | some seg =>
      if seg = deleted dv then eraseIfLoopP dv o pred n (pos + 1) cnt
      else if pred seg = false then eraseIfLoopP dv o pred n (pos + 1) cnt
      else do
        removePosP dv o pos
        eraseIfLoopP dv o pred n (pos + 1) (cnt + 1)

/-- `erase_if` (`st.inl` 498-518). -/
def eraseIfP (dv : V) (o : Nat) (pred : Seg V → Bool) : Act V Nat := do
  let x ← getObj o
  eraseIfLoopP dv o pred x.store.length 0 0

/-- `insert` (`st.inl` 468-476): `false` when it throws. -/
def insertP (o : Nat) (s e : Int) (v : V) : Act V Bool := do
  let x ← getObj o
  if e ≤ s then return false
  else
    setObj o { x with store := x.store ++ [⟨s, e, v⟩], valid := false }
    return true

/-- `clear` (`st.inl` 532-539). -/
def clearP (o : Nat) : Act V Unit := do
  let x ← getObj o
  setObj o { x with tagged := [], store := [] }
  clearNodes o
  let x ← getObj o
  setObj o { x with valid := false }

/-- Destructor (`st.inl` 259-263), then the members. -/
def destructP (o : Nat) : Act V Unit := do
  clearNodes o
  endObj o

/-- Copy constructor (`st.inl` 251-257). -/
def copyP (dv : V) (o r : Nat) : Act V Unit := do
  let x ← getObj r
  newObj o { (Obj.new : Obj V) with store := x.store, valid := x.valid }
  if x.valid then buildTreeP dv o else return ()

/-- Move constructor (`st.hpp` 338, defaulted): the root pointer and the flag are copied and stay
in the source. -/
def moveP (o r : Nat) : Act V Unit := do
  let x ← getObj r
  newObj o x
  onLeaves (Mdds.FST.Mem.moveConstruct o r)
  setObj r { (Obj.new : Obj V) with root := x.root, valid := x.valid }

/-- `swap` (`st.inl` 520-530). -/
def swapP (a b : Nat) : Act V Unit := do
  let x ← getObj a
  let y ← getObj b
  setObj a y
  setObj b x
  onLeaves (Mdds.FST.Mem.swapLeaves a b)

/-- Copy assignment (`st.inl` 265-271); number 0 is the temporary. -/
def assignCopyP (dv : V) (o r : Nat) : Act V Unit := do
  copyP dv 0 r
  swapP o 0
  destructP 0

/-- Move assignment (`st.inl` 273-279). -/
def assignMoveP (o r : Nat) : Act V Unit := do
  moveP 0 r
  swapP o 0
  destructP 0

/-- The tagged-node part of `check_integrity` (`st.inl` 800-815): every marked node still has the
position in its chain. -/
def checkTags (i : Nat) : List Ptr → Act V Bool
  | [] => Act.ret true
  | p :: ps => do
    let c ← chainOf p
    if i ∈ c.getD [] then checkTags i ps else return false

def checkAllTags : List (Nat × List Ptr) → Act V Bool
  | [] => Act.ret true
  | (i, ps) :: rest => do
    if (← checkTags i ps) then checkAllTags rest else return false

/-- `check_integrity` (`st.inl` 713-816), the part that looks at `m_tagged_nodes_map`. -/
def checkTagsP (o : Nat) : Act V Bool := do
  let x ← getObj o
  checkAllTags x.tagged

/-! ## Programs -/

inductive Cmd (V : Type) where
  | construct (o : Nat)
  | destruct (o : Nat)
  | copy (o r : Nat)
  | move (o r : Nat)
  | assignCopy (o r : Nat)
  | assignMove (o r : Nat)
  | swap (a b : Nat)
  | insert (o : Nat) (s e : Int) (v : V)
  | build (o : Nat)
  | search (x o : Nat) (pt : Int)
  | read (x : Nat)
  | erase (o x k : Nat)
  | eraseIf (o : Nat) (pred : Seg V → Bool)
  | clear (o : Nat)
  | leafSize (o : Nat)
  | check (o : Nat)

/-- What a call tells its caller. -/
inductive Ret (V : Type) where
  | nothing
  | flag (b : Bool)
  | count (n : Nat)
  | segs (l : List (Seg V))
  deriving DecidableEq, Repr

def Cmd.exec (dv : V) : Cmd V → Act V (Ret V)
  | .construct o => do newObj o Obj.new; return .nothing
  | .destruct o => do destructP o; return .nothing
  | .copy o r => do copyP dv o r; return .nothing
  | .move o r => do moveP o r; return .nothing
  | .assignCopy o r => do assignCopyP dv o r; return .nothing
  | .assignMove o r => do assignMoveP o r; return .nothing
  | .swap a b => do swapP a b; return .nothing
  | .insert o s e v => do let b ← insertP o s e v; return .flag b
  | .build o => do buildTreeP dv o; return .nothing
  | .search x o pt => do searchP x o pt; return .nothing
  | .read x => do let l ← readP x; return .segs l
  | .erase o x k => do eraseP dv o x k; return .nothing
  | .eraseIf o pred => do let n ← eraseIfP dv o pred; return .count n
  | .clear o => do clearP o; return .nothing
  | .leafSize o => do let _ ← (getObj o : Act V (Obj V)); let n ← onLeaves (countLeaves o); return .count n
  | .check o => do let b ← checkTagsP (V := V) o; return .flag b

/-- A program, from empty memory or in the middle. -/
def runP (dv : V) : List (Cmd V) → Act V (List (Ret V))
  | [] => Act.ret []
  | c :: cs => do
    let r ← c.exec dv
    let rs ← runP dv cs
    return r :: rs

end

end Mdds.SegTree.Mem
