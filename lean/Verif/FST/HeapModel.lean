import Verif.FST.Model

/-!
# flat_segment_tree: nodes in memory

`FST/Model.lean` treats the leaves as a list.  Here they are what they are in the code: nodes
in a heap, doubly linked by `boost::intrusive_ptr`s that count references, deleted by the
release that takes the count to zero.  Every member function that creates, links, unlinks or
drops a node is written out statement by statement.  Reading or writing a node through a null
pointer or after its deletion is `ub`.

Source: `/repo/include/mdds/node.hpp` (`node.hpp`), `flat_segment_tree.hpp` (`fst.hpp`),
`flat_segment_tree_def.inl` (`fst.inl`).

Simplifications, valid for the whole file:
* keys are `Int`; an address is a number never used again after its node is deleted;
* all local `node_ptr` variables have a name of their own (`Var`); no function of this file is
  active twice at a time, so one slot per name is enough.  A parameter taken by value that the
  caller fills with `std::move` shares the slot of the caller's variable;
* the tree of non-leaf nodes and the `parent` pointers (raw pointers, never owning) are left out;
* a loop runs at most `fresh + 1` times (`fresh`: number of nodes ever created); running out is
  reported as `ub`.  The theorems of `HeapProps.lean` show that it never does.
-/
namespace Mdds.FST.Mem

variable {V : Type}

/-- A leaf node (`node.hpp` 95-181): value, key, links, reference count. -/
structure Node (V : Type) where
  key : Int
  val : V
  prev : Option Nat
  next : Option Nat
  rc : Nat
  deriving DecidableEq, Repr

/-- The local variables of type `node_ptr` of the modelled functions. -/
inductive Var where
  | startPos | endPos | newStart | newNode | leftNode | cur | nodePos | nxt | lastNode
  | dest | oldNode | keepLeft | keepRight
  deriving DecidableEq, Repr

/-- The owning pointers outside nodes: `m_left_leaf` and `m_right_leaf` of every container
(`fst.hpp` 794-795; containers are numbered) and the local variables. -/
inductive Root where
  | left (o : Nat)
  | right (o : Nat)
  | var (x : Var)
  deriving DecidableEq, Repr

/-- A place that holds a `node_ptr`. -/
inductive Loc where
  | root (r : Root)
  | prev (a : Nat)
  | next (a : Nat)
  deriving DecidableEq, Repr

structure Heap (V : Type) where
  node : Nat → Option (Node V)
  root : Root → Option Nat
  fresh : Nat

/-- Memory before anything was constructed. -/
def empty : Heap V := { node := fun _ => none, root := fun _ => none, fresh := 0 }

/-- Change one entry of a table. -/
def upd {α β : Type} [DecidableEq α] (f : α → β) (a : α) (b : β) : α → β :=
  fun x => if x = a then b else f x

/-- A computation on the memory. -/
abbrev Prog (V : Type) (α : Type) := Heap V → Outcome (α × Heap V)

namespace Prog

def ret {α : Type} (a : α) : Prog V α := fun h => .ok (a, h)

/-- Sequential composition. -/
def seq {α β : Type} (p : Prog V α) (k : α → Prog V β) : Prog V β := fun h =>
  match p h with
  | .ok (a, h') => k a h'
  | .err e => .err e
  | .ub => .ub

def undef {α : Type} : Prog V α := fun _ => .ub

instance : Monad (Prog V) where
  pure := ret
  bind := seq

end Prog

/-- The pointer stored in a place; a place inside a deleted node holds nothing. -/
def Heap.read (h : Heap V) : Loc → Option Nat
  | .root r => h.root r
  | .prev a => (h.node a).bind (·.prev)
  | .next a => (h.node a).bind (·.next)

/-- Overwrite the pointer stored in a place, without any counting. -/
def Heap.write (h : Heap V) (l : Loc) (v : Option Nat) : Heap V :=
  match l with
  | .root r => { h with root := upd h.root r v }
  | .prev a => { h with node := upd h.node a ((h.node a).map fun n => { n with prev := v }) }
  | .next a => { h with node := upd h.node a ((h.node a).map fun n => { n with next := v }) }

/-- Is there something at this place to write to?  Places inside deleted nodes are gone. -/
def Heap.hasLoc (h : Heap V) : Loc → Bool
  | .root _ => true
  | .prev a => (h.node a).isSome
  | .next a => (h.node a).isSome

/-- `intrusive_ptr_add_ref` (`node.hpp` 185-189); nothing for a null pointer. -/
def addRef (v : Option Nat) (h : Heap V) : Outcome (Heap V) :=
  match v with
  | none => .ok h
  | some a => match h.node a with
    | none => .ub
    | some n => .ok { h with node := upd h.node a (some { n with rc := n.rc + 1 }) }

/-- `intrusive_ptr_release` (`node.hpp` 191-197) on every address of the work list: count down;
at zero the node is deleted, and the destructors of its members `next` and `prev` (in reverse
order of declaration) release in turn before anything else happens. -/
def drain : Nat → List Nat → Heap V → Outcome (Heap V)
  | _, [], h => .ok h
  | 0, _ :: _, _ => .ub
  | fuel + 1, a :: work, h =>
    match h.node a with
    | none => .ub
    | some n =>
      if n.rc = 1 then
        drain fuel (n.next.toList ++ (n.prev.toList ++ work)) { h with node := upd h.node a none }
      else drain fuel work { h with node := upd h.node a (some { n with rc := n.rc - 1 }) }

/-- Every release deletes a node or ends; `2 * fresh + 1` steps are always enough. -/
def release (v : Option Nat) (h : Heap V) : Outcome (Heap V) := drain (2 * h.fresh + 1) v.toList h

/-- `l = v` and `l.reset(v)` for a `node_ptr` (`intrusive_ptr(v).swap(l)`): count up the new
pointee, store the pointer, release the old pointee. -/
def assign (l : Loc) (v : Option Nat) : Prog V Unit := fun h =>
  if h.hasLoc l then
    match addRef v h with
    | .ok h1 => match release (h1.read l) (h1.write l v) with
      | .ok h2 => .ok ((), h2)
      | .err e => .err e
      | .ub => .ub
    | .err e => .err e
    | .ub => .ub
  else .ub

/-- `l = std::move(x)` for a local variable or member `x`: the pointer moves without counting,
then the old pointee of `l` is released. -/
def moveTo (l : Loc) (x : Root) : Prog V Unit := fun h =>
  if h.hasLoc l then
    let v := h.root x
    let h1 := h.write (.root x) none
    match release (h1.read l) (h1.write l v) with
    | .ok h2 => .ok ((), h2)
    | .err e => .err e
    | .ub => .ub
  else .ub

/-- `node_ptr x(new node)` followed by nothing else: a node with no links whose only reference
is the variable.  (`node.hpp` 133-138; `key` and `value` as set right after.) -/
def alloc (x : Root) (k : Int) (v : V) : Prog V Nat := fun h =>
  let a := h.fresh
  match release (h.root x)
      { node := upd h.node a (some { key := k, val := v, prev := none, next := none, rc := 1 }),
        root := upd h.root x (some a), fresh := a + 1 } with
  | .ok h2 => .ok (a, h2)
  | .err e => .err e
  | .ub => .ub

/-- The pointer held by a variable or member. -/
def get (x : Root) : Prog V (Option Nat) := fun h => .ok (h.root x, h)

/-- `*p`. -/
def deref (a : Nat) : Prog V (Node V) := fun h =>
  match h.node a with
  | none => .ub
  | some n => .ok (n, h)

/-- Use of a pointer that must not be null. -/
def nonnull (p : Option Nat) : Prog V Nat :=
  match p with
  | none => Prog.undef
  | some a => Prog.ret a

def getKey (a : Nat) : Prog V Int := do let n ← deref a; return n.key
def getVal (a : Nat) : Prog V V := do let n ← deref a; return n.val
def getNext (a : Nat) : Prog V (Option Nat) := do let n ← deref a; return n.next
def getPrev (a : Nat) : Prog V (Option Nat) := do let n ← deref a; return n.prev

def setKey (a : Nat) (k : Int) : Prog V Unit := fun h =>
  match h.node a with
  | none => .ub
  | some n => .ok ((), { h with node := upd h.node a (some { n with key := k }) })

def setVal (a : Nat) (v : V) : Prog V Unit := fun h =>
  match h.node a with
  | none => .ub
  | some n => .ok ((), { h with node := upd h.node a (some { n with val := v }) })

/-- Bound for loops: the number of nodes ever created, plus one. -/
def loopBound : Prog V Nat := fun h => .ok (h.fresh + 1, h)

/-- End of scope: the local variable releases its pointee. -/
def drop (x : Var) : Prog V Unit := assign (.root (.var x)) none

def dropAll : List Var → Prog V Unit
  | [] => Prog.ret ()
  | x :: xs => do drop x; dropAll xs

/-! ## Helpers of `node.hpp` -/

/-- `link_nodes` (`node.hpp` 199-204). -/
def linkNodes (l r : Root) : Prog V Unit := do
  let a ← nonnull (← get l)
  assign (.next a) (← get r)
  let b ← nonnull (← get r)
  assign (.prev b) (← get l)

/-- `disconnect_all_nodes` (`node.hpp` 346-355). -/
def disconnectAll (p : Option Nat) : Prog V Unit :=
  match p with
  | none => Prog.ret ()
  | some a => do
    assign (.prev a) none
    assign (.next a) none

/-- The loop of `disconnect_leaf_nodes` (`node.hpp` 363-370). -/
def disconnectLoop (right : Nat) : Nat → Option Nat → Prog V Unit
  | 0, _ => Prog.undef
  | fuel + 1, cur => do
    let c ← nonnull cur
    let nx ← getNext c
    disconnectAll (some c)
    if nx = some right then Prog.ret () else disconnectLoop right fuel nx

/-- `disconnect_leaf_nodes` (`node.hpp` 357-373). -/
def disconnectLeaves (l r : Option Nat) : Prog V Unit :=
  match l, r with
  | some a, some b => do
    disconnectLoop b (← loopBound) (some a)
    disconnectAll (some b)
  | _, _ => Prog.ret ()

/-! ## Construction, destruction, copying -/

/-- Constructor (`fst.inl` 57-75). -/
def construct (o : Nat) (dv : V) (lo hi : Int) (init : V) : Prog V Unit := do
  let a ← alloc (.left o) lo init
  let b ← alloc (.right o) hi dv
  assign (.next a) (some b)
  assign (.prev b) (some a)

/-- `destroy` (`fst.inl` 829-835), the leaves. -/
def destroyLeaves (o : Nat) : Prog V Unit := do
  disconnectLeaves (← get (.left o)) (← get (.right o))

/-- Destructor (`fst.inl` 116-119), then the members `m_right_leaf` and `m_left_leaf`. -/
def destruct (o : Nat) : Prog V Unit := do
  destroyLeaves o
  assign (.root (.right o)) none
  assign (.root (.left o)) none

/-- One round of the loop of the copy constructor (`fst.inl` 86-96).  `src` is `src_node`;
`dest_node` is a local variable.  Returns the next `src_node` and the new `dest_node`. -/
def copyStep (src : Nat) : Prog V (Nat × Nat) := do
  let sn ← nonnull (← getNext src)
  let k ← getKey sn
  let v ← getVal sn
  -- dest_node->next.reset(new node(*src_node->next))
  let _ ← alloc (.var .nxt) k v
  let d ← nonnull (← get (.var .dest))
  moveTo (.next d) (.var .nxt)
  -- old_node = dest_node; dest_node = dest_node->next; dest_node->prev = std::move(old_node)
  assign (.root (.var .oldNode)) (some d)
  assign (.root (.var .dest)) (← getNext d)
  let d' ← nonnull (← get (.var .dest))
  moveTo (.prev d') (.var .oldNode)
  return (sn, d')

/-- The loop of the copy constructor (`fst.inl` 84-103). -/
def copyLoop (o r : Nat) : Nat → Nat → Prog V Unit
  | 0, _ => Prog.undef
  | fuel + 1, src => do
    let (sn, d') ← copyStep src
    if some sn = (← get (.right r)) then assign (.root (.right o)) (some d')
    else copyLoop o r fuel sn

/-- Copy constructor (`fst.inl` 77-104). -/
def copyConstruct (o r : Nat) : Prog V Unit := do
  let s ← nonnull (← get (.left r))
  let k ← getKey s
  let v ← getVal s
  let a ← alloc (.left o) k v
  assign (.root (.var .dest)) (some a)
  copyLoop o r (← loopBound) s
  drop .dest

/-- Move constructor (`fst.inl` 106-114). -/
def moveConstruct (o r : Nat) : Prog V Unit := do
  moveTo (.root (.left o)) (.left r)
  moveTo (.root (.right o)) (.right r)

/-- `intrusive_ptr::swap` of two members: no counting. -/
def swapRoots (x y : Root) : Prog V Unit := fun h =>
  .ok ((), { h with root := upd (upd h.root x (h.root y)) y (h.root x) })

/-- `swap` (`fst.inl` 139-148). -/
def swapLeaves (a b : Nat) : Prog V Unit := do
  swapRoots (.left a) (.left b)
  swapRoots (.right a) (.right b)

/-- `clear` (`fst.inl` 150-163). -/
def clearLeaves (o : Nat) (init : V) : Prog V Unit := do
  assign (.root (.var .keepLeft)) (← get (.left o))
  assign (.root (.var .keepRight)) (← get (.right o))
  destroyLeaves o
  linkNodes (.left o) (.right o)
  let a ← nonnull (← get (.left o))
  setVal a init
  dropAll [.keepRight, .keepLeft]

/-! ## Searching for a position -/

/-- `get_insertion_pos_leaf` (`fst.inl` 810-827), with raw pointers. -/
def insPosP (key : Int) : Nat → Option Nat → Prog V (Option Nat)
  | 0, _ => Prog.undef
  | _ + 1, none => Prog.ret none
  | fuel + 1, some a => do
    let k ← getKey a
    if key ≤ k then Prog.ret (some a)
    else insPosP key fuel (← getNext a)

/-- `get_insertion_pos_leaf_reverse` (`fst.inl` 793-808). -/
def insPosRevP (key : Int) : Nat → Option Nat → Prog V (Option Nat)
  | 0, _ => Prog.undef
  | _ + 1, none => Prog.ret none
  | fuel + 1, some a => do
    let k ← getKey a
    if k < key then Prog.ret (some a)
    else insPosRevP key fuel (← getPrev a)

/-- `adjust_segment_range` (`fst.inl` 837-857). -/
def adjustP (o : Nat) (s e : Int) : Prog V (Option (Int × Int)) :=
  if e ≤ s then Prog.ret none
  else do
    let lo ← getKey (← nonnull (← get (.left o)))
    let hi ← getKey (← nonnull (← get (.right o)))
    if e < lo ∨ hi ≤ s then Prog.ret none
    else Prog.ret (some (if s < lo then lo else s, if hi < e then hi else e))

section
variable [DecidableEq V]

/-! ## Insertion -/

/-- Start-node part of `insert_to_pos` (`fst.inl` 214-263): leaves `new_start_node` set and
returns `old_value` and `changed`. -/
def insStartP (s : Int) (val : V) : Prog V (V × Bool) := do
  let sp ← nonnull (← get (.var .startPos))
  if (← getKey sp) = s then
    match (← getPrev sp) with
    | some p =>
      if (← getVal p) = val then
        let old ← getVal sp
        assign (.root (.var .newStart)) (← getPrev sp)
        return (old, false)
      else
        let old ← getVal sp
        setVal sp val
        moveTo (.root (.var .newStart)) (.var .startPos)
        return (old, decide (old ≠ val))
    | none =>
      let old ← getVal sp
      setVal sp val
      moveTo (.root (.var .newStart)) (.var .startPos)
      return (old, decide (old ≠ val))
  else
    let p ← nonnull (← getPrev sp)
    if (← getVal p) = val then
      let old ← getVal p
      assign (.root (.var .newStart)) (← getPrev sp)
      return (old, false)
    else
      let a ← alloc (.var .newNode) s val
      assign (.root (.var .newStart)) (some a)
      assign (.root (.var .leftNode)) (← getPrev sp)
      let l ← nonnull (← get (.var .leftNode))
      let old ← getVal l
      linkNodes (.var .leftNode) (.var .newNode)
      linkNodes (.var .newNode) (.var .startPos)
      dropAll [.leftNode, .newNode]
      return (old, true)

/-- The unlinking loop (`fst.inl` 265-275): returns `old_value` and `changed`. -/
def insLoopP : Nat → V → Bool → Prog V (V × Bool)
  | 0, _, _ => Prog.undef
  | fuel + 1, old, ch => do
    let c ← get (.var .cur)
    if c = (← get (.var .endPos)) then Prog.ret (old, ch)
    else
      let c ← nonnull c
      let p ← nonnull (← getPrev c)
      assign (.next p) none
      assign (.prev c) none
      let old' ← getVal c
      assign (.root (.var .cur)) (← getNext c)
      insLoopP fuel old' true

/-- End-node part of `insert_to_pos` (`fst.inl` 277-323): returns `changed`. -/
def insEndP (e : Int) (val old : V) (ch : Bool) : Prog V Bool := do
  let ep ← nonnull (← get (.var .endPos))
  let ns ← nonnull (← get (.var .newStart))
  if (← getKey ep) = e then
    if (← getNext ep).isSome ∧ (← getVal ep) = val then
      assign (.next ns) (← getNext ep)
      match (← getNext ep) with
      | some n => assign (.prev n) (some ns)
      | none => Prog.ret ()
      disconnectAll (some ep)
      return true
    else if (← getNext ns) ≠ some ep then
      assign (.next ns) (some ep)
      assign (.prev ep) (some ns)
      return true
    else return ch
  else if old = val then
    if (← getNext ns) ≠ some ep then
      linkNodes (.var .newStart) (.var .endPos)
      return true
    else return ch
  else
    let _ ← alloc (.var .newNode) e old
    linkNodes (.var .newStart) (.var .newNode)
    linkNodes (.var .newNode) (.var .endPos)
    drop .newNode
    return true

/-- The end position of `insert_to_pos` (`fst.inl` 206-210). -/
def endPosP (o : Nat) (e : Int) : Prog V Unit := do
  let p ← insPosP e (← loopBound) (← get (.var .startPos))
  assign (.root (.var .endPos)) p
  if (← get (.var .endPos)) = none then assign (.root (.var .endPos)) (← get (.right o))
  else Prog.ret ()

/-- `insert_to_pos` (`fst.inl` 202-329); `start_pos` is in its slot.  Returns the node of the
returned iterator (a raw pointer) and `changed`. -/
def insertToPosP (o : Nat) (s e : Int) (val : V) : Prog V (Option Nat × Bool) := do
  endPosP o e
  let (old0, ch0) ← insStartP s val
  let ns ← nonnull (← get (.var .newStart))
  assign (.root (.var .cur)) (← getNext ns)
  let (old, ch1) ← insLoopP (← loopBound) old0 ch0
  let ch ← insEndP e val old ch1
  let r ← get (.var .newStart)
  dropAll [.cur, .newStart, .endPos, .startPos]
  return (r, ch)

/-- `insert_segment_impl` (`fst.inl` 166-199). -/
def insertSegmentP (o : Nat) (s e : Int) (val : V) (forward : Bool) : Prog V (Option Nat × Bool) := do
  match (← adjustP o s e) with
  | none => return (none, false)
  | some (s, e) =>
    if forward then
      let p ← insPosP s (← loopBound) (← get (.left o))
      assign (.root (.var .startPos)) p
    else
      match (← insPosRevP s (← loopBound) (← get (.right o))) with
      | some p => assign (.root (.var .startPos)) (← getNext p)
      | none => assign (.root (.var .startPos)) (← get (.left o))
    if (← get (.var .startPos)) = none then
      drop .startPos
      return (none, false)
    else insertToPosP o s e val

/-- `insert(pos, …)` (`fst.inl` 331-358); `p` is the position of an iterator of this
container, `none` for a null or foreign iterator. -/
def insertHintP (o : Nat) (p : Option Nat) (s e : Int) (val : V) : Prog V (Option Nat × Bool) :=
  match p with
  | none => insertSegmentP o s e val true
  | some p => do
    if s < (← getKey p) then insertSegmentP o s e val true
    else
      match (← adjustP o s e) with
      | none => return (none, false)
      | some (s, e) =>
        let q ← insPosP s (← loopBound) (some p)
        assign (.root (.var .startPos)) q
        insertToPosP o s e val

/-! ## Shifting -/

/-- `append_new_segment` (`fst.hpp` 686-714); the flag says whether a node was inserted. -/
def appendNewP (o : Nat) (init : V) (k : Int) : Prog V Bool := do
  let r ← nonnull (← get (.right o))
  let p ← nonnull (← getPrev r)
  if (← getKey p) = k then
    setVal p init
    return false
  else if (← getVal p) = init then return false
  else
    let a ← alloc (.var .newNode) k init
    assign (.prev a) (← getPrev r)
    assign (.next a) (some r)
    let p ← nonnull (← getPrev r)
    assign (.next p) (some a)
    moveTo (.prev r) (.var .newNode)
    return true

/-- `shift_leaf_key_left` (`fst.hpp` 738-747). -/
def shiftKeysLeftP (stop : Option Nat) (d : Int) : Nat → Option Nat → Prog V Unit
  | 0, _ => Prog.undef
  | fuel + 1, cur =>
    if cur = stop then Prog.ret ()
    else do
      let c ← nonnull cur
      setKey c ((← getKey c) - d)
      shiftKeysLeftP stop d fuel (← getNext c)

/-- The unlinking loop of `shift_left` (`fst.inl` 421-427): returns `last_seg_value`. -/
def slLoopP (o : Nat) (e : Int) : Nat → V → Prog V V
  | 0, _ => Prog.undef
  | fuel + 1, last => do
    let c ← get (.var .nodePos)
    if c = (← get (.right o)) then Prog.ret last
    else
      let c ← nonnull c
      if (← getKey c) ≤ e then
        let last' ← getVal c
        assign (.root (.var .nxt)) (← getNext c)
        disconnectAll (some c)
        moveTo (.root (.var .nodePos)) (.var .nxt)
        slLoopP o e fuel last'
      else Prog.ret last

/-- The first node at or after the start of the removed range (`fst.inl` 373-388). -/
def slStartP (s lo : Int) (l : Nat) : Prog V Unit := do
  if lo = s then assign (.root (.var .nodePos)) (some l)
  else
    let p ← insPosP s (← loopBound) (← getNext l)
    assign (.root (.var .nodePos)) p

/-- Joining the segment at the start of the removed range with the one before it
(`fst.inl` 437-446). -/
def slJoinP (np : Nat) (last : V) : Prog V Unit := do
  match (← getPrev np) with
  | some p =>
    if (← getVal p) = last then
      assign (.next p) (← getNext np)
      let n ← nonnull (← getNext np)
      assign (.prev n) (← getPrev np)
      disconnectAll (some np)
    else Prog.ret ()
  | none => Prog.ret ()

/-- `shift_left` (`fst.inl` 360-456); the flag says whether `m_valid_tree` is left alone. -/
def shiftLeftP (o : Nat) (init : V) (s e : Int) : Prog V Bool := do
  if s ≥ e then return true
  else
    let l ← nonnull (← get (.left o))
    let lo ← getKey l
    let r ← nonnull (← get (.right o))
    let hi ← getKey r
    if s < lo ∨ e < lo then return true
    else if s > hi ∨ e > hi then return true
    else
      slStartP s lo l
      match (← get (.var .nodePos)) with
      | none => return true
      | some np =>
        let size := e - s
        if np = r then
          let app ← appendNewP o init (if hi ≤ e then s else hi - size)
          drop .nodePos
          return (!app)
        else if e < (← getKey np) then
          shiftKeysLeftP (← get (.right o)) size (← loopBound) (some np)
          let _ ← appendNewP o init (hi - size)
          drop .nodePos
          return false
        else
          setKey np s
          assign (.root (.var .startPos)) (some np)
          assign (.root (.var .nodePos)) (← getNext np)
          let last0 ← getVal np
          let last ← slLoopP o e (← loopBound) last0
          setVal np last
          assign (.next np) (← get (.var .nodePos))
          let q ← nonnull (← get (.var .nodePos))
          assign (.prev q) (some np)
          slJoinP np last
          shiftKeysLeftP (← get (.right o)) size (← loopBound) (← get (.var .nodePos))
          let _ ← appendNewP o init (hi - size)
          dropAll [.startPos, .nodePos]
          return false

/-- The inner loop of `shift_leaf_key_right` (`fst.hpp` 768-773). -/
def srInnerP (o : Nat) : Nat → Prog V Unit
  | 0 => Prog.undef
  | fuel + 1 => do
    let c ← get (.var .cur)
    if c = (← get (.right o)) then Prog.ret ()
    else
      let c ← nonnull c
      assign (.root (.var .nxt)) (← getNext c)
      disconnectAll (some c)
      moveTo (.root (.var .cur)) (.var .nxt)
      srInnerP o fuel

/-- `shift_leaf_key_right` (`fst.hpp` 749-778); `cur_node` is a variable of the caller. -/
def shiftKeysRightP (o : Nat) (endKey d : Int) : Nat → Prog V Unit
  | 0 => Prog.undef
  | fuel + 1 => do
    let c ← get (.var .cur)
    if c = (← get (.right o)) then Prog.ret ()
    else
      let c ← nonnull c
      let k := (← getKey c) + d
      setKey c k
      if k < endKey then
        assign (.root (.var .cur)) (← getNext c)
        shiftKeysRightP o endKey d fuel
      else
        assign (.root (.var .lastNode)) (← getPrev c)
        srInnerP o (← loopBound)
        let l ← nonnull (← get (.var .lastNode))
        assign (.next l) (← get (.right o))
        let r ← nonnull (← get (.right o))
        moveTo (.prev r) (.var .lastNode)

/-- `shift_leaf_key_right` called with `m_right_leaf` (`fst.hpp` 749-751). -/
def shiftFromP (o : Nat) (d : Int) : Prog V Unit := do
  let r ← nonnull (← get (.right o))
  let hi ← getKey r
  shiftKeysRightP o hi d (← loopBound)

/-- A new segment at the left border (`fst.inl` 478-501). -/
def srBorderP (init : V) (pos size lo hi : Int) (skip : Bool) (l : Nat) : Prog V Unit := do
  if (← getVal l) ≠ init ∧ skip = false then
    if size < hi - lo then
      let a ← alloc (.var .newNode) (pos + size) (← getVal l)
      setVal l init
      assign (.prev a) (some l)
      assign (.next a) (← getNext l)
      let n ← nonnull (← getNext l)
      assign (.prev n) (some a)
      moveTo (.next l) (.var .newNode)
    else setVal l init
  else Prog.ret ()

/-- The first node to be shifted (`fst.inl` 504-510). -/
def srStartP (pos : Int) (skip : Bool) (l : Nat) : Prog V Unit := do
  let p ← insPosP pos (← loopBound) (← getNext l)
  assign (.root (.var .cur)) p
  match p with
  | some c =>
    if skip = true ∧ (← getKey c) = pos then assign (.root (.var .cur)) (← getNext c)
    else Prog.ret ()
  | none => Prog.ret ()

/-- `shift_right` (`fst.inl` 458-519); the flag says whether `m_valid_tree` is left alone. -/
def shiftRightP (o : Nat) (init : V) (pos size : Int) (skip : Bool) : Prog V Bool := do
  if size ≤ 0 then return true
  else
    let l ← nonnull (← get (.left o))
    let lo ← getKey l
    let r ← nonnull (← get (.right o))
    let hi ← getKey r
    if pos < lo ∨ hi ≤ pos then return true
    else if lo = pos then
      assign (.root (.var .cur)) (← getNext l)
      shiftFromP o size
      srBorderP init pos size lo hi skip l
      drop .cur
      return false
    else
      srStartP pos skip l
      if (← get (.var .cur)) = none then return true
      else
        shiftFromP o size
        drop .cur
        return false

end

end Mdds.FST.Mem
