import Verif.FST.HeapModel

/-!
# Programs that use flat_segment_trees

A program owns any number of containers and calls their member functions in any order.
`memStep` runs one call on the memory of `HeapModel.lean`; `listStep` says what the call does to
the list of leaves of every container, using the list model of `Model.lean`.  Nothing in
`listStep` knows about nodes.

Simplification: `m_init_val` of a moved-from container keeps its value.
-/
namespace Mdds.FST.Mem

variable {V : Type}

/-- A call.  Containers are numbered by the program. -/
inductive Call (V : Type) where
  | make (o : Nat) (lo hi : Int) (init : V)
  | destroy (o : Nat)
  | copy (o r : Nat)                 -- construct `o` from `r`
  | move (o r : Nat)                 -- construct `o` from `std::move(r)`
  | assignCopy (o r : Nat)           -- `o = r`
  | assignMove (o r : Nat)           -- `o = std::move(r)`
  | swap (a b : Nat)
  | clear (o : Nat)
  | insert (o : Nat) (s e : Int) (v : V) (fwd : Bool)
  | insertAt (o : Nat) (hint : Option Nat) (s e : Int) (v : V)
  | shiftLeft (o : Nat) (s e : Int)
  | shiftRight (o : Nat) (pos size : Int) (skip : Bool)
  deriving DecidableEq, Repr

/-- What a call reports: what the returned iterator points to, and a flag (insertions: whether
the contents changed; shifts: whether a search tree stays valid). -/
abbrev Out (V : Type) := Option (Leaf V) × Bool

/-! ## In memory -/

/-- The memory of the program; `init` holds `m_init_val` of every existing container. -/
structure Mem (V : Type) where
  heap : Heap V
  init : Nat → Option V

/-- Before anything was constructed. -/
def Mem.start : Mem V := { heap := Mdds.FST.Mem.empty, init := fun _ => none }

/-- Container `o` of the program has number `o + 1` in memory; number 0 is the temporary of the
assignment operators. -/
def slot (o : Nat) : Nat := o + 1

/-- Run `p`, then set the table of default values. -/
def Mem.exec {α : Type} (m : Mem V) (p : Prog V α) (ini : Nat → Option V) (k : α → Out V) : Outcome (Mem V × Out V) :=
  match p m.heap with
  | .ok (a, h) => .ok (⟨h, ini⟩, k a)
  | .err e => .err e
  | .ub => .ub

/-- Dereference the iterator an insertion returned. -/
def peek (p : Option Nat) : Prog V (Option (Leaf V)) :=
  match p with
  | none => Prog.ret none
  | some a => do
    let k ← getKey a
    let v ← getVal a
    return some (k, v)

/-- Advance an iterator (`flat_segment_tree_itr.hpp` 25-31; not past the right leaf here). -/
def advance : Nat → Option Nat → Prog V (Option Nat)
  | 0, p => Prog.ret p
  | n + 1, p => do
    let a ← nonnull p
    advance n (← getNext a)

/-- An iterator: `begin()` advanced a number of times; `none` is a foreign one. -/
def hintP (o : Nat) (hint : Option Nat) : Prog V (Option Nat) :=
  match hint with
  | none => Prog.ret none
  | some i => do advance i (← get (.left o))

/-- Copy assignment (`fst.inl` 121-127): the copy is the temporary number 0. -/
def assignCopyP (o r : Nat) : Prog V Unit := do
  copyConstruct 0 r
  swapLeaves o 0
  destruct 0

/-- Move assignment (`fst.inl` 129-136). -/
def assignMoveP (o r : Nat) : Prog V Unit := do
  moveConstruct 0 r
  swapLeaves o 0
  destruct 0

/-- `insert_front`, `insert_back` (`fst.hpp` 295-319), and a look at the returned iterator. -/
def insertP [DecidableEq V] (o : Nat) (s e : Int) (v : V) (fwd : Bool) : Prog V (Out V) := do
  let (p, ch) ← insertSegmentP o s e v fwd
  return (← peek p, ch)

/-- `insert` with a position (`fst.hpp` 335). -/
def insertAtP [DecidableEq V] (o : Nat) (hint : Option Nat) (s e : Int) (v : V) : Prog V (Out V) := do
  let (p, ch) ← insertHintP o (← hintP o hint) s e v
  return (← peek p, ch)

section
variable [DecidableEq V]

/-- One call, in memory. -/
def memStep (dv : V) (m : Mem V) : Call V → Outcome (Mem V × Out V)
  | .make o lo hi iv =>
    match m.init o with
    | some _ => .ub
    | none => m.exec (construct (slot o) dv lo hi iv) (upd m.init o (some iv)) fun _ => (none, false)
  | .destroy o =>
    match m.init o with
    | none => .ub
    | some _ => m.exec (destruct (slot o)) (upd m.init o none) fun _ => (none, false)
  | .copy o r =>
    match m.init o, m.init r with
    | none, some v => m.exec (copyConstruct (slot o) (slot r)) (upd m.init o (some v)) fun _ => (none, false)
    | _, _ => .ub
  | .move o r =>
    match m.init o, m.init r with
    | none, some v => m.exec (moveConstruct (slot o) (slot r)) (upd m.init o (some v)) fun _ => (none, false)
    | _, _ => .ub
  | .assignCopy o r =>
    match m.init o, m.init r with
    | some _, some v => m.exec (assignCopyP (slot o) (slot r)) (upd m.init o (some v)) fun _ => (none, false)
    | _, _ => .ub
  | .assignMove o r =>
    match m.init o, m.init r with
    | some _, some v => m.exec (assignMoveP (slot o) (slot r)) (upd m.init o (some v)) fun _ => (none, false)
    | _, _ => .ub
  | .swap a b =>
    match m.init a, m.init b with
    | some va, some vb =>
      m.exec (swapLeaves (slot a) (slot b)) (upd (upd m.init a (some vb)) b (some va)) fun _ => (none, false)
    | _, _ => .ub
  | .clear o =>
    match m.init o with
    | none => .ub
    | some iv => m.exec (clearLeaves (slot o) iv) m.init fun _ => (none, false)
  | .insert o s e v fwd =>
    match m.init o with
    | none => .ub
    | some _ => m.exec (insertP (slot o) s e v fwd) m.init id
  | .insertAt o hint s e v =>
    match m.init o with
    | none => .ub
    | some _ => m.exec (insertAtP (slot o) hint s e v) m.init id
  | .shiftLeft o s e =>
    match m.init o with
    | none => .ub
    | some iv => m.exec (shiftLeftP (slot o) iv s e) m.init fun b => (none, b)
  | .shiftRight o pos size skip =>
    match m.init o with
    | none => .ub
    | some iv => m.exec (shiftRightP (slot o) iv pos size skip) m.init fun b => (none, b)

/-- A whole program: its final memory and everything it was told. -/
def memRun (dv : V) (m : Mem V) : List (Call V) → Outcome (Mem V × List (Out V))
  | [] => .ok (m, [])
  | c :: cs => match memStep dv m c with
    | .ok (m', o) => match memRun dv m' cs with
      | .ok (m'', os) => .ok (m'', o :: os)
      | .err e => .err e
      | .ub => .ub
    | .err e => .err e
    | .ub => .ub

/-! ## As lists -/

/-- A container as the program sees it: leaves and default value.  A moved-from one has no
leaves. -/
structure Obj (V : Type) where
  leaves : List (Leaf V)
  init : V
  deriving DecidableEq, Repr

/-- All containers of the program; `none`: there is none of this number. -/
abbrev Objs (V : Type) := Nat → Option (Obj V)

/-- `clear` on the leaves. -/
def clearList (ls : List (Leaf V)) (iv : V) : Outcome (List (Leaf V)) :=
  if ls.length < 2 then .ub
  else match ls.head?, ls.getLast? with
    | some l, some r => .ok [(l.1, iv), r]
    | _, _ => .ub

/-- One call, on lists.  A single leaf would send destruction, clearing and copying past the
end; no container ever has just one (`leaves_two`). -/
def listStep (dv : V) (S : Objs V) : Call V → Outcome (Objs V × Out V)
  | .make o lo hi iv =>
    match S o with
    | some _ => .ub
    | none => .ok (upd S o (some ⟨[(lo, iv), (hi, dv)], iv⟩), (none, false))
  | .destroy o =>
    match S o with
    | none => .ub
    | some x => if x.leaves.length = 1 then .ub else .ok (upd S o none, (none, false))
  | .copy o r =>
    match S o, S r with
    | none, some x => if x.leaves.length < 2 then .ub else .ok (upd S o (some x), (none, false))
    | _, _ => .ub
  | .move o r =>
    match S o, S r with
    | none, some x => .ok (upd (upd S o (some x)) r (some { x with leaves := [] }), (none, false))
    | _, _ => .ub
  | .assignCopy o r =>
    match S o, S r with
    | some y, some x =>
      if x.leaves.length < 2 ∨ y.leaves.length = 1 then .ub else .ok (upd S o (some x), (none, false))
    | _, _ => .ub
  | .assignMove o r =>
    match S o, S r with
    | some y, some x =>
      if o = r then .ok (S, (none, false))
      else if y.leaves.length = 1 then .ub
      else .ok (upd (upd S o (some x)) r (some { x with leaves := [] }), (none, false))
    | _, _ => .ub
  | .swap a b =>
    match S a, S b with
    | some x, some y => .ok (upd (upd S a (some y)) b (some x), (none, false))
    | _, _ => .ub
  | .clear o =>
    match S o with
    | none => .ub
    | some x => (clearList x.leaves x.init).map fun ls => (upd S o (some { x with leaves := ls }), (none, false))
  | .insert o s e v fwd =>
    match S o with
    | none => .ub
    | some x => (insertSegment x.leaves s e v fwd).map fun r =>
        (upd S o (some { x with leaves := r.leaves }), (r.pos.bind (r.leaves[·]?), r.changed))
  | .insertAt o hint s e v =>
    match S o with
    | none => .ub
    | some x => (insertHint x.leaves hint s e v).map fun r =>
        (upd S o (some { x with leaves := r.leaves }), (r.pos.bind (r.leaves[·]?), r.changed))
  | .shiftLeft o s e =>
    match S o with
    | none => .ub
    | some x => (shiftLeftLeaves x.leaves x.init s e).map fun r =>
        (upd S o (some { x with leaves := r.1 }), (none, r.2))
  | .shiftRight o pos size skip =>
    match S o with
    | none => .ub
    | some x => (shiftRightLeaves x.leaves x.init pos size skip).map fun r =>
        (upd S o (some { x with leaves := r.1 }), (none, r.2))

def listRun (dv : V) (S : Objs V) : List (Call V) → Outcome (Objs V × List (Out V))
  | [] => .ok (S, [])
  | c :: cs => match listStep dv S c with
    | .ok (S', o) => match listRun dv S' cs with
      | .ok (S'', os) => .ok (S'', o :: os)
      | .err e => .err e
      | .ub => .ub
    | .err e => .err e
    | .ub => .ub

end

/-! ## Where the nodes of a container come from -/

/-- All containers but `o` keep their nodes; those of `o` are gone or changed. -/
def off (o : Nat) : Nat → Option Nat := fun p => if p = o then none else some p

/-- The nodes of `r` have gone to `o`. -/
def fromTo (r o : Nat) : Nat → Option Nat := fun p => if p = r then none else if p = o then some r else some p

/-- The nodes of `a` and `b` have been exchanged. -/
def exch (a b : Nat) : Nat → Option Nat := fun p => if p = b then some a else if p = a then some b else some p

/-- After a call that reported `flag`, the nodes of container `p` are the unchanged nodes of
container `origin c flag p` before the call, if there is one. -/
def origin (c : Call V) (flag : Bool) : Nat → Option Nat :=
  match c with
  | .make o _ _ _ => off o
  | .destroy o => off o
  | .copy o _ => off o
  | .move o r => fromTo r o
  | .assignCopy o _ => off o
  | .assignMove o r => if o = r then some else fromTo r o
  | .swap a b => exch a b
  | .clear o => off o
  | .insert o _ _ _ _ => if flag then off o else some
  | .insertAt o _ _ _ _ => if flag then off o else some
  | .shiftLeft o _ _ => if flag then some else off o
  | .shiftRight o _ _ _ => if flag then some else off o

/-! ## Looking at memory -/

/-- The nodes met when following `next` (or `prev`) from a pointer to the end; `none` when a
deleted node is met or the walk does not end. -/
def walk (h : Heap V) (link : Node V → Option Nat) : Nat → Option Nat → Option (List Nat)
  | _, none => some []
  | 0, some _ => none
  | fuel + 1, some a => match h.node a with
    | none => none
    | some n => (walk h link fuel (link n)).map (a :: ·)

/-- The nodes of container `o`, from left to right. -/
def Mem.forward (m : Mem V) (o : Nat) : Option (List Nat) :=
  walk m.heap (·.next) m.heap.fresh (m.heap.root (.left (slot o)))

/-- The nodes of container `o`, from right to left. -/
def Mem.backward (m : Mem V) (o : Nat) : Option (List Nat) :=
  walk m.heap (·.prev) m.heap.fresh (m.heap.root (.right (slot o)))

/-- Key and value stored in a node. -/
def Mem.leaf (m : Mem V) (a : Nat) : Option (Leaf V) := (m.heap.node a).map fun n => (n.key, n.val)

end Mdds.FST.Mem
