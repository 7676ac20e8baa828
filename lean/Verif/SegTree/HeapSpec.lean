import Verif.SegTree.Heap

/-!
# What a program with many segment trees does, without memory

A world is a table of containers with the values of `Model.lean` and a table of the search results
that are still valid.  `World.step` says which calls are allowed (`none`: not allowed), what a call
returns, and what becomes of the tables.  No node, pointer or pool occurs here.
-/
namespace Mdds.SegTree.Mem

open Mdds.FST.Mem (upd)

variable {V : Type}

/-- What a container number stands for: nothing, a container whose tree was valid when it was moved
from, or a container with a value of `Model.lean`. -/
inductive Slot (V : Type) where
  | dead
  | moved
  | live (st : State V)

namespace Slot

/-- A container that was moved from has no segments. -/
def val : Slot V → State V
  | live st => st
  | _ => mk

def alive : Slot V → Bool
  | dead => false
  | _ => true

/-- What a move leaves behind. -/
def left : Slot V → Slot V
  | live st => if st.valid then moved else live mk
  | s => s

end Slot

/-- Containers, and search results with the container they belong to and the positions they list. -/
structure World (V : Type) where
  slot : Nat → Slot V
  res : Nat → Option (Nat × List Nat)

/-- The results that do not refer to the container. -/
def inval (o : Nat) (rs : Nat → Option (Nat × List Nat)) : Nat → Option (Nat × List Nat) :=
  fun x => (rs x).filter fun r => decide (r.1 ≠ o)

namespace World

def empty : World V := ⟨fun _ => .dead, fun _ => none⟩

/-- A new value for the container; its search results become invalid. -/
def set (w : World V) (o : Nat) (s : Slot V) : World V := ⟨upd w.slot o s, inval o w.res⟩

variable [DecidableEq V]

/-- One call.  `insert` and the queries leave search results valid; any other change of a container
makes its search results invalid. -/
def step (dv : V) (w : World V) : Cmd V → Option (Ret V × World V)
  | .construct o =>
    if o ≠ 0 ∧ (w.slot o).alive = false then some (.nothing, { w with slot := upd w.slot o (.live Mdds.SegTree.mk) }) else none
  | .destruct o => if (w.slot o).alive then some (.nothing, w.set o .dead) else none
  | .copy o r =>
    if o ≠ 0 ∧ (w.slot o).alive = false ∧ (w.slot r).alive then
      some (.nothing, { w with slot := upd w.slot o (.live (copy dv (w.slot r).val)) })
    else none
  | .move o r =>
    if o ≠ 0 ∧ (w.slot o).alive = false ∧ (w.slot r).alive then
      some (.nothing, ⟨upd (upd w.slot o (w.slot r)) r (w.slot r).left, inval r w.res⟩)
    else none
  | .assignCopy o r =>
    if (w.slot o).alive ∧ (w.slot r).alive then some (.nothing, w.set o (.live (copy dv (w.slot r).val))) else none
  | .assignMove o r =>
    if (w.slot o).alive ∧ (w.slot r).alive then
      some (.nothing, ⟨upd (upd w.slot r (w.slot r).left) o (w.slot r), inval o (inval r w.res)⟩)
    else none
  | .swap a b =>
    if (w.slot a).alive ∧ (w.slot b).alive then
      some (.nothing, ⟨upd (upd w.slot a (w.slot b)) b (w.slot a), inval a (inval b w.res)⟩)
    else none
  | .insert o s e v =>
    if (w.slot o).alive then
      match Mdds.SegTree.insert s e v (w.slot o).val with
      | .ok st => some (.flag true, { w with slot := upd w.slot o (.live st) })
      | _ => some (.flag false, w)
    else none
  | .build o => if (w.slot o).alive then some (.nothing, w.set o (.live (buildTree dv (w.slot o).val))) else none
  | .search x o pt =>
    match w.slot o with
    | .live st => some (.nothing, { w with res := upd w.res x (some (o, (Mdds.SegTree.search st pt).flatten)) })
    | _ => none
  | .read x =>
    match w.res x with
    | some (o, is) => some (.segs (is.filterMap ((w.slot o).val.store[·]?)), w)
    | none => none
  | .erase o x k =>
    match w.slot o, w.res x with
    | .live st, some (p, is) =>
      if p = o then
        match is[k]? with
        | some pos =>
          match removeValuePos dv pos st with
          | .ok st' => some (.nothing, w.set o (.live st'))
          | _ => some (.nothing, w)
        | none => none
      else none
    | _, _ => none
  | .eraseIf o pred =>
    match w.slot o with
    | .live st =>
      match eraseIf dv pred st with
      | .ok (st', n) => some (.count n, w.set o (.live st'))
      | _ => some (.nothing, w)
    | .moved => some (.count 0, w.set o .moved)
    | .dead => none
  | .clear o => if (w.slot o).alive then some (.nothing, w.set o (.live Mdds.SegTree.mk)) else none
  | .leafSize o => if (w.slot o).alive then some (.count (leafSize (w.slot o).val), w) else none
  | .check o =>
    match w.slot o with
    | .live st => if st.root.isSome ∨ st.tagged = [] then some (.flag true, w) else none
    | .moved => some (.flag true, w)
    | .dead => none

/-- A program. -/
def run (dv : V) (w : World V) : List (Cmd V) → Option (List (Ret V) × World V)
  | [] => some ([], w)
  | c :: cs =>
    match step dv w c with
    | none => none
    | some (r, w') => (run dv w' cs).map fun x => (r :: x.1, x.2)

end World

end Mdds.SegTree.Mem
