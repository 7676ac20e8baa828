import Verif.Coll.Model
/-!
# Specification of collections

What a collection is to a user: some containers of one length, the range of containers and the
range of positions that iteration covers.
-/

namespace Mdds.Coll

open Mdds.Mtv

variable {α : Type}

/-- The user's picture of a collection. -/
structure View where
  vecs : List Nat
  len : Nat
  colStart : Nat
  colSize : Nat
  elemStart : Nat
  elemSize : Nat
  deriving DecidableEq, Repr

/-- A collection of nothing. -/
def View.none : View := ⟨[], 0, 0, 0, 0, 0⟩

/-- A collection over all of the containers `vs` of length `n`. -/
def View.whole (vs : List Nat) (n : Nat) : View := ⟨vs, n, 0, vs.length, 0, n⟩

/-- Position by position, and at every position container by container: the index of the
container, the position, and the cell there. -/
def View.rows (cell : Nat → Nat → Cell α) (w : View) : List (Nat × Nat × Cell α) :=
  (List.range' w.elemStart w.elemSize).flatMap fun p =>
    (List.range' w.colStart w.colSize).filterMap fun k => w.vecs[k]?.map fun v => (k, p, cell v p)

/-- The cell at position `p` of the container at address `v`. -/
def cellOf (mem : Mem α) (v p : Nat) : Cell α := ((contents (mem v))[p]?).getD none

/-- A non-empty range within `n`. -/
def Within (n start size : Nat) : Prop := 0 < size ∧ start + size ≤ n

instance (n start size : Nat) : Decidable (Within n start size) := inferInstanceAs (Decidable (_ ∧ _))

/-- All containers of `vs` have the length `n`, which is not 0. -/
def OneLength (mem : Mem α) (vs : List Nat) (n : Nat) : Prop := 0 < n ∧ ∀ v ∈ vs, (contents (mem v)).length = n

/-- Calls on two collections (`true`: the first). -/
inductive Op (α : Type) where
  /-- assign a collection constructed from containers, as they are at that moment -/
  | make (side : Bool) (mem : Mem α) (vs : List Nat)
  | setCol (side : Bool) (start size : Nat)
  | setElem (side : Bool) (start size : Nat)
  | swap

/-- Replace one side. -/
def put {β : Type} (side : Bool) (x : β) (p : β × β) : β × β := if side then (x, p.2) else (p.1, x)

/-- One side. -/
def side {β : Type} (s : Bool) (p : β × β) : β := if s then p.1 else p.2

/-- A call that throws leaves the collections alone; `none` is undefined behaviour. -/
def keep (s : Bool) (p : Coll × Coll) : Outcome Coll → Option (Coll × Coll)
  | .ok c => some (put s c p)
  | .err _ => some p
  | .ub => Option.none

/-- Run a call on the model. -/
def Op.run : Op α → Coll × Coll → Option (Coll × Coll)
  | .make s mem vs, p => keep s p (mkRange mem vs)
  | .setCol s a n, p => keep s p (setCollectionRange a n (side s p))
  | .setElem s a n, p => keep s p (setElementRange a n (side s p))
  | .swap, p => some (Coll.swap p)

/-- The calls the theorems cover: a collection is made from at least one container that has a
history of its own, and the arguments of the range calls do not overflow when added. -/
def Op.Defined : Op α → Prop
  | .make _ mem vs => vs ≠ [] ∧ ∀ v ∈ vs, Reachable (mem v)
  | .setCol _ a n => a + n < W
  | .setElem _ a n => a + n < W
  | .swap => True

instance (mem : Mem α) (vs : List Nat) (n : Nat) : Decidable (OneLength mem vs n) := inferInstanceAs (Decidable (_ ∧ _))

/-- What a call means: `make` takes the containers if all have the length of the first. -/
def Op.spec : Op α → View × View → View × View
  | .make _ _ [], p => p
  | .make s mem (v :: vs), p =>
    let n := (contents (mem v)).length
    if OneLength mem (v :: vs) n then put s (View.whole (v :: vs) n) p else p
  | .setCol s a n, p =>
    if Within (side s p).vecs.length a n then put s { side s p with colStart := a, colSize := n } p else p
  | .setElem s a n, p =>
    if Within (side s p).len a n then put s { side s p with elemStart := a, elemSize := n } p else p
  | .swap, p => (p.2, p.1)

/-- Run a list of calls. -/
def runOps : List (Op α) → Coll × Coll → Option (Coll × Coll)
  | [], p => some p
  | o :: os, p => (o.run p).bind (runOps os)

/-- The meaning of a list of calls. -/
def specOps (os : List (Op α)) (p : View × View) : View × View := os.foldl (fun p o => o.spec p) p

end Mdds.Coll
