import Verif.Mtm.Props
/-!
Several matrices: copies, moves, swaps, assignments (C79).

Source: `/repo/include/mdds/multi_type_matrix.hpp` 240-255, `multi_type_matrix_def.inl` 87-90, 424-430, 618-624; the store's own
functions in `multi_type_vector/soa/main_def.inl` 486-548, 5428-5437, 5539-5558.

A program owns matrices, numbered in the order of their construction; a destroyed one leaves its number unused.  An exception is
caught and leaves the matrices as they are at that point.  `none` is undefined behaviour, or the use of an object that does not
exist.  Element values are copied without exceptions.
-/
namespace Mdds.Mtm
open Mdds.Mtv (St)

variable {D I S : Type} [DecidableEq D] [DecidableEq I] [DecidableEq S]

/-- What a store is after its contents were moved out, soa/main_def.inl 517-527: the three vectors are empty, `m_cur_size` keeps its
value. -/
def movedStore {α : Type} (s : St α) : St α := ⟨[], s.cur, [], [], 0⟩

/-- The source of the defaulted move constructor, multi_type_matrix.hpp 245: `m_size` keeps its value. -/
def movedOut (m : Mtx D I S) : Mtx D I S := ⟨movedStore m.store, m.rows, m.cols⟩

/-- The matrices of a program. -/
abbrev World (D I S : Type) := List (Option (Mtx D I S))

/-- The steps of a program. -/
inductive Step (D I S : Type) where
  | default
  | sized (rows cols : Nat)
  | fill (rows cols : Nat) (v : Val D I S)
  | arr (rows cols : Nat) (a : Arr D I S)
  | copyCtor (i : Nat)
  | moveCtor (i : Nat)
  | assign (i j : Nat)
  | moveAssign (i j : Nat)
  | swap (i j : Nat)
  | copy (i j : Nat)
  | call (i : Nat) (c : MCall D I S)
  | destroy (i : Nat)

/-- The matrix with number `i`. -/
def World.at_ (w : World D I S) (i : Nat) : Option (Mtx D I S) := w[i]?.bind id

/-- A constructor that may throw. -/
def addNew (w : World D I S) : Outcome (Mtx D I S) → Option (World D I S)
  | .ok m => some (w ++ [some m])
  | .err _ => some w
  | .ub => none

/-- One step.  `assign` is the defaulted copy assignment, multi_type_matrix.hpp 254: the store is copied and the copy swapped in
(soa/main_def.inl 5540-5547), then `m_size` is copied.  `moveAssign` is the defaulted move assignment, 255: the store of `j` is moved
into a local object, which is swapped with the store of `i` (5549-5558), then `m_size` is copied.  `swap` is
multi_type_matrix_def.inl 618-624.  `copy i j` is `copy(src)` 424-430 with `i` as the destination. -/
def step (w : World D I S) : Step D I S → Option (World D I S)
  | .default => some (w ++ [some mk0])
  | .sized r c => some (w ++ [some (mkSize r c)])
  | .fill r c v => addNew w (mkFill r c v)
  | .arr r c a => addNew w (mkArr r c a)
  | .copyCtor i =>
    match w.at_ i with
    | some m => some (w ++ [some (copyOf m)])
    | none => none
  | .moveCtor i =>
    match w.at_ i with
    | some m => some (w.set i (some (movedOut m)) ++ [some m])
    | none => none
  | .assign i j =>
    match w.at_ i, w.at_ j with
    | some _, some b => some (w.set i (some (copyOf b)))
    | _, _ => none
  | .moveAssign i j =>
    match w.at_ i, w.at_ j with
    | some _, some b => some ((w.set j (some (movedOut b))).set i (some b))
    | _, _ => none
  | .swap i j =>
    match w.at_ i, w.at_ j with
    | some a, some b => some ((w.set i (some b)).set j (some a))
    | _, _ => none
  | .copy i j =>
    match w.at_ i, w.at_ j with
    | some a, some b => if i = j then some w else (copyFrom b a).state.map fun m => w.set i (some m)
    | _, _ => none
  | .call i c =>
    match w.at_ i with
    | some m => (c.run m).map fun m => w.set i (some m)
    | none => none
  | .destroy i =>
    match w.at_ i with
    | some _ => some (w.set i none)
    | none => none

/-- A program. -/
def run : World D I S → List (Step D I S) → Option (World D I S)
  | w, [] => some w
  | w, s :: ss => (step w s).bind fun w' => run w' ss

end Mdds.Mtm
