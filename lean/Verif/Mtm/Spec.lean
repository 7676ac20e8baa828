import Verif.Mtm.Model
import Verif.Mtv.Spec

/-!
# multi_type_matrix: specification

A user sees a table: numbers of rows and columns and, for every row and column, an element that
is empty or a value.  Every call is described as an operation on that table.
-/

namespace Mdds.Mtm
open Mdds.Mtv (Cell)

variable {D I S : Type}

/-- An element: empty or a value. -/
abbrev Elem (D I S : Type) := Option (Val D I S)

/-- A table.  `at_` matters only for rows below `rows` and columns below `cols`. -/
structure Table (D I S : Type) where
  rows : Nat
  cols : Nat
  at_ : Nat → Nat → Elem D I S

/-- The cell of the store that shows an element. -/
def cellOf (e : Elem D I S) : Cell (Val D I S) := e.map fun v => (v.ty, v)

/-- The matrix shows the table: same size, and its store is the columns of the table one after
the other. -/
def Shows (m : Mtx D I S) (t : Table D I S) : Prop :=
  m.rows = t.rows ∧ m.cols = t.cols ∧ (Mtv.contents m.store).length = m.rows * m.cols ∧
  ∀ i j, i < t.rows → j < t.cols → (Mtv.contents m.store)[t.rows * j + i]? = some (cellOf (t.at_ i j))

/-- The table with one element replaced. -/
def Table.put (t : Table D I S) (row col : Nat) (e : Elem D I S) : Table D I S :=
  { t with at_ := fun i j => if i = row ∧ j = col then e else t.at_ i j }

/-- The table with `n` elements replaced, going down the columns from (row, col). -/
def Table.putRun (t : Table D I S) (row col n : Nat) (f : Nat → Elem D I S) : Table D I S :=
  ⟨t.rows, t.cols, fun i j =>
    if t.rows * col + row ≤ t.rows * j + i ∧ t.rows * j + i < t.rows * col + row + n
    then f (t.rows * j + i - (t.rows * col + row)) else t.at_ i j⟩

/-- The table with the top of one column replaced. -/
def Table.putColumn (t : Table D I S) (col n : Nat) (f : Nat → Elem D I S) : Table D I S :=
  { t with at_ := fun i j => if j = col ∧ i < n then f i else t.at_ i j }

/-- The table with one row emptied. -/
def Table.emptyRow (t : Table D I S) (row : Nat) : Table D I S :=
  { t with at_ := fun i j => if i = row then none else t.at_ i j }

/-- The mirrored table. -/
def Table.flip (t : Table D I S) : Table D I S := ⟨t.cols, t.rows, fun i j => t.at_ j i⟩

/-- The table with the part it has in common with `s` replaced by that of `s`. -/
def Table.overlay (t s : Table D I S) : Table D I S :=
  { t with at_ := fun i j => if i < s.rows ∧ j < s.cols then s.at_ i j else t.at_ i j }

/-- A table filled with one element. -/
def Table.const (rows cols : Nat) (e : Elem D I S) : Table D I S := ⟨rows, cols, fun _ _ => e⟩

/-- The elements of a rectangle, column by column. -/
def Table.region (t : Table D I S) (r1 c1 r2 c2 : Nat) : List (Elem D I S) :=
  (List.range' c1 (c2 - c1 + 1)).flatMap fun j => (List.range' r1 (r2 - r1 + 1)).map fun i => t.at_ i j

/-- All elements, column by column. -/
def Table.all (t : Table D I S) : List (Elem D I S) :=
  (List.range t.cols).flatMap fun j => (List.range t.rows).map fun i => t.at_ i j

/-- No integer in the part that matters. -/
def Table.NoInt (t : Table D I S) (rows cols : Nat) : Prop :=
  ∀ i j k, i < rows → j < cols → t.at_ i j ≠ some (.int k)

/-- The number an element counts as. -/
def Elem.num (cv : Conv D I) : Elem D I S → D
  | some (.num x) => x
  | some (.int x) => cv.ofInt x
  | some (.bool x) => cv.ofBool x
  | some (.str _) => cv.zero
  | none => cv.zero

/-- Is the element a number, an integer or a boolean? -/
def Elem.isNumeric : Elem D I S → Bool
  | some (.str _) => false
  | none => false
  | _ => true

/-- The elements a node shows to the function object: `begin<Blk>()` to `end<Blk>()`, or `size`
empty ones. -/
def Node.elems (n : Node D I S) : List (Elem D I S) :=
  match n.data with
  | none => List.replicate n.size none
  | some d => ((d.vals.drop n.offset).take n.size).map some

/-- The modifying calls on one matrix.  Positions are position objects of the matrix. -/
inductive MCall (D I S : Type) where
  | set (row col : Nat) (v : Val D I S)
  | setAt (p : Nat × Nat) (v : Val D I S)
  | setRange (row col : Nat) (a : Arr D I S)
  | setRangeAt (p : Nat × Nat) (a : Arr D I S)
  | setEmpty (row col : Nat)
  | setEmptyLen (row col len : Nat)
  | setEmptyAt (p : Nat × Nat)
  | setColumnEmpty (col : Nat)
  | setRowEmpty (row : Nat)
  | setColumn (col : Nat) (a : Arr D I S)
  | transpose
  | copyArr (rows cols : Nat) (a : Arr D I S)
  | resize (rows cols : Nat)
  | resizeFill (rows cols : Nat) (v : Val D I S)
  | clear

/-- A call on the model; returned positions are dropped. -/
def MCall.run (m : Mtx D I S) : MCall D I S → Option (Mtx D I S)
  | .set r c v => (Mtm.set m r c v).state
  | .setAt p v => (Mtm.setAt m p v).state
  | .setRange r c a => (Mtm.setRange m r c a).state
  | .setRangeAt p a => (Mtm.setRangeAt m p a).state
  | .setEmpty r c => (Mtm.setEmpty m r c).state
  | .setEmptyLen r c n => (Mtm.setEmptyLen m r c n).state
  | .setEmptyAt p => (Mtm.setEmptyAt m p).state
  | .setColumnEmpty c => (Mtm.setColumnEmpty m c).state
  | .setRowEmpty r => (Mtm.setRowEmpty m r).state
  | .setColumn c a => (Mtm.setColumn m c a).state
  | .transpose => (Mtm.transpose m).state
  | .copyArr r c a => (Mtm.copyArr m r c a).state
  | .resize r c => (Mtm.resize m r c).state
  | .resizeFill r c v => (Mtm.resizeFill m r c v).state
  | .clear => (Mtm.clear m).state

/-- Matrices reached by constructing, copying and calling, in any order and with any arguments; an
exception is caught and the matrix it leaves is used further. -/
inductive Reach : Mtx D I S → Prop
  | default : Reach Mtm.mk0
  | sized (r c : Nat) : Reach (mkSize r c)
  | fill {m : Mtx D I S} (r c : Nat) (v : Val D I S) : mkFill r c v = .ok m → Reach m
  | arr {m : Mtx D I S} (r c : Nat) (a : Arr D I S) : mkArr r c a = .ok m → Reach m
  | call {m m' : Mtx D I S} (c : MCall D I S) : Reach m → c.run m = some m' → Reach m'
  | copy {m src m' : Mtx D I S} : Reach m → Reach src → (copyFrom src m).state = some m' → Reach m'
  | copied {m : Mtx D I S} : Reach m → Reach (copyOf m)

end Mdds.Mtm
