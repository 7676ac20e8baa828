import Verif.Mtv.Api

/-!
# multi_type_matrix

Model of `include/mdds/multi_type_matrix.hpp` and `multi_type_matrix_def.inl`.  The value store
is the model of `multi_type_vector` (structure-of-arrays layout, which is what
`multi_type_matrix.hpp` includes).

Conventions.
* Doubles, integers and strings are arbitrary types `D`, `I`, `S`; the conversions between
  numbers are parameters (`Conv`).
* The four element types of the matrix are supported; the store could also hold `int8_t`
  (`mtv_traits`), which the matrix refuses to name (`to_mtm_type` throws) and which is left out.
* The string block is taken to be an ordinary (not owning) block, as in `std_string_traits`.
* `get_pos(row, col)` 810-813 does not check its arguments; neither does the model.
* Iterators are block indices, position objects are pairs of block index and offset, as in the
  model of the store.
* The matrix owns the blocks of its store (no sharing).
-/

namespace Mdds.Mtm
open Mdds.Mtv

/-- An element value. -/
inductive Val (D I S : Type) where
  | num (d : D)
  | int (i : I)
  | bool (b : Bool)
  | str (s : S)
  deriving DecidableEq, Repr

/-- `element_numeric`, `mtv::element_type_double` (multi_type_vector/standard_element_blocks.hpp 16-27, as the next three). -/
abbrev tNum : Ty := ⟨10, false⟩
/-- `element_integer`. -/
abbrev tInt : Ty := ⟨5, false⟩
/-- `element_boolean`. -/
abbrev tBool : Ty := ⟨0, false⟩
/-- `element_string`. -/
abbrev tStr : Ty := ⟨11, false⟩

variable {D I S : Type}

/-- The block type a value goes to (`mdds_mtv_get_element_type` overloads). -/
def Val.ty : Val D I S → Ty
  | .num _ => tNum
  | .int _ => tInt
  | .bool _ => tBool
  | .str _ => tStr

/-- An array of one C++ element type, the argument of the range calls. -/
inductive Arr (D I S : Type) where
  | nums (l : List D)
  | ints (l : List I)
  | bools (l : List Bool)
  | strs (l : List S)
  deriving DecidableEq, Repr

def Arr.ty : Arr D I S → Ty
  | .nums _ => tNum
  | .ints _ => tInt
  | .bools _ => tBool
  | .strs _ => tStr

def Arr.vals : Arr D I S → List (Val D I S)
  | .nums l => l.map .num
  | .ints l => l.map .int
  | .bools l => l.map .bool
  | .strs l => l.map .str

/-- Conversions between the number types: `int` to `double`, `bool` to `double`, and the two
`static_cast`s from `double`; `zero` is `0.0`. -/
structure Conv (D I : Type) where
  zero : D
  ofInt : I → D
  ofBool : Bool → D
  toInt : D → I
  toBool : D → Bool

/-- The matrix: `m_store`, `m_size.row`, `m_size.column`. -/
structure Mtx (D I S : Type) where
  store : St (Val D I S)
  rows : Nat
  cols : Nat
  deriving DecidableEq, Repr

/-- What a member function does: a result and the matrix after it, an exception and the matrix
it leaves, or undefined behaviour. -/
inductive MRes (D I S β : Type) where
  | ok (b : β) (m : Mtx D I S)
  | err (e : Err) (m : Mtx D I S)
  | ub
  deriving DecidableEq, Repr

/-- The matrix after a call that did not end in undefined behaviour. -/
def MRes.state {β : Type} : MRes D I S β → Option (Mtx D I S)
  | .ok _ m => some m
  | .err _ m => some m
  | .ub => none

/-- A call on the store that leaves `m_size` alone. -/
def onStore {β : Type} (m : Mtx D I S) (x : M (Val D I S) β) : MRes D I S β :=
  match x m.store with
  | .ok (b, s) => .ok b { m with store := s }
  | .err e s => .err e { m with store := s }
  | .ub => .ub

/-- A `const` call on another store. -/
def onOther {α β : Type} (t : St α) (x : M α β) : M α β := fun s =>
  match x t with
  | .ok (b, _) => .ok (b, s)
  | .err e _ => .err e s
  | .ub => .ub

/-- `get_pos(row, col)` multi_type_matrix.hpp 810-813. -/
def Mtx.pos (m : Mtx D I S) (row col : Nat) : Nat := m.rows * col + row

/-! ### Construction -/

/-- Default constructor 60-62. -/
def mk0 : Mtx D I S := ⟨Mtv.mk0, 0, 0⟩

/-- `multi_type_matrix(rows, cols)` 64-66. -/
def mkSize (rows cols : Nat) : Mtx D I S := ⟨Mtv.mkSize (rows * cols), rows, cols⟩

/-- `multi_type_matrix(rows, cols, value)` 68-72. -/
def mkFill (rows cols : Nat) (v : Val D I S) : Outcome (Mtx D I S) :=
  (Mtv.mkRange (rows * cols) v.ty (List.replicate (rows * cols) v)).map fun s => ⟨s, rows, cols⟩

/-- `multi_type_matrix(rows, cols, it_begin, it_end)` 74-85; `to_mtm_type` does not throw for
the supported types. -/
def mkArr (rows cols : Nat) (a : Arr D I S) : Outcome (Mtx D I S) :=
  (Mtv.mkRange (rows * cols) a.ty a.vals).map fun s => ⟨s, rows, cols⟩

/-- The blocks of a copied store, `blocks_type(const blocks_type&)` soa/main_def.inl 134-176: every element block is copied to a new
address. -/
def copyBlocks {α : Type} : Nat → List (Mtv.Blk α) → List (Mtv.Blk α)
  | _, [] => []
  | n, b :: bs =>
    match b.data with
    | none => b :: copyBlocks n bs
    | some d => { b with data := some { d with id := n } } :: copyBlocks (n + 1) bs

/-- The copy constructor of the store, soa/main_def.inl 486-515, without copy-on-write.  Addresses are counted per object. -/
def copyStore {α : Type} (s : St α) : St α :=
  let bs := copyBlocks 0 s.blocks
  let ids := bs.filterMap fun b => b.data.map Mtv.EB.id
  ⟨bs, s.cur, [], ids.map .acq, ids.length⟩

/-- The copy constructor 87-90. -/
def copyOf (m : Mtx D I S) : Mtx D I S := ⟨copyStore m.store, m.rows, m.cols⟩

/-! ### Positions -/

/-- `position(row, col)` 98-102, 111-116 and the hinted 104-109, 118-123. -/
def position (m : Mtx D I S) (h : At) (row col : Nat) : MRes D I S (Nat × Nat) :=
  onStore m (Mtv.position h (m.pos row col))

/-- `matrix_position(pos)` 125-133; division by zero is undefined. -/
def matrixPosition (m : Mtx D I S) (p : Nat × Nat) : MRes D I S (Nat × Nat) :=
  match logicalPosition p m.store with
  | .ok (q, _) => if m.rows = 0 then .ub else .ok (q - m.rows * (q / m.rows), q / m.rows) m
  | .err e _ => .err e m
  | .ub => .ub

/-- `get_pos(pos)` multi_type_matrix.hpp 815-818. -/
def storePos (p : Nat × Nat) : M (Val D I S) Nat := logicalPosition p

/-! ### Reading -/

/-- `get_type(row, col)` 153-157. -/
def getType (m : Mtx D I S) (row col : Nat) : MRes D I S (Option Ty) := onStore m (Mtv.getType (m.pos row col))

/-- `get_type(pos)` 147-151. -/
def getTypeAt (m : Mtx D I S) (p : Nat × Nat) : MRes D I S (Option Ty) :=
  onStore m (do let b ← getB p.1; M.pure b.ty)

/-- `_Blk::at(*pos.first->data, pos.second)`: a block used as another type than its own and an
offset past its values are undefined. -/
def readVal (d : EB (Val D I S)) (off : Nat) : M (Val D I S) (Val D I S) :=
  match d.vals[off]? with
  | some v => M.pure v
  | none => ub_

/-- `get_numeric(pos)` 165-188: a switch over the type of the block. -/
def getNumericAt (cv : Conv D I) (p : Nat × Nat) : M (Val D I S) D := do
  let b ← getB p.1
  match b.data with
  | none => M.pure cv.zero
  | some d =>
    if d.ty = tNum then do
      match ← readVal d p.2 with
      | .num x => M.pure x
      | _ => ub_
    else if d.ty = tInt then do
      match ← readVal d p.2 with
      | .int x => M.pure (cv.ofInt x)
      | _ => ub_
    else if d.ty = tBool then do
      match ← readVal d p.2 with
      | .bool x => M.pure (cv.ofBool x)
      | _ => ub_
    else if d.ty = tStr then M.pure cv.zero
    else throw_ .general

/-- `get_numeric(row, col)` 159-163. -/
def getNumeric (cv : Conv D I) (m : Mtx D I S) (row col : Nat) : MRes D I S D :=
  onStore m (do let p ← Mtv.position none (m.pos row col); getNumericAt cv p)

/-- `get_integer` 190-202. -/
def getInteger (cv : Conv D I) (m : Mtx D I S) (row col : Nat) : MRes D I S I :=
  onStore m (do let p ← Mtv.position none (m.pos row col); let x ← getNumericAt cv p; M.pure (cv.toInt x))

/-- `get_boolean` 204-214. -/
def getBoolean (cv : Conv D I) (m : Mtx D I S) (row col : Nat) : MRes D I S Bool :=
  onStore m (do let p ← Mtv.position none (m.pos row col); let x ← getNumericAt cv p; M.pure (cv.toBool x))

/-- `get_string(pos)` 223-231. -/
def getStringAt (p : Nat × Nat) : M (Val D I S) S := do
  let b ← getB p.1
  match b.data with
  | none => throw_ .general
  | some d =>
    if d.ty ≠ tStr then throw_ .general
    else do
      match ← readVal d p.2 with
      | .str x => M.pure x
      | _ => ub_

/-- `get_string(row, col)` 216-221. -/
def getString (m : Mtx D I S) (row col : Nat) : MRes D I S S :=
  onStore m (do let p ← Mtv.position none (m.pos row col); getStringAt p)

/-- `get<T>(row, col)` 233-240; `none` is the type's empty value. -/
def get (m : Mtx D I S) (ty : Ty) (row col : Nat) : MRes D I S (Option (Val D I S)) :=
  onStore m (Mtv.get (m.pos row col) ty)

/-- The loop of `numeric()` 589-607 over the blocks. -/
def numericLoop : List (Blk (Val D I S)) → Outcome Bool
  | [] => .ok true
  | b :: bs =>
    match b.data with
    | none => .ok false
    | some d =>
      if d.ty = tNum ∨ d.ty = tBool ∨ d.ty = tInt then numericLoop bs
      else if d.ty = tStr then .ok false
      else .err .general

/-- `numeric()` 583-610. -/
def numeric (m : Mtx D I S) : Outcome Bool := if m.store.blocks.isEmpty then .ok false else numericLoop m.store.blocks

/-- `empty()` 612-616, multi_type_vector's `empty()` soa/main_def.inl 3813-3818. -/
def empty (m : Mtx D I S) : Bool := m.store.blocks.isEmpty

/-- `operator==` 92-96. -/
def equals [DecidableEq (Val D I S)] (m n : Mtx D I S) : Bool :=
  (m.rows == n.rows && m.cols == n.cols) && Mtv.equals m.store n.store

/-! ### Modifying -/

/-- `set(row, col, value)` 282-286, 296-300, 310-314, 325-329. -/
def set (m : Mtx D I S) (row col : Nat) (v : Val D I S) : MRes D I S Unit :=
  onStore m (do let _ ← Mtv.set none (m.pos row col) v.ty v; M.pure ())

/-- `set(pos, value)` 288-294, 302-308, 316-323, 331-338: the new position. -/
def setAt (m : Mtx D I S) (p : Nat × Nat) (v : Val D I S) : MRes D I S (Nat × Nat) :=
  onStore m (do
    let q ← storePos p
    let i ← Mtv.set (some (some p.1)) q v.ty v
    let b ← getB i
    M.pure (i, q - b.pos))

/-- `set(row, col, it_begin, it_end)` 340-345. -/
def setRange (m : Mtx D I S) (row col : Nat) (a : Arr D I S) : MRes D I S Unit :=
  onStore m (do let _ ← Mtv.setRange none (m.pos row col) a.ty a.vals; M.pure ())

/-- `set(pos, it_begin, it_end)` 347-355; an empty range makes the returned iterator the end,
which is dereferenced. -/
def setRangeAt (m : Mtx D I S) (p : Nat × Nat) (a : Arr D I S) : MRes D I S (Nat × Nat) :=
  onStore m (do
    let q ← storePos p
    let i ← Mtv.setRange (some (some p.1)) q a.ty a.vals
    let b ← getB i
    M.pure (i, q - b.pos))

/-- `set_empty(row, col)` 242-246. -/
def setEmpty (m : Mtx D I S) (row col : Nat) : MRes D I S Unit :=
  onStore m (do let _ ← Mtv.setEmpty none (m.pos row col) (m.pos row col); M.pure ())

/-- `set_empty(row, col, length)` 248-256. -/
def setEmptyLen (m : Mtx D I S) (row col len : Nat) : MRes D I S Unit :=
  if len = 0 then .err .general m
  else onStore m (do let _ ← Mtv.setEmpty none (m.pos row col) (m.pos row col + len - 1); M.pure ())

/-- `set_empty(pos)` 258-264. -/
def setEmptyAt (m : Mtx D I S) (p : Nat × Nat) : MRes D I S (Nat × Nat) :=
  onStore m (do
    let q ← storePos p
    let i ← Mtv.setEmpty (some (some p.1)) q q
    let b ← getB i
    M.pure (i, q - b.pos))

/-- `set_column_empty(col)` 266-270.  For a matrix without rows `m_size.row - 1` wraps; the
store is empty then and its `set_empty` throws before looking at the end position, so the
value does not matter. -/
def setColumnEmpty (m : Mtx D I S) (col : Nat) : MRes D I S Unit :=
  onStore m (do let _ ← Mtv.setEmpty none (m.pos 0 col) (m.pos (m.rows - 1) col); M.pure ())

/-- The loop of `set_row_empty` 275-279. -/
def setRowEmptyLoop (rows row : Nat) : Nat → Nat → M (Val D I S) Unit
  | _, 0 => M.pure ()
  | col, n + 1 => do
    let _ ← Mtv.setEmpty none (rows * col + row) (rows * col + row)
    setRowEmptyLoop rows row (col + 1) n

/-- `set_row_empty(row)` 272-280. -/
def setRowEmpty (m : Mtx D I S) (row : Nat) : MRes D I S Unit := onStore m (setRowEmptyLoop m.rows row 0 m.cols)

/-- The first `n` values of an array. -/
def Arr.take (n : Nat) : Arr D I S → Arr D I S
  | .nums l => .nums (l.take n)
  | .ints l => .ints (l.take n)
  | .bools l => .bools (l.take n)
  | .strs l => .strs (l.take n)

/-- The array without its first `n` values. -/
def Arr.drop (n : Nat) : Arr D I S → Arr D I S
  | .nums l => .nums (l.drop n)
  | .ints l => .ints (l.drop n)
  | .bools l => .bools (l.drop n)
  | .strs l => .strs (l.drop n)

/-- `set_column(col, it_begin, it_end)` 357-373. -/
def setColumn (m : Mtx D I S) (col : Nat) (a : Arr D I S) : MRes D I S Unit :=
  if a.vals.length ≤ m.rows then setRange m 0 col a else setRange m 0 col (a.take m.rows)

/-- One element of the double loop of `transpose` 389-416: read here, write into `tmp` at the
mirrored place.  An integer element falls into `default:` and throws (finding X1). -/
def transposeOne (m : Mtx D I S) (row col : Nat) (trows : Nat) : M (Val D I S) Unit := do
  let ty ← onOther m.store (Mtv.getType (m.pos row col))
  match ty with
  | none => M.pure ()
  | some t =>
    if t = tNum ∨ t = tBool ∨ t = tStr then do
      let v ← onOther m.store (Mtv.get (m.pos row col) t)
      match v with
      | some x => do
        let _ ← Mtv.set none (trows * row + col) t x
        M.pure ()
      | none => ub_
    else throw_ .general

/-- The inner loop 387-417 over the columns. -/
def transposeRow (m : Mtx D I S) (row trows : Nat) : Nat → Nat → M (Val D I S) Unit
  | _, 0 => M.pure ()
  | col, n + 1 => do
    transposeOne m row col trows
    transposeRow m row trows (col + 1) n

/-- The outer loop 385-418 over the rows. -/
def transposeRows (m : Mtx D I S) (trows : Nat) : Nat → Nat → M (Val D I S) Unit
  | _, 0 => M.pure ()
  | row, n + 1 => do
    transposeRow m row trows 0 m.cols
    transposeRows m trows (row + 1) n

/-- `transpose()` 381-422: build the mirrored matrix in `tmp` and swap; an exception leaves
this matrix as it was. -/
def transpose (m : Mtx D I S) : MRes D I S Unit :=
  match transposeRows m m.cols 0 m.rows (mkSize m.cols m.rows).store with
  | .ok (_, s) => .ok () ⟨s, m.cols, m.rows⟩
  | .err e _ => .err e m
  | .ub => .ub

/-- The sections of one column in `copy(src)` 447-506: the `do … while` loop.  `none` is the
early return when the destination is full.  Every round finishes a block of the source, whose
number bounds the rounds. -/
def copySections (src : St (Val D I S)) :
    Nat → Nat × Nat → Nat × Nat → Nat → M (Val D I S) (Option ((Nat × Nat) × (Nat × Nat)))
  | 0, _, _, _ => ub_
  | fuel + 1, pd, ps, remaining => do
    let sb ← onOther src (getB ps.1)
    if sb.size < ps.2 then ub_
    else do
      let section_ := min (sb.size - ps.2) remaining
      let q ← logicalPosition pd
      let blk ← (match sb.data with
        | none => Mtv.setEmpty (some (some pd.1)) q (q + section_ - 1)
        | some d =>
          if d.ty = tNum ∨ d.ty = tBool ∨ d.ty = tStr then
            Mtv.setRange (some (some pd.1)) q d.ty ((d.vals.drop ps.2).take section_)
          else throw_ .general)
      let n ← curSize
      if n ≤ q + section_ then M.pure none
      else do
        let pd' ← Mtv.position (some (some blk)) (q + section_)
        if remaining - section_ = 0 then M.pure (some (pd', (ps.1 + 1, 0)))
        else copySections src fuel pd' (ps.1 + 1, 0) (remaining - section_)

/-- The columns of `copy(src)` 442-507. -/
def copyCols (src : St (Val D I S)) (drows srows rows : Nat) :
    Nat → Nat → Nat × Nat → Nat × Nat → M (Val D I S) Unit
  | _, 0, _, _ => M.pure ()
  | col, n + 1, pd, ps => do
    let pd ← Mtv.position (some (some pd.1)) (drows * col)
    let ps ← onOther src (Mtv.position (some (some ps.1)) (srows * col))
    match ← copySections src (src.blocks.length + 1) pd ps rows with
    | none => M.pure ()
    | some (pd, ps) => copyCols src drows srows rows (col + 1) n pd ps

/-- `copy(src)` 424-508 for another matrix `src` (copying a matrix onto itself returns at
once). -/
def copyFrom (src : Mtx D I S) (m : Mtx D I S) : MRes D I S Unit :=
  if empty m ∨ empty src then .ok () m
  else onStore m (do
    let pd ← Mtv.position none 0
    let ps ← onOther src.store (Mtv.position none 0)
    copyCols src.store m.rows src.rows (min m.rows src.rows) 0 (min m.cols src.cols) pd ps)

/-- The loop of `copy(rows, cols, it_begin, it_end)` 530-539. -/
def copyArrLoop (mrows rows : Nat) : Nat → Nat → Nat → Arr D I S → M (Val D I S) Unit
  | _, 0, _, _ => M.pure ()
  | col, n + 1, blk, a => do
    let pd ← Mtv.position (some (some blk)) (mrows * col)
    let i ← Mtv.setRange (some (some pd.1)) (mrows * col) a.ty (a.take rows).vals
    copyArrLoop mrows rows (col + 1) n i (a.drop rows)

/-- `copy(rows, cols, it_begin, it_end)` 510-540. -/
def copyArr (m : Mtx D I S) (rows cols : Nat) (a : Arr D I S) : MRes D I S Unit :=
  if a.vals.length = 0 ∨ empty m then .ok () m
  else if a.vals.length ≠ rows * cols then .err .size m
  else if m.rows < rows ∨ m.cols < cols then .err .size m
  else onStore m (do
    let pd ← Mtv.position none 0
    copyArrLoop m.rows rows 0 cols pd.1 a)

/-- The branch of `resize` for zero rows or columns 545-551, 562-568, and `clear()` 575-581. -/
def clear (m : Mtx D I S) : MRes D I S Unit :=
  match Mtv.clear m.store with
  | .ok (_, s) => .ok () ⟨s, 0, 0⟩
  | .err e s => .err e { m with store := s }
  | .ub => .ub

/-- The last three lines of `resize` 553-555, 570-572: `temp.copy(*this); temp.swap(*this)`.  If the
copy throws, this matrix is unchanged. -/
def adopt (m temp : Mtx D I S) : MRes D I S Unit :=
  match copyFrom m temp with
  | .ok _ t => .ok () t
  | .err e _ => .err e m
  | .ub => .ub

/-- `resize(rows, cols)` 542-556. -/
def resize (m : Mtx D I S) (rows cols : Nat) : MRes D I S Unit :=
  if rows = 0 ∨ cols = 0 then clear m else adopt m (mkSize rows cols)

/-- `resize(rows, cols, value)` 558-573. -/
def resizeFill (m : Mtx D I S) (rows cols : Nat) (v : Val D I S) : MRes D I S Unit :=
  if rows = 0 ∨ cols = 0 then clear m
  else
    match mkFill rows cols v with
    | .ok t => adopt m t
    | .err e => .err e m
    | .ub => .ub

/-! ### Walking -/

/-- `element_block_node_type` multi_type_matrix.hpp 110-130: what the function object is given. -/
structure Node (D I S : Type) where
  ty : Option Ty
  offset : Nat
  size : Nat
  data : Option (EB (Val D I S))
  deriving DecidableEq, Repr

/-- `node.assign(pos, section_size)` 18-27: the position must not be the end. -/
def nodeAt (p : Nat × Nat) (section_ : Nat) : M (Val D I S) (Node D I S) := do
  let b ← getB p.1
  M.pure ⟨b.ty, p.2, section_, b.data⟩

/-- `pos.first->size - pos.second`. -/
def left (p : Nat × Nat) : M (Val D I S) Nat := do
  let b ← getB p.1
  if b.size < p.2 then ub_ else M.pure (b.size - p.2)

/-- `walk(func)` 626-633 with `walk_func` multi_type_matrix.hpp 151-166: the nodes in the order
of the calls. -/
def walk (m : Mtx D I S) : List (Node D I S) := m.store.blocks.map fun b => ⟨b.ty, 0, b.size, b.data⟩

/-- The `do … while` loop of the sub-range walk 661-677: the nodes and the last position. -/
def walkSections : Nat → Nat × Nat → Nat → M (Val D I S) (List (Node D I S) × (Nat × Nat))
  | 0, _, _ => ub_
  | fuel + 1, p, remaining => do
    let blk ← left p
    let node ← nodeAt p (min blk remaining)
    let p' := (p.1 + 1, 0)
    if remaining - min blk remaining = 0 then M.pure ([node], p')
    else do
      let (ns, e) ← walkSections fuel p' (remaining - min blk remaining)
      M.pure (node :: ns, e)

/-- The columns of the sub-range walk 656-678. -/
def walkCols (mrows row rows : Nat) : Nat → Nat → Nat × Nat → M (Val D I S) (List (Node D I S))
  | _, 0, _ => M.pure []
  | col, n + 1, p => do
    let p ← Mtv.position (some (some p.1)) (mrows * col + row)
    let k ← nBlocks
    let (ns, e) ← walkSections (k + 1) p rows
    let rest ← walkCols mrows row rows (col + 1) n e
    M.pure (ns ++ rest)

/-- `walk(func, start, end)` 635-681.  The bounds check compares with `>` although `end` is
inclusive (finding X3). -/
def walkRange (m : Mtx D I S) (r1 c1 r2 c2 : Nat) : MRes D I S (List (Node D I S)) :=
  if r2 < r1 ∨ c2 < c1 then .err .size m
  else if m.rows < r2 ∨ m.cols < c2 then .err .size m
  else onStore m (do
    let p ← Mtv.position none 0
    walkCols m.rows r1 (r2 - r1 + 1) c1 (c2 - c1 + 1) p)

/-- The loop of the parallel walk 700-713; every round finishes a block of one of the two. -/
def walkBoth (t : St (Val D I S)) :
    Nat → Nat × Nat → Nat × Nat → Nat → M (Val D I S) (List (Node D I S × Node D I S))
  | 0, _, _, _ => ub_
  | fuel + 1, p1, p2, remaining =>
    if remaining = 0 then M.pure []
    else do
      let l1 ← left p1
      let l2 ← onOther t (left p2)
      let n1 ← nodeAt p1 (min l1 l2)
      let n2 ← onOther t (nodeAt p2 (min l1 l2))
      let p1 ← advancePosition p1 (min l1 l2 : Nat)
      let p2 ← onOther t (advancePosition p2 (min l1 l2 : Nat))
      if remaining < min l1 l2 then ub_
      else do
        let rest ← walkBoth t fuel p1 p2 (remaining - min l1 l2)
        M.pure ((n1, n2) :: rest)

/-- `walk(func, right)` 683-716. -/
def walkWith (m right : Mtx D I S) : MRes D I S (List (Node D I S × Node D I S)) :=
  if m.rows ≠ right.rows ∨ m.cols ≠ right.cols then .err .size m
  else if m.store.cur = 0 then .ok [] m
  else onStore m (walkBoth right.store (m.store.cur + 1) (0, 0) (0, 0) m.store.cur)

/-- The `do … while` loop of the parallel sub-range walk 747-765. -/
def walkBothSections (t : St (Val D I S)) : Nat → Nat × Nat → Nat × Nat → Nat →
    M (Val D I S) (List (Node D I S × Node D I S) × (Nat × Nat) × (Nat × Nat))
  | 0, _, _, _ => ub_
  | fuel + 1, p1, p2, remaining => do
    let l1 ← left p1
    let l2 ← onOther t (left p2)
    let k := min (min l1 l2) remaining
    let n1 ← nodeAt p1 k
    let n2 ← onOther t (nodeAt p2 k)
    let p1 ← advancePosition p1 (k : Nat)
    let p2 ← onOther t (advancePosition p2 (k : Nat))
    if remaining - k = 0 then M.pure ([(n1, n2)], p1, p2)
    else do
      let (ns, e1, e2) ← walkBothSections t fuel p1 p2 (remaining - k)
      M.pure ((n1, n2) :: ns, e1, e2)

/-- The columns of the parallel sub-range walk 740-766. -/
def walkBothCols (t : St (Val D I S)) (mrows trows row rows : Nat) :
    Nat → Nat → Nat × Nat → Nat × Nat → M (Val D I S) (List (Node D I S × Node D I S))
  | _, 0, _, _ => M.pure []
  | col, n + 1, p1, p2 => do
    let p1 ← Mtv.position (some (some p1.1)) (mrows * col + row)
    let p2 ← onOther t (Mtv.position (some (some p2.1)) (trows * col + row))
    let (ns, e1, e2) ← walkBothSections t (rows + 1) p1 p2 rows
    let rest ← walkBothCols t mrows trows row rows (col + 1) n e1 e2
    M.pure (ns ++ rest)

/-- `walk(func, right, start, end)` 718-769, with the same bounds check. -/
def walkRangeWith (m right : Mtx D I S) (r1 c1 r2 c2 : Nat) : MRes D I S (List (Node D I S × Node D I S)) :=
  if r2 < r1 ∨ c2 < c1 then .err .size m
  else if m.rows < r2 ∨ m.cols < c2 ∨ right.rows < r2 ∨ right.cols < c2 then .err .size m
  else onStore m (do
    let p1 ← Mtv.position none 0
    let p2 ← onOther right.store (Mtv.position none 0)
    walkBothCols right.store m.rows right.rows r1 (r2 - r1 + 1) c1 (c2 - c1 + 1) p1 p2)

end Mdds.Mtm
