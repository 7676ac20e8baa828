import Verif.Mtv.ModelRange

/-!
# multi_type_vector: public calls

The public members of `soa/main_def.inl` that modify or read one container.  Overloads with
and without a position hint share one definition; the hint is the block index stored in the
iterator's private data, which may be anything (stale, or of another container).  The calls
here are those of a container that owns its blocks, so `detach_impl` does nothing; sharing is
modelled in `Cow.lean`.
-/

namespace Mdds.Mtv

variable {α : Type}

/-- How a call looks up a position: `none` is the overload without a hint, `some h` the one
with the hint `h` (block index, or `none` for a default constructed iterator). -/
abbrev At := Option (Option Nat)

/-- `get_block_position(pos)` or `get_block_position(pos_hint->__private_data, pos)`. -/
def lookup : At → Nat → M α Nat
  | none, pos => getBlockPosition pos 0
  | some h, pos => getBlockPositionHint h pos

/-- `set(pos, value)` 898-933 and `set(pos_hint, pos, value)` 935-985. -/
def set (h : At) (pos : Nat) (ty : Ty) (x : α) : M α Nat := do
  let i ← lookup h pos
  let n ← nBlocks
  if i = n then throw_ .outOfRange
  else setImpl pos i ty x

/-- `set(pos, it_begin, it_end)` 989-1028 and the hinted 1030-1070, with
`calc_input_end_position` (util.hpp 171-186).  The hinted overload does not check the found
block index.  The end iterator is the number of blocks. -/
def setRange (h : At) (pos : Nat) (ty : Ty) (vs : List α) : M α Nat := do
  let cur ← curSize
  let n ← nBlocks
  if vs.length = 0 then M.pure n
  else if cur ≤ pos + vs.length - 1 then throw_ .outOfRange
  else do
    let i ← lookup h pos
    if h = none ∧ i = n then throw_ .outOfRange
    else setCellsImpl pos (pos + vs.length - 1) i ty vs

/-- `insert(pos, it_begin, it_end)` 1155-1192 and the hinted 1204-1232. -/
def insert (h : At) (pos : Nat) (ty : Ty) (vs : List α) : M α Nat := do
  let i ← lookup h pos
  let n ← nBlocks
  if i = n then throw_ .outOfRange
  else insertCellsImpl pos i ty vs

/-- `set_empty(start_pos, end_pos)` 1347-1362 and the hinted 1364-1379. -/
def setEmpty (h : At) (row endRow : Nat) : M α Nat := do
  let i ← lookup h row
  let n ← nBlocks
  if i = n then throw_ .outOfRange
  else setEmptyImpl row endRow i true

/-- `release_range(start_pos, end_pos)` 4018-4037 and the hinted 4039-4060. -/
def releaseRange (h : At) (row endRow : Nat) : M α Nat := do
  let i ← lookup h row
  let n ← nBlocks
  if i = n then throw_ .outOfRange
  else setEmptyImpl row endRow i false

/-- `insert_empty(pos, length)` 1430-1469 and the hinted 1471-1506; the end iterator is the
number of blocks. -/
def insertEmpty (h : At) (pos length : Nat) : M α Nat := do
  let n ← nBlocks
  if length = 0 then M.pure n
  else do
    let i ← lookup h pos
    if i = n then throw_ .outOfRange
    else insertEmptyImpl pos i length

/-- `get_value(block, offset)` of a block used as one of type `ty` (types.hpp 560-575): a cast
to another block type is undefined, as is reading past the stored values. -/
def getValue (d : EB α) (off : Nat) (ty : Ty) : M α α :=
  if d.ty = ty then
    match d.vals[off]? with
    | some v => M.pure v
    | none => ub_
  else ub_

/-- `release_impl` 1689-1713: the value (`none` is the type's empty value) and the iterator. -/
def releaseImpl (pos i : Nat) (ty : Ty) : M α (Option α × Nat) := do
  let b ← getB i
  match b.data with
  | none => M.pure (none, i)
  | some d => do
    let v ← getValue d (pos - b.pos) ty
    let r ← setEmptySingle pos pos i false
    M.pure (some v, r)

/-- `release(pos)` 3850-3891, `release(pos, value)` 3893-3935 and the hinted 3937-3978. -/
def release (h : At) (pos : Nat) (ty : Ty) : M α (Option α × Nat) := do
  let i ← lookup h pos
  let n ← nBlocks
  if i = n then throw_ .outOfRange
  else releaseImpl pos i ty

/-- One block of the loop in `release()` 3996-4004. -/
def releaseBlock (i : Nat) : M α Unit := do
  let b ← getB i
  match b.data with
  | none => M.pure ()
  | some _ => do
    shrinkVals i 0
    deleteElementBlock i

/-- The loop 3996-4004. -/
def releaseBlocks (start : Nat) : Nat → M α Unit
  | 0 => M.pure ()
  | n + 1 => do
    releaseBlock start
    releaseBlocks (start + 1) n

/-- `release()` 3980-4016. -/
def releaseAll : M α Unit := do
  let n ← nBlocks
  releaseBlocks 0 n
  delB 0 n
  setCurSize 0

/-! ### Reading -/

/-- `size()` 3796. -/
def size : M α Nat := curSize

/-- `get(pos)` / `get(pos, value)` 659-681: `none` is the type's empty value. -/
def get (pos : Nat) (ty : Ty) : M α (Option α) := do
  let i ← getBlockPosition pos 0
  let n ← nBlocks
  if i = n then throw_ .outOfRange
  else do
    let b ← getB i
    match b.data with
    | none => M.pure none
    | some d => do
      let v ← getValue d (pos - b.pos) ty
      M.pure (some v)

/-- `get_type(pos)` 1321-1335; `none` is `element_type_empty`. -/
def getType (pos : Nat) : M α (Option Ty) := do
  let i ← getBlockPosition pos 0
  let n ← nBlocks
  if i = n then throw_ .outOfRange
  else do
    let b ← getB i
    M.pure b.ty

/-- `is_empty(pos)` 1337-1345. -/
def isEmpty (pos : Nat) : M α Bool := do
  let i ← getBlockPosition pos 0
  let n ← nBlocks
  if i = n then throw_ .outOfRange
  else do
    let b ← getB i
    M.pure b.data.isNone

/-- `position(pos)` 683-705, 732-753 and the hinted 707-730, 755-777: block index and offset;
the end position is (number of blocks, 0). -/
def position (h : At) (pos : Nat) : M α (Nat × Nat) := do
  let cur ← curSize
  let n ← nBlocks
  if pos = cur then M.pure (n, 0)
  else do
    let i ← lookup h pos
    if i = n then throw_ .outOfRange
    else do
      let b ← getB i
      M.pure (i, pos - b.pos)

/-- `logical_position(pos)` 354-359; the end position may not be dereferenced. -/
def logicalPosition (p : Nat × Nat) : M α Nat := do
  let b ← getB p.1
  M.pure (b.pos + p.2)

/-- `next_position(pos)` 305-344. -/
def nextPosition (p : Nat × Nat) : M α (Nat × Nat) := do
  let b ← getB p.1
  if p.2 + 1 < b.size then M.pure (p.1, p.2 + 1) else M.pure (p.1 + 1, 0)

/-- The loop for a positive number of steps in `advance_position` (util.hpp 193-210). -/
def advanceFwd : Nat → Nat × Nat → Nat → M α (Nat × Nat)
  | 0, _, _ => ub_
  | fuel + 1, p, steps =>
    if steps = 0 then M.pure p
    else do
      let b ← getB p.1
      if p.2 + steps < b.size then M.pure (p.1, p.2 + steps)
      else if b.size < p.2 then ub_
      else if b.size - p.2 ≤ steps then advanceFwd fuel (p.1 + 1, 0) (steps - (b.size - p.2))
      else ub_

/-- The loop for a negative number `-steps` (util.hpp 211-227); going before the first block
is undefined. -/
def advanceBwd : Nat → Nat × Nat → Nat → M α (Nat × Nat)
  | 0, _, _ => ub_
  | fuel + 1, p, steps =>
    if steps = 0 then M.pure p
    else if steps ≤ p.2 then M.pure (p.1, p.2 - steps)
    else
      match p.1 with
      | 0 => ub_
      | i + 1 => do
        let b ← getB i
        if b.size = 0 then ub_
        else advanceBwd fuel (i, b.size - 1) (steps - (p.2 + 1))

/-- `advance_position(pos, steps)` 323-327, util.hpp 188-230.  Steps and sizes are taken to fit
into `int`; each round of a loop passes one block, so the number of blocks bounds them. -/
def advancePosition (p : Nat × Nat) (steps : Int) : M α (Nat × Nat) := fun s =>
  if 0 < steps then advanceFwd (s.blocks.length + 1) p steps.toNat s
  else advanceBwd (s.blocks.length + 1) p (-steps).toNat s

/-- `get<_Blk>(pos)` 361-366 on a position object. -/
def getAt (p : Nat × Nat) (ty : Ty) : M α α := do
  let b ← getB p.1
  match b.data with
  | none => ub_
  | some d => getValue d p.2 ty

/-- `equal_block` on two block pointers (`equal_blocks_pred` 95-115, block_funcs.hpp 191-202: both null,
or both non-null, of one type and with the same values). -/
def sameData [DecidableEq α] : Option (EB α) → Option (EB α) → Bool
  | none, none => true
  | some d, some e => d.ty = e.ty && d.vals = e.vals
  | _, _ => false

/-- `operator==` 5516-5530 with `blocks_type::equals` 263-276. -/
def equals [DecidableEq α] (s t : St α) : Bool :=
  s.cur == t.cur && s.blocks.map Blk.pos == t.blocks.map Blk.pos && s.blocks.map Blk.size == t.blocks.map Blk.size &&
    (s.blocks.length == t.blocks.length &&
      (s.blocks.zip t.blocks).all fun p => sameData p.1.data p.2.data)

/-! ### Construction -/

/-- Default constructor 383-387. -/
def mk0 : St α := ⟨[], 0, [], [], 0⟩

/-- `multi_type_vector(init_size)` 401-414. -/
def mkSize (n : Nat) : St α := if n = 0 then mk0 else ⟨[⟨0, n, none⟩], n, [], [], 0⟩

/-- `multi_type_vector(init_size, it_begin, it_end)` 435-455 (throws `invalid_arg_error` when
the lengths differ); with `List.replicate n x` this is the constructor 416-433 from one
value. -/
def mkRange (n : Nat) (ty : Ty) (vs : List α) : Outcome (St α) :=
  if n = 0 then .ok mk0
  else if n ≠ vs.length then .err .invalidArg
  else .ok ⟨[⟨0, n, some ⟨0, ty, vs⟩⟩], n, [], [.acq 0], 1⟩

/-- The destructor 530-548 of a container that owns its blocks. -/
def destroy : M α Unit := do
  let n ← nBlocks
  deleteElementBlocks 0 n

end Mdds.Mtv
