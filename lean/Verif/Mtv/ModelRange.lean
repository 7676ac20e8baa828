import Verif.Mtv.Model
/-!
Model of the range mutators of `mdds::mtv::soa::multi_type_vector`: set range,
insert, set_empty, erase, insert_empty, push_back, resize, clear
(`include/mdds/multi_type_vector/soa/main_def.inl`).

An input iterator range `[it_begin, it_end)` is the list of its values, all of one
element type `ty`.  Tests of the form `end_row == start + size - 1` are written
`end_row + 1 = start + size`.
-/
namespace Mdds.Mtv
open Mdds

variable {α : Type}

/-! ### Merging -/

/-- `merge_with_next_block` 4652-4698. -/
def mergeWithNext (i : Nat) : M α Bool := do
  let n ← nBlocks
  if n ≤ i + 1 then M.pure false
  else do
    let b ← getB i
    let nb ← getB (i + 1)
    match b.data, nb.data with
    | none, none => do
      addSize i nb.size
      delB (i + 1) 1
      M.pure true
    | none, some _ => M.pure false
    | some _, none => M.pure false
    | some d, some e =>
      if d.ty = e.ty then do
        appendBlock i (i + 1)
        shrinkVals (i + 1) 0
        addSize i nb.size
        deleteElementBlock (i + 1)
        delB (i + 1) 1
        M.pure true
      else M.pure false

/-- `merge_with_adjacent_blocks` 4566-4650. -/
def mergeWithAdjacent (i : Nat) : M α Nat :=
  match i with
  | 0 => do
    let _ ← mergeWithNext 0
    M.pure 0
  | j + 1 => do
    let pb ← getB j
    let b ← getB (j + 1)
    let n ← nBlocks
    if j + 1 + 1 < n then do
      let nb ← getB (j + 2)
      match pb.data, b.data with
      | some p, some d =>
        if p.ty = d.ty then
          if nb.ty = some p.ty then do
            addSize j (b.size + nb.size)
            appendBlock j (j + 1)
            appendBlock j (j + 2)
            shrinkVals (j + 1) 0
            shrinkVals (j + 2) 0
            deleteElementBlock (j + 1)
            deleteElementBlock (j + 2)
            delB (j + 1) 2
            M.pure pb.size
          else do
            let _ ← mergeWithNext j
            M.pure pb.size
        else do
          let _ ← mergeWithNext (j + 1)
          M.pure 0
      | some _, none => do
        let _ ← mergeWithNext (j + 1)
        M.pure 0
      | none, some _ => do
        let _ ← mergeWithNext (j + 1)
        M.pure 0
      | none, none =>
        match nb.data with
        | none => do
          addSize j (b.size + nb.size)
          delB (j + 1) 2
          M.pure pb.size
        | some _ => do
          let _ ← mergeWithNext j
          M.pure pb.size
    else
      match pb.data, b.data with
      | some p, some d =>
        if p.ty = d.ty then do
          let _ ← mergeWithNext j
          M.pure pb.size
        else do
          let _ ← mergeWithNext (j + 1)
          M.pure 0
      | some _, none => do
        let _ ← mergeWithNext (j + 1)
        M.pure 0
      | none, some _ => do
        let _ ← mergeWithNext (j + 1)
        M.pure 0
      | none, none => do
        let _ ← mergeWithNext j
        M.pure pb.size

/-! ### set (range of values) -/

/-- `append_to_prev_block` 4317-4330. -/
def appendToPrev (i : Nat) (ty : Ty) (length : Nat) (vs : List α) : M α Bool := do
  let pv ← isPrevOfType i (some ty)
  if pv then do
    appendVals (i - 1) ty vs
    addSize (i - 1) length
    M.pure true
  else M.pure false

/-- Creation of a new element block in slot `i` filled with the input, as in
2906-2909, 2949-2953, 2997-3000 ff. -/
def newBlockAt (i : Nat) (ty : Ty) (vs : List α) : M α Unit := do
  let e ← newEB ty []
  setData i (some e)
  acquired e
  assignVals i ty vs

/-- 2899-2904: release and delete the old element block, if any. -/
def dropOld : Option (EB α) → M α Unit
  | none => M.pure ()
  | some d => do
    released d
    deleteBlock (some d)

/-- 2919-2938: replace the element block by one holding only its lower part
(no events are fired). -/
def keepLower (i pos length : Nat) : Option (EB α) → M α Unit
  | none => M.pure ()
  | some d => do
    let e ← newEB d.ty []
    let vs ← rangeOf i pos length d.ty
    overwrite i 0 pos
    shrinkVals i 0
    let d' ← deref i
    deleteBlock (some d')
    setData i (some { e with vals := vs })

/-- 2977-2981: cut the lower part of the element block off. -/
def cutLower (i newSize length : Nat) : Option (EB α) → M α Unit
  | none => M.pure ()
  | some _ => do
    overwrite i newSize length
    shrinkVals i newSize

/-- `set_cells_to_single_block` 2855-3028. -/
def setCellsSingle (row endRow i : Nat) (ty : Ty) (vs : List α) : M α Nat := do
  let b ← getB i
  if b.ty = some ty then do
    overwrite i (row - b.pos) vs.length
    if row - b.pos = 0 ∧ vs.length = b.size then do
      assignVals i ty vs
      M.pure i
    else do
      setVals i (row - b.pos) ty vs
      M.pure i
  else if row = b.pos then
    if endRow + 1 = b.pos + b.size then do
      let ap ← appendToPrev i ty (endRow - row + 1) vs
      if ap then do
        deleteElementBlock i
        delB i 1
        let _ ← mergeWithNext (i - 1)
        M.pure (i - 1)
      else do
        dropOld b.data
        newBlockAt i ty vs
        let _ ← mergeWithNext i
        M.pure i
    else do
      setSize i (b.pos + b.size - 1 - endRow)
      keepLower i (endRow - b.pos + 1) (b.pos + b.size - 1 - endRow) b.data
      let ap ← appendToPrev i ty (endRow - row + 1) vs
      if ap then do
        addPos i (endRow - row + 1)
        M.pure (i - 1)
      else do
        let b' ← getB i
        addPos i (endRow - row + 1)
        insB i [⟨b'.pos, endRow - row + 1, none⟩]
        newBlockAt i ty vs
        M.pure i
  else if endRow + 1 = b.pos + b.size then do
    setSize i (row - b.pos)
    cutLower i (row - b.pos) vs.length b.data
    let n ← nBlocks
    if i + 1 < n then do
      let nx ← isNextOfType i (some ty)
      if nx then do
        prependVals (i + 1) ty vs
        addSize (i + 1) (endRow - row + 1)
        subPos (i + 1) (endRow - row + 1)
        M.pure (i + 1)
      else do
        insB (i + 1) [⟨0, endRow - row + 1, none⟩]
        calcPos (i + 1)
        newBlockAt (i + 1) ty vs
        M.pure (i + 1)
    else do
      let cur ← curSize
      if endRow - row + 1 ≤ cur then do
        pushB ⟨cur - (endRow - row + 1), endRow - row + 1, none⟩
        newBlockAt (i + 1) ty vs
        M.pure (i + 1)
      else ub_
  else do
    let j ← setNewBlockToMiddle i (row - b.pos) (endRow - row + 1) true
    newBlockAt j ty vs
    M.pure j

/-- First part of `set_cells_to_multi_blocks_block1_non_equal` 3078-3124: the data
block and the first slot to erase.  The data block is not in the block store yet. -/
def multiHead (row i1 : Nat) (ty : Ty) (vs : List α) : M α (Blk α × EB α × Nat) := do
  let b1 ← getB i1
  if row - b1.pos = 0 then
    match i1 with
    | 0 => do
      let e ← newEB ty vs
      acquired e
      M.pure (⟨row, vs.length, none⟩, e, 0)
    | j + 1 => do
      let b0 ← getB j
      match b0.data with
      | some d =>
        if ty = d.ty then do
          setData j none
          M.pure (⟨b0.pos, vs.length + b0.size, none⟩, { d with vals := d.vals ++ vs }, j)
        else do
          let e ← newEB ty vs
          acquired e
          M.pure (⟨row, vs.length, none⟩, e, j + 1)
      | none => do
        let e ← newEB ty vs
        acquired e
        M.pure (⟨row, vs.length, none⟩, e, j + 1)
  else do
    cutLower i1 (row - b1.pos) (b1.size - (row - b1.pos)) b1.data
    setSize i1 (row - b1.pos)
    let e ← newEB ty vs
    acquired e
    M.pure (⟨row, vs.length, none⟩, e, i1 + 1)

/-- 3168-3180: erase the upper part of block 2. -/
def eraseUpper (i n : Nat) : Option (EB α) → M α Unit
  | none => do
    subSize i n
    addPos i n
  | some _ => do
    overwrite i 0 n
    eraseVals i 0 n
    subSize i n
    addPos i n

/-- Second part 3126-3182: block 2 and block 3; gives the extra size and values of
the data block and the end of the slots to erase. -/
def multiTail (endRow i2 : Nat) (ty : Ty) : M α (Nat × List α × Nat) := do
  let b2 ← getB i2
  if endRow + 1 = b2.pos + b2.size then do
    let n ← nBlocks
    if i2 + 1 < n then do
      let b3 ← getB (i2 + 1)
      match b3.data with
      | some d =>
        if d.ty = ty then do
          shrinkVals (i2 + 1) 0
          M.pure (b3.size, d.vals, i2 + 2)
        else M.pure (0, [], i2 + 1)
      | none => M.pure (0, [], i2 + 1)
    else M.pure (0, [], i2 + 1)
  else
    if b2.ty = some ty then do
      let copyPos := endRow - b2.pos + 1
      let n := b2.pos + b2.size - 1 - endRow
      let vs ← rangeOf i2 copyPos n ty
      shrinkVals i2 copyPos
      M.pure (n, vs, i2 + 1)
    else do
      eraseUpper i2 (endRow - b2.pos + 1) b2.data
      M.pure (0, [], i2)

/-- `set_cells_to_multi_blocks_block1_non_equal` 3052-3196. -/
def setCellsMultiNonEqual (row endRow i1 i2 : Nat) (ty : Ty) (vs : List α) : M α Nat := do
  let h ← multiHead row i1 ty vs
  let t ← multiTail endRow i2 ty
  deleteElementBlocks h.2.2 (t.2.2 - h.2.2)
  delB h.2.2 (t.2.2 - h.2.2)
  insB h.2.2 [⟨h.1.pos, h.1.size + t.1, some { h.2.1 with vals := h.2.1.vals ++ t.2.1 }⟩]
  M.pure h.2.2

/-- 3228-3266: what happens to block 2 when block 1 has the type of the input; gives
the end of the slots to erase. -/
def multiTailEqual (endRow i1 i2 : Nat) (ty : Ty) : M α Nat := do
  let b2 ← getB i2
  if endRow + 1 = b2.pos + b2.size then M.pure (i2 + 1)
  else
    match b2.data with
    | some d =>
      if d.ty = ty then do
        let len := b2.pos + b2.size - 1 - endRow
        let beg := endRow - b2.pos + 1
        appendFrom i1 i2 beg len
        overwrite i2 0 beg
        shrinkVals i2 0
        addSize i1 len
        M.pure (i2 + 1)
      else do
        eraseVals i2 0 (endRow - b2.pos + 1)
        subSize i2 (endRow - b2.pos + 1)
        addPos i2 (endRow - b2.pos + 1)
        M.pure i2
    | none => do
      subSize i2 (endRow - b2.pos + 1)
      addPos i2 (endRow - b2.pos + 1)
      M.pure i2

/-- `set_cells_to_multi_blocks` 3030-3050 and
`set_cells_to_multi_blocks_block1_non_empty` 3198-3280. -/
def setCellsMulti (row endRow i1 i2 : Nat) (ty : Ty) (vs : List α) : M α Nat := do
  let b1 ← getB i1
  if b1.ty = some ty then do
    overwrite i1 (row - b1.pos) (b1.size - (row - b1.pos))
    shrinkVals i1 (row - b1.pos)
    appendVals i1 ty vs
    setSize i1 (row - b1.pos + vs.length)
    let e ← multiTailEqual endRow i1 i2 ty
    deleteElementBlocks (i1 + 1) (e - (i1 + 1))
    delB (i1 + 1) (e - (i1 + 1))
    M.pure i1
  else setCellsMultiNonEqual row endRow i1 i2 ty vs

/-- `set_cells_impl` 2836-2853. -/
def setCellsImpl (row endRow i1 : Nat) (ty : Ty) (vs : List α) : M α Nat := do
  let i2 ← getBlockPosition endRow i1
  let n ← nBlocks
  if i2 = n then throw_ .outOfRange
  else if i1 = i2 then setCellsSingle row endRow i1 ty vs
  else setCellsMulti row endRow i1 i2 ty vs

/-! ### insert (range of values) -/

/-- The last part of `insert_cells_to_middle` 4357-4371. -/
def moveLower (i offset n2 : Nat) : Option (EB α) → M α Unit
  | none => M.pure ()
  | some d => do
    let e ← newEB d.ty []
    setData (i + 2) (some e)
    acquired e
    assignFrom (i + 2) i offset n2
    shrinkVals i offset

/-- `insert_cells_to_middle` 4332-4375. -/
def insertCellsToMiddle (row i : Nat) (ty : Ty) (vs : List α) : M α Unit := do
  let b ← getB i
  insZ (i + 1) 2
  setSize i (row - b.pos)
  setSize (i + 1) vs.length
  setSize (i + 2) (b.size - (row - b.pos))
  calcPos (i + 1)
  calcPos (i + 2)
  newBlockAt (i + 1) ty vs
  moveLower i (row - b.pos) (b.size - (row - b.pos)) b.data
  shiftUp (i + 3) vs.length

/-- `m_cur_size += n`. -/
def growCur (n : Nat) : M α Unit := do
  let c ← curSize
  setCurSize (c + n)

/-- 2064-2076 and 2109-2121: append the input to the previous block. -/
def insertIntoPrev (i : Nat) (ty : Ty) (vs : List α) : M α Nat := do
  appendVals (i - 1) ty vs
  addSize (i - 1) vs.length
  growCur vs.length
  shiftUp i vs.length
  M.pure (i - 1)

/-- `insert_cells_impl` 2036-2139.  In the branch 2124-2133 (non-empty block of another
type, insertion at its start) the acquired event names the block that was there before,
not the new one (line 2127 runs before `blk_data` is updated). -/
def insertCellsImpl (row i : Nat) (ty : Ty) (vs : List α) : M α Nat := do
  let b ← getB i
  let n ← nBlocks
  if vs.length = 0 then M.pure n
  else
    match b.data with
    | none =>
      if row = b.pos then do
        let pv ← isPrevOfType i (some ty)
        if pv then insertIntoPrev i ty vs
        else do
          insB i [⟨b.pos, vs.length, none⟩]
          newBlockAt i ty vs
          growCur vs.length
          shiftUp (i + 1) vs.length
          M.pure i
      else do
        insertCellsToMiddle row i ty vs
        growCur vs.length
        M.pure (i + 1)
    | some d =>
      if ty = d.ty then do
        insertVals i (row - b.pos) ty vs
        addSize i vs.length
        growCur vs.length
        shiftUp (i + 1) vs.length
        M.pure i
      else if row = b.pos then do
        let pv ← isPrevOfType i (some ty)
        if pv then insertIntoPrev i ty vs
        else do
          insB i [⟨b.pos, vs.length, none⟩]
          let e ← newEB ty []
          setData i (some e)
          acquired d
          assignVals i ty vs
          setSize i vs.length
          growCur vs.length
          shiftUp (i + 1) vs.length
          M.pure i
      else do
        insertCellsToMiddle row i ty vs
        growCur vs.length
        M.pure (i + 1)

/-! ### set_empty -/

/-- `if (overwrite) overwrite_values(...)`. -/
def overwriteIf (ow : Bool) (i off len : Nat) : M α Unit :=
  if ow then overwrite i off len else M.pure ()
/-- `if (!overwrite) resize_block(*data, 0)`, for a slot that may be empty. -/
def forgetIf (ow : Bool) (i : Nat) : Option (EB α) → M α Unit
  | none => M.pure ()
  | some _ => if ow then M.pure () else shrinkVals i 0

/-- `set_whole_block_empty` 2785-2834. -/
def setWholeBlockEmpty (i : Nat) (ow : Bool) : M α Nat := do
  let b ← getB i
  forgetIf ow i b.data
  deleteElementBlock i
  let pv ← isPrevOfType i none
  let nx ← isNextOfType i none
  if pv then
    if nx then do
      let b' ← getB i
      let nb ← getB (i + 1)
      addSize (i - 1) (b'.size + nb.size)
      delB i 2
      M.pure (i - 1)
    else do
      let b' ← getB i
      addSize (i - 1) b'.size
      delB i 1
      M.pure (i - 1)
  else if nx then do
    let nb ← getB (i + 1)
    addSize i nb.size
    delB (i + 1) 1
    M.pure i
  else M.pure i

/-- `set_empty_in_single_block` 2185-2262. -/
def setEmptySingle (row endRow i : Nat) (ow : Bool) : M α Nat := do
  let b ← getB i
  match b.data with
  | none => M.pure i
  | some _ =>
    let sz := endRow - row + 1
    if row = b.pos then
      if endRow + 1 = b.pos + b.size then setWholeBlockEmpty i ow
      else do
        overwriteIf ow i 0 sz
        eraseVals i 0 sz
        subSize i sz
        let pv ← isPrevOfType i none
        if pv then do
          addSize (i - 1) sz
          addPos i sz
          M.pure (i - 1)
        else do
          addPos i sz
          insB i [⟨b.pos, sz, none⟩]
          M.pure i
    else if endRow + 1 = b.pos + b.size then do
      overwriteIf ow i (row - b.pos) sz
      eraseVals i (row - b.pos) sz
      subSize i sz
      let nx ← isNextOfType i none
      if nx then do
        addSize (i + 1) sz
        setPos (i + 1) row
        M.pure (i + 1)
      else do
        insB (i + 1) [⟨row, sz, none⟩]
        M.pure (i + 1)
    else do
      let _ ← setNewBlockToMiddle i (row - b.pos) sz ow
      M.pure (i + 1)

/-- First block of `set_empty_in_multi_blocks` 2273-2318: gives the adjusted start row
and first block index. -/
def emptyHead (row i1 : Nat) (ow : Bool) : M α (Nat × Nat) := do
  let b ← getB i1
  match b.data with
  | none => M.pure (b.pos, i1)
  | some _ =>
    if b.pos = row then do
      let pv ← isPrevOfType i1 none
      if pv then do
        let pb ← getB (i1 - 1)
        if pb.size ≤ row then M.pure (row - pb.size, i1 - 1) else ub_
      else do
        forgetIf ow i1 b.data
        deleteElementBlock i1
        M.pure (row, i1)
    else do
      overwriteIf ow i1 (row - b.pos) (b.size - (row - b.pos))
      shrinkVals i1 (row - b.pos)
      setSize i1 (row - b.pos)
      M.pure (row, i1)

/-- Last block 2322-2365: gives the adjusted end row and the end of the blocks to
erase. -/
def emptyTail (endRow i2 : Nat) (ow : Bool) : M α (Nat × Nat) := do
  let b ← getB i2
  match b.data with
  | none => M.pure (b.pos + b.size - 1, i2 + 1)
  | some _ =>
    if b.pos + b.size = endRow + 1 then do
      let nx ← isNextOfType i2 none
      if nx then do
        let nb ← getB (i2 + 1)
        M.pure (endRow + nb.size, i2 + 2)
      else M.pure (endRow, i2 + 1)
    else do
      overwriteIf ow i2 0 (endRow - b.pos + 1)
      eraseVals i2 0 (endRow - b.pos + 1)
      subSize i2 (endRow - b.pos + 1)
      setPos i2 (b.pos + (endRow - b.pos + 1))
      M.pure (endRow, i2)

/-- The loop 2371-2378. -/
def emptyMid (ow : Bool) (i : Nat) : Nat → M α Unit
  | 0 => M.pure ()
  | n + 1 => do
    let b ← getB i
    forgetIf ow i b.data
    deleteElementBlock i
    emptyMid ow (i + 1) n

/-- `set_empty_in_multi_blocks` 2264-2401. -/
def setEmptyMulti (row endRow i1 i2 : Nat) (ow : Bool) : M α Nat := do
  let h ← emptyHead row i1 ow
  let t ← emptyTail endRow i2 ow
  emptyMid ow (h.2 + 1) (t.2 - h.2 - 1)
  delB (h.2 + 1) (t.2 - h.2 - 1)
  let b ← getB h.2
  match b.data with
  | some _ => do
    insB (h.2 + 1) [⟨h.1, t.1 - h.1 + 1, none⟩]
    M.pure (h.2 + 1)
  | none => do
    setSize h.2 (t.1 - h.1 + 1)
    setPos h.2 h.1
    M.pure h.2

/-- `set_empty_impl` 2142-2183. -/
def setEmptyImpl (row endRow i1 : Nat) (ow : Bool) : M α Nat := do
  if endRow < row then throw_ .outOfRange
  else do
    let i2 ← getBlockPosition endRow i1
    let n ← nBlocks
    if i2 = n then throw_ .outOfRange
    else if i1 = i2 then setEmptySingle row endRow i1 ow
    else setEmptyMulti row endRow i1 i2 ow

/-! ### erase -/

/-- `m_cur_size -= n` (wrapping is `ub`). -/
def shrinkCur (n : Nat) : M α Unit := do
  let c ← curSize
  if n ≤ c then setCurSize (c - n) else ub_

/-- 2503-2511: erase the values from the element block. -/
def eraseData (i off n : Nat) : Option (EB α) → M α Unit
  | none => M.pure ()
  | some _ => do
    overwrite i off n
    eraseVals i off n

/-- The merging part of `erase_in_single_block` 2539-2591. -/
def eraseMerge (i n : Nat) : M α Unit := do
  let pb ← getB (i - 1)
  let nb ← getB i
  match pb.data, nb.data with
  | some _, none => shiftDown i n
  | some d, some e =>
    if d.ty = e.ty then do
      appendBlock (i - 1) i
      addSize (i - 1) nb.size
      shrinkVals i 0
      deleteElementBlock i
      delB i 1
      shiftDown i n
    else shiftDown i n
  | none, some _ => shiftDown i n
  | none, none => do
    addSize (i - 1) nb.size
    deleteElementBlock i
    delB i 1
    shiftDown i n

/-- `erase_in_single_block` 2496-2592. -/
def eraseSingle (row endRow i : Nat) : M α Unit := do
  let b ← getB i
  eraseData i (row - b.pos) (endRow - row + 1) b.data
  subSize i (endRow - row + 1)
  shrinkCur (endRow - row + 1)
  let b' ← getB i
  if b'.size ≠ 0 then shiftDown (i + 1) (endRow - row + 1)
  else do
    deleteElementBlock i
    delB i 1
    if i = 0 then shiftDown i (endRow - row + 1)
    else do
      let n ← nBlocks
      if n ≤ i then M.pure ()
      else eraseMerge i (endRow - row + 1)

/-- First block of `erase_impl` 2426-2449: gives the first slot to erase. -/
def eraseHead (row i1 : Nat) : M α Nat := do
  let b ← getB i1
  if b.pos = row then M.pure i1
  else do
    cutLower i1 (row - b.pos) (b.size - (row - b.pos)) b.data
    setSize i1 (row - b.pos)
    M.pure (i1 + 1)

/-- Last block of `erase_impl` 2453-2475: gives the end of the slots to erase and the
number of further blocks not to move. -/
def eraseTail (row endRow i2 : Nat) : M α (Nat × Nat) := do
  let b ← getB i2
  if b.pos + b.size = endRow + 1 then M.pure (i2 + 1, 0)
  else do
    subSize i2 (endRow - b.pos + 1)
    setPos i2 row
    eraseData i2 0 (endRow - b.pos + 1) b.data
    M.pure (i2, 1)

/-- The several-blocks part of `erase_impl` 2420-2490 up to the last merge: gives the
slot after the erased ones.  On an empty store `shiftDown` has nothing to do, as the early
return of 2484-2485. -/
def eraseBlocks (row endRow i1 i2 : Nat) : M α Nat := do
  let beg ← eraseHead row i1
  let t ← eraseTail row endRow i2
  deleteElementBlocks beg (t.1 - beg)
  delB beg (t.1 - beg)
  shrinkCur (endRow - row + 1)
  shiftDown (beg + t.2) (endRow - row + 1)
  M.pure beg

/-- The several-blocks part of `erase_impl` 2420-2494. -/
def eraseMulti (row endRow i1 i2 : Nat) : M α Unit := do
  let beg ← eraseBlocks row endRow i1 i2
  let n ← nBlocks
  if n = 0 then M.pure ()
  else do
    let _ ← mergeWithNext (beg - 1)
    M.pure ()

/-- `erase_impl` 2403-2494. -/
def eraseImpl (row endRow : Nat) : M α Unit := do
  let i1 ← getBlockPosition row 0
  let n ← nBlocks
  if i1 = n then throw_ .outOfRange
  else do
    let i2 ← getBlockPosition endRow i1
    if i2 = n then throw_ .outOfRange
    else if i1 = i2 then eraseSingle row endRow i1
    else eraseMulti row endRow i1 i2

/-- `erase(start_pos, end_pos)` 1395-1428. -/
def erase (row endRow : Nat) : M α Unit :=
  if endRow < row then throw_ .outOfRange else eraseImpl row endRow

/-! ### insert_empty -/

/-- `insert_empty_impl` 2594-2685. -/
def insertEmptyImpl (pos i length : Nat) : M α Nat := do
  let b ← getB i
  match b.data with
  | none => do
    addSize i length
    growCur length
    shiftUp (i + 1) length
    M.pure i
  | some d =>
    if b.pos = pos then do
      let pv ← isPrevOfType i none
      if pv then do
        addSize (i - 1) length
        growCur length
        shiftUp i length
        M.pure (i - 1)
      else do
        insB i [⟨b.pos, length, none⟩]
        growCur length
        shiftUp (i + 1) length
        M.pure i
    else do
      let sp := pos - b.pos
      let sn := b.size - sp
      insZ (i + 1) 2
      setSize (i + 1) length
      setSize (i + 2) sn
      let e ← newEB d.ty []
      setData (i + 2) (some e)
      acquired e
      if sp > sn then do
        assignFrom (i + 2) i sp sn
        shrinkVals i sp
        setSize i sp
        growCur length
        calcPos (i + 1)
        calcPos (i + 2)
        shiftUp (i + 3) length
        M.pure (i + 1)
      else do
        assignFrom (i + 2) i 0 sp
        setSize (i + 2) sp
        eraseVals i 0 sp
        setSize i sn
        let b' ← getB i
        swapB i (i + 2)
        setPos i b'.pos
        growCur length
        calcPos (i + 1)
        calcPos (i + 2)
        shiftUp (i + 3) length
        M.pure (i + 1)

/-! ### append, resize, clear -/

/-- `push_back_impl` 1234-1268 (`emplace_back_impl` 1270-1306 stores a value built
from the arguments in the same way). -/
def pushBack (ty : Ty) (x : α) : M α Nat := do
  let n ← nBlocks
  let cur ← curSize
  match n with
  | 0 => do
    pushB ⟨cur, 1, none⟩
    createNewBlockWithNewCell 0 ty x
    growCur 1
    M.pure 0
  | j + 1 => do
    let b ← getB j
    if b.ty = some ty then do
      appendVals j ty [x]
      addSize j 1
      growCur 1
      M.pure j
    else do
      pushB ⟨cur, 1, none⟩
      createNewBlockWithNewCell (j + 1) ty x
      growCur 1
      M.pure (j + 1)

/-- `append_empty` 5006-5037: true when a block was added. -/
def appendEmpty (len : Nat) : M α Bool := do
  let n ← nBlocks
  match n with
  | 0 => do
    pushB ⟨0, len, none⟩
    setCurSize len
    M.pure true
  | j + 1 => do
    let b ← getB j
    match b.data with
    | none => do
      addSize j len
      growCur len
      M.pure false
    | some _ => do
      let cur ← curSize
      pushB ⟨cur, len, none⟩
      growCur len
      M.pure true

/-- `push_back_empty` 1105-1123. -/
def pushBackEmpty : M α Nat := do
  let n ← nBlocks
  let added ← appendEmpty 1
  if added then M.pure n else if n = 0 then ub_ else M.pure (n - 1)

/-- `clear` 1508-1533 (container that owns its blocks). -/
def clear : M α Unit := do
  let n ← nBlocks
  deleteElementBlocks 0 n
  delB 0 n
  setCurSize 0

/-- The shrinking of the last kept block in `resize_impl` 5121-5132.  The offset
passed to `overwrite_values` is the logical position `new_end_row + 1`, not the
offset within the block. -/
def resizeCut (newSize i : Nat) : M α Unit := do
  let b ← getB i
  if newSize < b.pos + b.size then
    match b.data with
    | some _ => do
      overwrite i newSize (b.pos + b.size - newSize)
      shrinkVals i (newSize - b.pos)
      setSize i (newSize - b.pos)
    | none => setSize i (newSize - b.pos)
  else M.pure ()

/-- `resize_impl` 5090-5139. -/
def resize (newSize : Nat) : M α Unit := do
  let cur ← curSize
  if newSize = cur then M.pure ()
  else if newSize = 0 then clear
  else if newSize > cur then do
    let _ ← appendEmpty (newSize - cur)
    M.pure ()
  else do
    let i ← getBlockPosition (newSize - 1) 0
    let n ← nBlocks
    if i = n then throw_ .outOfRange
    else do
      resizeCut newSize i
      deleteElementBlocks (i + 1) (n - (i + 1))
      delB (i + 1) (n - (i + 1))
      setCurSize newSize

end Mdds.Mtv
