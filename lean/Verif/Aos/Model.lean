import Verif.Mtv.Api
/-!
# multi_type_vector, array-of-structures layout

Model of `mdds::mtv::aos::multi_type_vector`
(`include/mdds/multi_type_vector/aos/main_def.inl`), function by function; line numbers are those of
that file.  The conventions are those of `Verif.Mtv.Model`, which models the other layout
(`soa/main_def.inl`), and the primitive operations are shared with it: a state is the list of the
`block` records of `m_blocks`, `m_cur_size` and the logs.

* `m_blocks.emplace(pos, position, size)`, `emplace_back`, `insert(pos, n, block())` are `insB`, `pushB`
  and `insZ`; `erase` and `clear` are `delB`.
* A `block*` or `block&` into `m_blocks` is the index of the block.  The code takes every such pointer
  anew after an operation that may move the blocks; a pointer left dangling would not show in the model.
* An assignment to the `position` of a new block that follows its insertion is kept as such; where the
  code computes the position first and hands it to `emplace`, so does the model.
* Tests of the form `end_row == start + size - 1` are written `end_row + 1 = start + size`.
* This layout has no sharing of blocks between copies (`detach`); copies are deep.
* Not modelled: copy, clone and move construction and assignment, iterators other than as block indices,
  `shrink_to_fit`, tracing and debug checks.
-/

namespace Mdds.Aos
open Mdds Mdds.Mtv

variable {α : Type}

/-- `detail::calc_next_block_position` 20-32: where the block after block `i` starts. -/
def nextPos (i : Nat) : M α Nat := do
  let b ← getB i
  M.pure (b.pos + b.size)

/-! ### Helper member functions -/

/-- `delete_element_block` 421-431. -/
def deleteElementBlock (i : Nat) : M α Unit := do
  let b ← getB i
  match b.data with
  | none => M.pure ()
  | some d => do
    released d
    deleteBlock (some d)
    setData i none

/-- `delete_element_blocks` 433-438, on the `n` blocks from `start` on. -/
def deleteElementBlocks (start : Nat) : Nat → M α Unit
  | 0 => M.pure ()
  | n + 1 => do
    deleteElementBlock start
    deleteElementBlocks (start + 1) n

/-- `get_previous_block_of_type` 3440-3453: whether the pointer is not null; the block it points to is
block `i - 1`. -/
def isPrevOfType (i : Nat) (cat : Option Ty) : M α Bool :=
  match i with
  | 0 => M.pure false
  | j + 1 => do let b ← getB j; M.pure (decide (cat = b.ty))

/-- `get_next_block_of_type` 3455-3468; the block is `i + 1`. -/
def isNextOfType (i : Nat) (cat : Option Ty) : M α Bool := do
  let n ← nBlocks
  if i + 1 = n then M.pure false
  else do let b ← getB (i + 1); M.pure (decide (cat = b.ty))

/-- `create_new_block_with_new_cell` 953-970 on the data pointer of block `i` (and
`create_new_block_with_emplace_back` 972-990). -/
def createNewBlockWithNewCell (i : Nat) (ty : Ty) (x : α) : M α Unit := do
  let b ← getB i
  match b.data with
  | some d => do
    released d
    deleteBlock (some d)
    let e ← newEB ty []
    setData i (some e)
    acquired e
    appendVals i ty [x]
  | none => do
    let e ← newEB ty []
    setData i (some e)
    acquired e
    appendVals i ty [x]

/-- `append_cell_to_block` 1004-1010. -/
def appendCellToBlock (i : Nat) (ty : Ty) (x : α) : M α Unit := do
  addSize i 1
  appendVals i ty [x]

/-- `set_new_block_to_middle` 3359-3438; returns the index of the block it gives a reference to. -/
def setNewBlockToMiddle (i offset n : Nat) (doOverwrite : Bool) : M α Nat := do
  let b ← getB i
  if offset + n ≤ b.size then do
    let lower := b.size - offset - n
    insZ (i + 1) 2
    setSize (i + 1) n
    setSize (i + 2) lower
    match b.data with
    | some d => do
      let lowerStart := offset + n
      let e ← newEB d.ty []
      setData (i + 2) (some e)
      acquired e
      if offset > lower then do
        assignFrom (i + 2) i lowerStart lower
        if doOverwrite then overwrite i offset n else M.pure ()
        shrinkVals i offset
        setSize i offset
        setSize (i + 2) lower
        setPos (i + 1) (← nextPos i)
        setPos (i + 2) (← nextPos (i + 1))
        M.pure (i + 1)
      else do
        assignFrom (i + 2) i 0 offset
        setSize (i + 2) offset
        if doOverwrite then overwrite i offset n else M.pure ()
        eraseVals i 0 lowerStart
        setSize i lower
        setSize (i + 2) offset
        let b' ← getB i
        swapB i (i + 2)
        setPos i b'.pos
        setPos (i + 1) (← nextPos i)
        setPos (i + 2) (← nextPos (i + 1))
        M.pure (i + 1)
    | none => do
      setSize i offset
      setPos (i + 1) (← nextPos i)
      setPos (i + 2) (← nextPos (i + 1))
      M.pure (i + 1)
  else ub_

/-- `set_cell_to_middle_of_block` 992-1002. -/
def setCellToMiddle (i off : Nat) (ty : Ty) (x : α) : M α Nat := do
  let j ← setNewBlockToMiddle i off 1 true
  createNewBlockWithNewCell j ty x
  M.pure (i + 1)

/-- `set_cell_to_top_of_data_block` 1521-1538. -/
def setCellToTop (i : Nat) (ty : Ty) (x : α) : M α Unit := do
  subSize i 1
  let b ← getB i
  addPos i 1
  match b.data with
  | some _ => do
    overwrite i 0 1
    eraseVals i 0 1
    insB i [⟨b.pos, 1, none⟩]
    createNewBlockWithNewCell i ty x
  | none => do
    insB i [⟨b.pos, 1, none⟩]
    createNewBlockWithNewCell i ty x

/-- `set_cell_to_bottom_of_data_block` 1540-1555: the position of the new block is computed before it is
put in. -/
def setCellToBottom (i : Nat) (ty : Ty) (x : α) : M α Unit := do
  let b ← getB i
  match b.data with
  | some _ =>
    if 1 ≤ b.size then do
      overwrite i (b.size - 1) 1
      eraseVals i (b.size - 1) 1
      subSize i 1
      let p ← nextPos i
      insB (i + 1) [⟨p, 1, none⟩]
      createNewBlockWithNewCell (i + 1) ty x
    else ub_
  | none => do
    subSize i 1
    let p ← nextPos i
    insB (i + 1) [⟨p, 1, none⟩]
    createNewBlockWithNewCell (i + 1) ty x

/-! ### set (single element) -/

/-- `set_cell_to_empty_block` 1012-1340, `block_index == 0` part 1020-1140. -/
def setCellToEmptyBlockTop (off : Nat) (ty : Ty) (x : α) : M α Nat := do
  let n ← nBlocks
  let b ← getB 0
  if n = 1 then do
    let cur ← curSize
    if cur = 1 then do
      createNewBlockWithNewCell 0 ty x
      M.pure 0
    else if off = 0 then do
      subSize 0 1
      insB 0 [⟨0, 1, none⟩]
      createNewBlockWithNewCell 0 ty x
      setPos 1 1
      M.pure 0
    else if off + 1 = b.size then do
      subSize 0 1
      let b' ← getB 0
      pushB ⟨b'.size, 1, none⟩
      createNewBlockWithNewCell 1 ty x
      let n' ← nBlocks
      M.pure (n' - 1)
    else setCellToMiddle 0 off ty x
  else if off = 0 then
    if b.size = 1 then do
      let nx ← isNextOfType 0 (some ty)
      if nx then do
        deleteElementBlock 0
        delB 0 1
        addSize 0 1
        subPos 0 1
        prependVals 0 ty [x]
        M.pure 0
      else do
        createNewBlockWithNewCell 0 ty x
        M.pure 0
    else do
      subSize 0 1
      setPos 0 1
      insB 0 [⟨0, 1, none⟩]
      createNewBlockWithNewCell 0 ty x
      M.pure 0
  else if off + 1 = b.size then do
    let nx ← isNextOfType 0 (some ty)
    if nx then do
      subSize 0 1
      addSize 1 1
      subPos 1 1
      prependVals 1 ty [x]
      M.pure 1
    else do
      subSize 0 1
      let p ← nextPos 0
      insB 1 [⟨p, 1, none⟩]
      createNewBlockWithNewCell 1 ty x
      M.pure 1
  else setCellToMiddle 0 off ty x

/-- `set_cell_to_empty_block`, the part below a block (`block_index = j + 1`) 1142-1340. -/
def setCellToEmptyBlockBelow (j off : Nat) (ty : Ty) (x : α) : M α Nat := do
  let n ← nBlocks
  let b ← getB (j + 1)
  if off = 0 then do
    let pd ← deref j
    if pd.ty = ty then
      if b.size = 1 then
        if j + 1 + 1 = n then do
          deleteElementBlock (j + 1)
          popB
          appendCellToBlock j ty x
          M.pure j
        else do
          let nx ← isNextOfType (j + 1) (some pd.ty)
          if nx then do
            let pb ← getB j
            let nb ← getB (j + 2)
            if pb.size < nb.size then do
              addSize (j + 2) 1
              prependVals (j + 2) ty [x]
              prependFrom (j + 2) j 0 pb.size
              addSize (j + 2) pb.size
              setPos (j + 2) pb.pos
              shrinkVals j 0
              let pd' ← deref j
              released pd'
              deleteBlock b.data
              deleteBlock (some pd')
              delB j 2
              M.pure j
            else do
              addSize j (1 + nb.size)
              appendVals j ty [x]
              appendBlock j (j + 2)
              shrinkVals (j + 2) 0
              let nd ← deref (j + 2)
              released nd
              deleteBlock b.data
              deleteBlock (some nd)
              delB (j + 1) 2
              M.pure j
          else do
            deleteElementBlock (j + 1)
            delB (j + 1) 1
            appendCellToBlock j ty x
            M.pure j
      else do
        subSize (j + 1) 1
        addPos (j + 1) 1
        appendCellToBlock j ty x
        M.pure j
    else
      if b.size = 1 then
        if j + 1 + 1 = n then do
          createNewBlockWithNewCell (j + 1) ty x
          M.pure (j + 1)
        else do
          let nx ← isNextOfType (j + 1) (some ty)
          if nx then do
            addSize (j + 2) 1
            subPos (j + 2) 1
            prependVals (j + 2) ty [x]
            deleteElementBlock (j + 1)
            delB (j + 1) 1
            M.pure (j + 1)
          else do
            createNewBlockWithNewCell (j + 1) ty x
            M.pure (j + 1)
      else do
        setSize (j + 1) 1
        createNewBlockWithNewCell (j + 1) ty x
        insB (j + 2) [⟨b.pos + 1, b.size - 1, none⟩]
        M.pure (j + 1)
  else if off + 1 = b.size then
    if j + 1 + 1 = n then do
      subSize (j + 1) 1
      let p ← nextPos (j + 1)
      pushB ⟨p, 1, none⟩
      createNewBlockWithNewCell (j + 2) ty x
      let n' ← nBlocks
      M.pure (n' - 1)
    else do
      let nx ← isNextOfType (j + 1) (some ty)
      if nx then do
        subSize (j + 1) 1
        addSize (j + 2) 1
        subPos (j + 2) 1
        prependVals (j + 2) ty [x]
        M.pure (j + 2)
      else do
        subSize (j + 1) 1
        let p ← nextPos (j + 1)
        insB (j + 2) [⟨p, 1, none⟩]
        createNewBlockWithNewCell (j + 2) ty x
        M.pure (j + 2)
  else setCellToMiddle (j + 1) off ty x

/-- `set_cell_to_empty_block` 1012-1340. -/
def setCellToEmptyBlock (i off : Nat) (ty : Ty) (x : α) : M α Nat :=
  match i with
  | 0 => setCellToEmptyBlockTop off ty x
  | j + 1 => setCellToEmptyBlockBelow j off ty x

/-- `set_cell_to_block_of_size_one` 1342-1519. -/
def setCellToSizeOne (i : Nat) (ty : Ty) (x : α) : M α Nat :=
  match i with
  | 0 => do
    let n ← nBlocks
    if 1 = n then do
      createNewBlockWithNewCell 0 ty x
      M.pure 0
    else do
      let nx ← isNextOfType 0 (some ty)
      if !nx then do
        createNewBlockWithNewCell 0 ty x
        M.pure 0
      else do
        addSize 1 1
        subPos 1 1
        prependVals 1 ty [x]
        deleteElementBlock 0
        delB 0 1
        M.pure 0
  | j + 1 => do
    let n ← nBlocks
    if j + 1 + 1 = n then do
      let pb ← getB j
      if pb.ty ≠ some ty then do
        createNewBlockWithNewCell (j + 1) ty x
        let n' ← nBlocks
        M.pure (n' - 1)
      else do
        appendVals j ty [x]
        addSize j 1
        deleteElementBlock (j + 1)
        delB (j + 1) 1
        let n' ← nBlocks
        M.pure (n' - 1)
    else do
      let pb ← getB j
      let nb ← getB (j + 2)
      match pb.data, nb.data with
      | none, none => do
        createNewBlockWithNewCell (j + 1) ty x
        M.pure (j + 1)
      | none, some nd =>
        if nd.ty = ty then do
          deleteElementBlock (j + 1)
          delB (j + 1) 1
          addSize (j + 1) 1
          subPos (j + 1) 1
          prependVals (j + 1) ty [x]
          M.pure (j + 1)
        else do
          createNewBlockWithNewCell (j + 1) ty x
          M.pure (j + 1)
      | some pd, none =>
        if pd.ty = ty then do
          addSize j 1
          appendVals j ty [x]
          deleteElementBlock (j + 1)
          delB (j + 1) 1
          M.pure j
        else do
          createNewBlockWithNewCell (j + 1) ty x
          M.pure (j + 1)
      | some pd, some nd =>
        if pd.ty = nd.ty then
          if pd.ty = ty then do
            addSize j (1 + nb.size)
            appendVals j ty [x]
            appendBlock j (j + 2)
            shrinkVals (j + 2) 0
            deleteElementBlock (j + 1)
            deleteElementBlock (j + 2)
            delB (j + 1) 2
            M.pure j
          else do
            createNewBlockWithNewCell (j + 1) ty x
            M.pure (j + 1)
        else if pd.ty = ty then do
          addSize j 1
          appendVals j ty [x]
          deleteElementBlock (j + 1)
          delB (j + 1) 1
          M.pure j
        else if nd.ty = ty then do
          addSize (j + 2) 1
          subPos (j + 2) 1
          prependVals (j + 2) ty [x]
          deleteElementBlock (j + 1)
          delB (j + 1) 1
          M.pure (j + 1)
        else do
          createNewBlockWithNewCell (j + 1) ty x
          M.pure (j + 1)

/-- Common end of the two last branches of `set_impl`, 538-547 and 569-578. -/
def setAtEndIntoNext (i : Nat) (ty : Ty) (x : α) : M α Nat := do
  let b ← getB i
  overwrite i (b.size - 1) 1
  eraseVals i (b.size - 1) 1
  subSize i 1
  prependVals (i + 1) ty [x]
  addSize (i + 1) 1
  subPos (i + 1) 1
  M.pure (i + 1)

/-- `set_impl` 440-579. -/
def setImpl (pos i : Nat) (ty : Ty) (x : α) : M α Nat := do
  let b ← getB i
  if b.pos ≤ pos then
    let off := pos - b.pos
    match b.data with
    | none => setCellToEmptyBlock i off ty x
    | some d =>
      if d.ty = ty then do
        overwrite i off 1
        setVals i off ty [x]
        M.pure i
      else if pos = b.pos then
        if b.size = 1 then setCellToSizeOne i ty x
        else do
          let pv ← isPrevOfType i (some ty)
          if pv then do
            subSize i 1
            addPos i 1
            overwrite i 0 1
            eraseVals i 0 1
            addSize (i - 1) 1
            appendVals (i - 1) ty [x]
            M.pure (i - 1)
          else do
            setCellToTop i ty x
            M.pure i
      else if pos + 1 < b.pos + b.size then setCellToMiddle i off ty x
      else do
        let n ← nBlocks
        if i = 0 then
          if n = 1 then do
            setCellToBottom 0 ty x
            let n' ← nBlocks
            M.pure (n' - 1)
          else do
            let nx ← isNextOfType i (some ty)
            if !nx then do
              setCellToBottom 0 ty x
              M.pure 1
            else setAtEndIntoNext i ty x
        else if i + 1 = n then do
          setCellToBottom i ty x
          let n' ← nBlocks
          M.pure (n' - 1)
        else do
          let nx ← isNextOfType i (some ty)
          if !nx then do
            setCellToBottom i ty x
            M.pure (i + 1)
          else setAtEndIntoNext i ty x
  else ub_

/-! ### Block lookup -/

/-- `std::lower_bound` over the blocks from `start` on with `compare_blocks` 34-38 (the positions are
compared), as a linear search. -/
def lowerBound (bs : List (Blk α)) (row : Nat) : Nat := bs.findIdx (fun b => decide (row ≤ b.pos))

/-- The search part of `get_block_position` 900-915. -/
def searchFrom (row start : Nat) : M α Nat := fun s =>
  let k := lowerBound (s.blocks.drop start) row
  match (s.blocks.drop start)[k]? with
  | some b =>
    if b.pos ≠ row then
      if k = 0 then .ub else .ok (k - 1 + start, s)
    else .ok (k + start, s)
  | none => if k = 0 then .ub else .ok (k - 1 + start, s)

/-- `get_block_position(row, start_block_index)` 893-916. -/
def getBlockPosition (row start : Nat) : M α Nat := do
  let cur ← curSize
  let n ← nBlocks
  if row ≥ cur ∨ start ≥ n then M.pure n else searchFrom row start

/-- The backward walk of the look-up with a hint 933-943. -/
def walkBack (row : Nat) : Nat → M α (Option Nat)
  | 0 => M.pure none
  | i + 1 => do
    let b ← getB i
    if row ≥ b.pos then M.pure (some i) else walkBack row i

/-- `get_block_position(pos_data, row)` 918-951; `hint` is `none` when the iterator belongs to another
container. -/
def getBlockPositionHint (hint : Option Nat) (row : Nat) : M α Nat := do
  let n ← nBlocks
  let bi := match hint with
    | some h => if h < n then h else 0
    | none => 0
  let b ← getB bi
  if row < b.pos then
    if row > b.pos / 2 then do
      let r ← walkBack row bi
      match r with
      | some i => M.pure i
      | none => getBlockPosition row 0
    else getBlockPosition row 0
  else getBlockPosition row bi

/-! ### Merging -/

/-- `merge_with_next_block` 4213-4253. -/
def mergeWithNext (i : Nat) : M α Bool := do
  let n ← nBlocks
  if n ≤ i + 1 then M.pure false
  else do
    let b ← getB i
    let nb ← getB (i + 1)
    match b.data, nb.data with
    | none, none => do
      addSize i nb.size
      delB (i + 1) 1
      M.pure true
    | none, some _ => M.pure false
    | some _, none => M.pure false
    | some d, some e =>
      if d.ty = e.ty then do
        appendBlock i (i + 1)
        shrinkVals (i + 1) 0
        addSize i nb.size
        deleteElementBlock (i + 1)
        delB (i + 1) 1
        M.pure true
      else M.pure false

/-- `merge_with_adjacent_blocks` 4118-4211. -/
def mergeWithAdjacent (i : Nat) : M α Nat :=
  match i with
  | 0 => do
    let _ ← mergeWithNext 0
    M.pure 0
  | j + 1 => do
    let pb ← getB j
    let b ← getB (j + 1)
    let n ← nBlocks
    let nx ← (if j + 1 < n - 1 then do
        let nb ← getB (j + 2)
        M.pure (some nb)
      else M.pure none)
    match pb.data with
    | some p =>
      if b.ty ≠ some p.ty then do
        let _ ← mergeWithNext (j + 1)
        M.pure 0
      else
        match nx with
        | some nb =>
          if nb.ty = some p.ty then do
            addSize j (b.size + nb.size)
            appendBlock j (j + 1)
            appendBlock j (j + 2)
            shrinkVals (j + 1) 0
            shrinkVals (j + 2) 0
            deleteElementBlock (j + 1)
            deleteElementBlock (j + 2)
            delB (j + 1) 2
            M.pure pb.size
          else do
            let _ ← mergeWithNext j
            M.pure pb.size
        | none => do
          let _ ← mergeWithNext j
          M.pure pb.size
    | none =>
      match b.data with
      | some _ => do
        let _ ← mergeWithNext (j + 1)
        M.pure 0
      | none =>
        match nx with
        | some nb =>
          if nb.ty = none then do
            addSize j (b.size + nb.size)
            delB (j + 1) 2
            M.pure pb.size
          else do
            let _ ← mergeWithNext j
            M.pure pb.size
        | none => do
          let _ ← mergeWithNext j
          M.pure pb.size

/-! ### set (range of values) -/

/-- `append_to_prev_block` 4255-4268. -/
def appendToPrev (i : Nat) (ty : Ty) (length : Nat) (vs : List α) : M α Bool := do
  let pv ← isPrevOfType i (some ty)
  if pv then do
    appendVals (i - 1) ty vs
    addSize (i - 1) length
    M.pure true
  else M.pure false

/-- A new element block in block `i`, filled with the input, as in 3759-3761, 3846-3848, 3857-3859,
3869-3871 and others. -/
def newBlockAt (i : Nat) (ty : Ty) (vs : List α) : M α Unit := do
  let e ← newEB ty []
  setData i (some e)
  acquired e
  assignVals i ty vs

/-- 3753-3757: release and delete the old element block, if any. -/
def dropOld : Option (EB α) → M α Unit
  | none => M.pure ()
  | some d => do
    released d
    deleteBlock (some d)

/-- 3772-3792: replace the element block by one that holds only its lower part (no events). -/
def keepLower (i pos length : Nat) : Option (EB α) → M α Unit
  | none => M.pure ()
  | some d => do
    let e ← newEB d.ty []
    let vs ← rangeOf i pos length d.ty
    overwrite i 0 pos
    shrinkVals i 0
    let d' ← deref i
    deleteBlock (some d')
    setData i (some { e with vals := vs })

/-- 3821-3825, 3948-3953, 2879-2884: cut the lower part of the element block off. -/
def cutLower (i newSize length : Nat) : Option (EB α) → M α Unit
  | none => M.pure ()
  | some _ => do
    overwrite i newSize length
    shrinkVals i newSize

/-- `set_cells_to_single_block` 3708-3874. -/
def setCellsSingle (row endRow i : Nat) (ty : Ty) (vs : List α) : M α Nat := do
  let b ← getB i
  if b.ty = some ty then do
    overwrite i (row - b.pos) vs.length
    if row - b.pos = 0 ∧ vs.length = b.size then do
      assignVals i ty vs
      M.pure i
    else do
      setVals i (row - b.pos) ty vs
      M.pure i
  else if row = b.pos then
    if endRow + 1 = b.pos + b.size then do
      let ap ← appendToPrev i ty (endRow - row + 1) vs
      if ap then do
        deleteElementBlock i
        delB i 1
        let _ ← mergeWithNext (i - 1)
        M.pure (i - 1)
      else do
        dropOld b.data
        newBlockAt i ty vs
        let _ ← mergeWithNext i
        M.pure i
    else do
      setSize i (b.pos + b.size - 1 - endRow)
      keepLower i (endRow - b.pos + 1) (b.pos + b.size - 1 - endRow) b.data
      let ap ← appendToPrev i ty (endRow - row + 1) vs
      if ap then do
        addPos i (endRow - row + 1)
        M.pure (i - 1)
      else do
        let b' ← getB i
        addPos i (endRow - row + 1)
        insB i [⟨b'.pos, endRow - row + 1, none⟩]
        let e ← newEB ty []
        setData i (some e)
        acquired e
        setSize i (endRow - row + 1)
        assignVals i ty vs
        M.pure i
  else if endRow + 1 = b.pos + b.size then do
    setSize i (row - b.pos)
    cutLower i (row - b.pos) vs.length b.data
    let n ← nBlocks
    if i + 1 < n then do
      let nx ← isNextOfType i (some ty)
      if nx then do
        prependVals (i + 1) ty vs
        addSize (i + 1) (endRow - row + 1)
        subPos (i + 1) (endRow - row + 1)
        M.pure (i + 1)
      else do
        let p ← nextPos i
        insB (i + 1) [⟨p, endRow - row + 1, none⟩]
        newBlockAt (i + 1) ty vs
        M.pure (i + 1)
    else do
      let cur ← curSize
      if endRow - row + 1 ≤ cur then do
        pushB ⟨cur - (endRow - row + 1), endRow - row + 1, none⟩
        newBlockAt (i + 1) ty vs
        M.pure (i + 1)
      else ub_
  else do
    let j ← setNewBlockToMiddle i (row - b.pos) (endRow - row + 1) true
    newBlockAt j ty vs
    M.pure j

/-- First part of `set_cells_to_multi_blocks_block1_non_equal` 3905-3964: the data block, which is not in
`m_blocks` yet, its element block and the first block to erase. -/
def multiHead (row i1 : Nat) (ty : Ty) (vs : List α) : M α (Blk α × EB α × Nat) := do
  let b1 ← getB i1
  if row - b1.pos = 0 then
    match i1 with
    | 0 => do
      let e ← newEB ty vs
      acquired e
      M.pure (⟨row, vs.length, none⟩, e, 0)
    | j + 1 => do
      let b0 ← getB j
      match b0.data with
      | some d =>
        if ty = d.ty then do
          setData j none
          M.pure (⟨b0.pos, vs.length + b0.size, none⟩, { d with vals := d.vals ++ vs }, j)
        else do
          let e ← newEB ty vs
          acquired e
          M.pure (⟨row, vs.length, none⟩, e, j + 1)
      | none => do
        let e ← newEB ty vs
        acquired e
        M.pure (⟨row, vs.length, none⟩, e, j + 1)
  else do
    cutLower i1 (row - b1.pos) (b1.size - (row - b1.pos)) b1.data
    setSize i1 (row - b1.pos)
    let e ← newEB ty vs
    acquired e
    M.pure (⟨row, vs.length, none⟩, e, i1 + 1)

/-- 4010-4018: erase the upper part of block 2. -/
def eraseUpper (i n : Nat) : Option (EB α) → M α Unit
  | none => do
    subSize i n
    addPos i n
  | some _ => do
    overwrite i 0 n
    eraseVals i 0 n
    subSize i n
    addPos i n

/-- Second part 3966-4020: blocks 2 and 3; gives what is added to the data block and the end of the
blocks to erase. -/
def multiTail (endRow i2 : Nat) (ty : Ty) : M α (Nat × List α × Nat) := do
  let b2 ← getB i2
  if endRow + 1 = b2.pos + b2.size then do
    let n ← nBlocks
    if i2 + 1 < n then do
      let b3 ← getB (i2 + 1)
      match b3.data with
      | some d =>
        if d.ty = ty then do
          shrinkVals (i2 + 1) 0
          M.pure (b3.size, d.vals, i2 + 2)
        else M.pure (0, [], i2 + 1)
      | none => M.pure (0, [], i2 + 1)
    else M.pure (0, [], i2 + 1)
  else
    if b2.ty = some ty then do
      let copyPos := endRow - b2.pos + 1
      let n := b2.pos + b2.size - 1 - endRow
      let vs ← rangeOf i2 copyPos n ty
      shrinkVals i2 copyPos
      M.pure (n, vs, i2 + 1)
    else do
      eraseUpper i2 (endRow - b2.pos + 1) b2.data
      M.pure (0, [], i2)

/-- `set_cells_to_multi_blocks_block1_non_equal` 3899-4032. -/
def setCellsMultiNonEqual (row endRow i1 i2 : Nat) (ty : Ty) (vs : List α) : M α Nat := do
  let h ← multiHead row i1 ty vs
  let t ← multiTail endRow i2 ty
  deleteElementBlocks h.2.2 (t.2.2 - h.2.2)
  delB h.2.2 (t.2.2 - h.2.2)
  insB h.2.2 [⟨h.1.pos, h.1.size + t.1, some { h.2.1 with vals := h.2.1.vals ++ t.2.1 }⟩]
  M.pure h.2.2

/-- 4067-4104: block 2 when block 1 has the type of the input; gives the end of the blocks to erase. -/
def multiTailEqual (endRow i1 i2 : Nat) (ty : Ty) : M α Nat := do
  let b2 ← getB i2
  if endRow + 1 = b2.pos + b2.size then M.pure (i2 + 1)
  else
    match b2.data with
    | some d =>
      if d.ty = ty then do
        let len := b2.pos + b2.size - 1 - endRow
        let beg := endRow - b2.pos + 1
        appendFrom i1 i2 beg len
        overwrite i2 0 beg
        shrinkVals i2 0
        addSize i1 len
        M.pure (i2 + 1)
      else do
        eraseVals i2 0 (endRow - b2.pos + 1)
        subSize i2 (endRow - b2.pos + 1)
        addPos i2 (endRow - b2.pos + 1)
        M.pure i2
    | none => do
      subSize i2 (endRow - b2.pos + 1)
      addPos i2 (endRow - b2.pos + 1)
      M.pure i2

/-- `set_cells_to_multi_blocks` 3876-3897 and `set_cells_to_multi_blocks_block1_non_empty` 4034-4116. -/
def setCellsMulti (row endRow i1 i2 : Nat) (ty : Ty) (vs : List α) : M α Nat := do
  let b1 ← getB i1
  if b1.ty = some ty then do
    overwrite i1 (row - b1.pos) (b1.size - (row - b1.pos))
    shrinkVals i1 (row - b1.pos)
    appendVals i1 ty vs
    setSize i1 (row - b1.pos + vs.length)
    let e ← multiTailEqual endRow i1 i2 ty
    deleteElementBlocks (i1 + 1) (e - (i1 + 1))
    delB (i1 + 1) (e - (i1 + 1))
    M.pure i1
  else setCellsMultiNonEqual row endRow i1 i2 ty vs

/-- `set_cells_impl` 3195-3212. -/
def setCellsImpl (row endRow i1 : Nat) (ty : Ty) (vs : List α) : M α Nat := do
  let i2 ← getBlockPosition endRow i1
  let n ← nBlocks
  if i2 = n then throw_ .outOfRange
  else if i1 = i2 then setCellsSingle row endRow i1 ty vs
  else setCellsMulti row endRow i1 i2 ty vs

/-! ### insert (range of values) -/

/-- The last part of `insert_cells_to_middle` 3341-3354. -/
def moveLower (i offset n2 : Nat) : Option (EB α) → M α Unit
  | none => M.pure ()
  | some d => do
    let e ← newEB d.ty []
    setData (i + 2) (some e)
    acquired e
    assignFrom (i + 2) i offset n2
    shrinkVals i offset

/-- `insert_cells_to_middle` 3314-3357. -/
def insertCellsToMiddle (row i : Nat) (ty : Ty) (vs : List α) : M α Unit := do
  let b ← getB i
  insZ (i + 1) 2
  setSize i (row - b.pos)
  setSize (i + 1) vs.length
  setPos (i + 1) (← nextPos i)
  setSize (i + 2) (b.size - (row - b.pos))
  setPos (i + 2) (← nextPos (i + 1))
  newBlockAt (i + 1) ty vs
  moveLower i (row - b.pos) (b.size - (row - b.pos)) b.data
  shiftUp (i + 3) vs.length

/-- `m_cur_size += n`. -/
def growCur (n : Nat) : M α Unit := do
  let c ← curSize
  setCurSize (c + n)

/-- 3237-3243 and 3286-3292: append the input to the previous block. -/
def insertIntoPrev (i : Nat) (ty : Ty) (vs : List α) : M α Nat := do
  appendVals (i - 1) ty vs
  addSize (i - 1) vs.length
  growCur vs.length
  shiftUp i vs.length
  M.pure (i - 1)

/-- `insert_cells_impl` 3214-3312.  Unlike the other layout (finding M1) the acquired event of 3299 names
the new block. -/
def insertCellsImpl (row i : Nat) (ty : Ty) (vs : List α) : M α Nat := do
  let b ← getB i
  let n ← nBlocks
  if vs.length = 0 then M.pure n
  else
    match b.data with
    | none =>
      if row = b.pos then do
        let pv ← isPrevOfType i (some ty)
        if pv then insertIntoPrev i ty vs
        else do
          insB i [⟨b.pos, vs.length, none⟩]
          newBlockAt i ty vs
          growCur vs.length
          shiftUp (i + 1) vs.length
          M.pure i
      else do
        insertCellsToMiddle row i ty vs
        growCur vs.length
        M.pure (i + 1)
    | some d =>
      if ty = d.ty then do
        insertVals i (row - b.pos) ty vs
        addSize i vs.length
        growCur vs.length
        shiftUp (i + 1) vs.length
        M.pure i
      else if row = b.pos then do
        let pv ← isPrevOfType i (some ty)
        if pv then insertIntoPrev i ty vs
        else do
          insB i [⟨b.pos, vs.length, none⟩]
          let e ← newEB ty []
          setData i (some e)
          acquired e
          assignVals i ty vs
          setSize i vs.length
          growCur vs.length
          shiftUp (i + 1) vs.length
          M.pure i
      else do
        insertCellsToMiddle row i ty vs
        growCur vs.length
        M.pure (i + 1)

/-! ### set_empty -/

/-- `if (overwrite) overwrite_values(...)`. -/
def overwriteIf (ow : Bool) (i off len : Nat) : M α Unit :=
  if ow then overwrite i off len else M.pure ()

/-- `if (!overwrite) resize_block(*data, 0)`, for a block that may be empty. -/
def forgetIf (ow : Bool) (i : Nat) : Option (EB α) → M α Unit
  | none => M.pure ()
  | some _ => if ow then M.pure () else shrinkVals i 0

/-- `set_whole_block_empty` 4541-4601. -/
def setWholeBlockEmpty (i : Nat) (ow : Bool) : M α Nat := do
  let b ← getB i
  forgetIf ow i b.data
  deleteElementBlock i
  let pv ← isPrevOfType i none
  let nx ← isNextOfType i none
  if pv then
    if nx then do
      let b' ← getB i
      let nb ← getB (i + 1)
      addSize (i - 1) (b'.size + nb.size)
      delB i 2
      M.pure (i - 1)
    else do
      let b' ← getB i
      addSize (i - 1) b'.size
      delB i 1
      M.pure (i - 1)
  else if nx then do
    let nb ← getB (i + 1)
    addSize i nb.size
    delB (i + 1) 1
    M.pure i
  else M.pure i

/-- `set_empty_in_single_block` 4603-4682. -/
def setEmptySingle (row endRow i : Nat) (ow : Bool) : M α Nat := do
  let b ← getB i
  match b.data with
  | none => M.pure i
  | some _ =>
    let sz := endRow - row + 1
    if row = b.pos then
      if endRow + 1 = b.pos + b.size then setWholeBlockEmpty i ow
      else do
        overwriteIf ow i 0 sz
        eraseVals i 0 sz
        subSize i sz
        let pv ← isPrevOfType i none
        if pv then do
          addSize (i - 1) sz
          addPos i sz
          M.pure (i - 1)
        else do
          addPos i sz
          insB i [⟨b.pos, sz, none⟩]
          M.pure i
    else if endRow + 1 = b.pos + b.size then do
      overwriteIf ow i (row - b.pos) sz
      eraseVals i (row - b.pos) sz
      subSize i sz
      let nx ← isNextOfType i none
      if nx then do
        addSize (i + 1) sz
        setPos (i + 1) row
        M.pure (i + 1)
      else do
        insB (i + 1) [⟨row, sz, none⟩]
        M.pure (i + 1)
    else do
      let _ ← setNewBlockToMiddle i (row - b.pos) sz ow
      M.pure (i + 1)

/-- First block of `set_empty_in_multi_blocks` 4692-4745: gives the adjusted start row and first block
index. -/
def emptyHead (row i1 : Nat) (ow : Bool) : M α (Nat × Nat) := do
  let b ← getB i1
  match b.data with
  | none => M.pure (b.pos, i1)
  | some _ =>
    if b.pos = row then do
      let blkPrev ← (match i1 with
        | 0 => M.pure none
        | j + 1 => do
          let pb ← getB j
          M.pure (if pb.data.isSome then none else some pb))
      match blkPrev with
      | some pb => if pb.size ≤ row then M.pure (row - pb.size, i1 - 1) else ub_
      | none => do
        forgetIf ow i1 b.data
        deleteElementBlock i1
        M.pure (row, i1)
    else do
      overwriteIf ow i1 (row - b.pos) (b.size - (row - b.pos))
      shrinkVals i1 (row - b.pos)
      setSize i1 (row - b.pos)
      M.pure (row, i1)

/-- Last block 4747-4796: gives the adjusted end row and the end of the blocks to erase. -/
def emptyTail (endRow i2 : Nat) (ow : Bool) : M α (Nat × Nat) := do
  let b ← getB i2
  match b.data with
  | none => M.pure (b.pos + b.size - 1, i2 + 1)
  | some _ =>
    if b.pos + b.size = endRow + 1 then do
      let n ← nBlocks
      let blkNext ← (if i2 + 1 < n then do
          let nb ← getB (i2 + 1)
          M.pure (if nb.data.isSome then none else some nb)
        else M.pure none)
      match blkNext with
      | some nb => M.pure (endRow + nb.size, i2 + 2)
      | none => M.pure (endRow, i2 + 1)
    else do
      overwriteIf ow i2 0 (endRow - b.pos + 1)
      eraseVals i2 0 (endRow - b.pos + 1)
      subSize i2 (endRow - b.pos + 1)
      setPos i2 (b.pos + (endRow - b.pos + 1))
      M.pure (endRow, i2)

/-- The loop 4802-4809. -/
def emptyMid (ow : Bool) (i : Nat) : Nat → M α Unit
  | 0 => M.pure ()
  | n + 1 => do
    let b ← getB i
    forgetIf ow i b.data
    deleteElementBlock i
    emptyMid ow (i + 1) n

/-- `set_empty_in_multi_blocks` 4684-4829.  The block position of 4690 is read after the first block is
dealt with; nothing before that changes it. -/
def setEmptyMulti (row endRow i1 i2 : Nat) (ow : Bool) : M α Nat := do
  let h ← emptyHead row i1 ow
  let t ← emptyTail endRow i2 ow
  emptyMid ow (h.2 + 1) (t.2 - h.2 - 1)
  delB (h.2 + 1) (t.2 - h.2 - 1)
  let b ← getB h.2
  match b.data with
  | some _ => do
    insB (h.2 + 1) [⟨h.1, t.1 - h.1 + 1, none⟩]
    M.pure (h.2 + 1)
  | none => do
    setSize h.2 (t.1 - h.1 + 1)
    setPos h.2 h.1
    M.pure h.2

/-- `set_empty_impl` 2348-2389. -/
def setEmptyImpl (row endRow i1 : Nat) (ow : Bool) : M α Nat := do
  if endRow < row then throw_ .outOfRange
  else do
    let i2 ← getBlockPosition endRow i1
    let n ← nBlocks
    if i2 = n then throw_ .outOfRange
    else if i1 = i2 then setEmptySingle row endRow i1 ow
    else setEmptyMulti row endRow i1 i2 ow

/-! ### erase -/

/-- `m_cur_size -= n` (wrapping is `ub`). -/
def shrinkCur (n : Nat) : M α Unit := do
  let c ← curSize
  if n ≤ c then setCurSize (c - n) else ub_

/-- 2939-2945: erase the values from the element block. -/
def eraseData (i off n : Nat) : Option (EB α) → M α Unit
  | none => M.pure ()
  | some _ => do
    overwrite i off n
    eraseVals i off n

/-- The merging part of `erase_in_single_block` 2973-3017. -/
def eraseMerge (i n : Nat) : M α Unit := do
  let pb ← getB (i - 1)
  let nb ← getB i
  match pb.data, nb.data with
  | some _, none => shiftDown i n
  | some d, some e =>
    if d.ty = e.ty then do
      appendBlock (i - 1) i
      addSize (i - 1) nb.size
      shrinkVals i 0
      deleteElementBlock i
      delB i 1
      shiftDown i n
    else shiftDown i n
  | none, some _ => shiftDown i n
  | none, none => do
    addSize (i - 1) nb.size
    deleteElementBlock i
    delB i 1
    shiftDown i n

/-- `erase_in_single_block` 2933-3018. -/
def eraseSingle (row endRow i : Nat) : M α Unit := do
  let b ← getB i
  eraseData i (row - b.pos) (endRow - row + 1) b.data
  subSize i (endRow - row + 1)
  shrinkCur (endRow - row + 1)
  let b' ← getB i
  if b'.size ≠ 0 then shiftDown (i + 1) (endRow - row + 1)
  else do
    deleteElementBlock i
    delB i 1
    if i = 0 then shiftDown i (endRow - row + 1)
    else do
      let n ← nBlocks
      if n ≤ i then M.pure ()
      else eraseMerge i (endRow - row + 1)

/-- First block of `erase_impl` 2864-2886: gives the first block to erase. -/
def eraseHead (row i1 : Nat) : M α Nat := do
  let b ← getB i1
  if b.pos = row then M.pure i1
  else do
    cutLower i1 (row - b.pos) (b.size - (row - b.pos)) b.data
    setSize i1 (row - b.pos)
    M.pure (i1 + 1)

/-- Last block of `erase_impl` 2888-2911: gives the end of the blocks to erase and the number of further
blocks not to move. -/
def eraseTail (row endRow i2 : Nat) : M α (Nat × Nat) := do
  let b ← getB i2
  if b.pos + b.size = endRow + 1 then M.pure (i2 + 1, 0)
  else do
    subSize i2 (endRow - b.pos + 1)
    setPos i2 row
    eraseData i2 0 (endRow - b.pos + 1) b.data
    M.pure (i2, 1)

/-- The several-blocks part of `erase_impl` up to the last merge 2862-2929.  On an empty store `shiftDown`
has nothing to do, as the early return of 2924-2925. -/
def eraseBlocks (row endRow i1 i2 : Nat) : M α Nat := do
  let beg ← eraseHead row i1
  let t ← eraseTail row endRow i2
  deleteElementBlocks beg (t.1 - beg)
  delB beg (t.1 - beg)
  shrinkCur (endRow - row + 1)
  shiftDown (beg + t.2) (endRow - row + 1)
  M.pure beg

/-- The several-blocks part of `erase_impl` 2862-2931. -/
def eraseMulti (row endRow i1 i2 : Nat) : M α Unit := do
  let beg ← eraseBlocks row endRow i1 i2
  let n ← nBlocks
  if n = 0 then M.pure ()
  else do
    let _ ← mergeWithNext (beg - 1)
    M.pure ()

/-- `erase_impl` 2836-2931. -/
def eraseImpl (row endRow : Nat) : M α Unit := do
  let i1 ← getBlockPosition row 0
  let n ← nBlocks
  if i1 = n then throw_ .outOfRange
  else do
    let i2 ← getBlockPosition endRow i1
    if i2 = n then throw_ .outOfRange
    else if i1 = i2 then eraseSingle row endRow i1
    else eraseMulti row endRow i1 i2

/-- `erase(start_pos, end_pos)` 2804-2834. -/
def erase (row endRow : Nat) : M α Unit :=
  if endRow < row then throw_ .outOfRange else eraseImpl row endRow

/-! ### insert_empty -/

/-- `insert_empty_impl` 3099-3193. -/
def insertEmptyImpl (pos i length : Nat) : M α Nat := do
  let b ← getB i
  match b.data with
  | none => do
    addSize i length
    growCur length
    shiftUp (i + 1) length
    M.pure i
  | some d =>
    if b.pos = pos then do
      let pv ← isPrevOfType i none
      if pv then do
        addSize (i - 1) length
        growCur length
        shiftUp i length
        M.pure (i - 1)
      else do
        insB i [⟨b.pos, length, none⟩]
        growCur length
        shiftUp (i + 1) length
        M.pure i
    else do
      let sp := pos - b.pos
      let sn := b.size - sp
      insZ (i + 1) 2
      setSize (i + 1) length
      setSize (i + 2) sn
      let e ← newEB d.ty []
      setData (i + 2) (some e)
      acquired e
      if sp > sn then do
        assignFrom (i + 2) i sp sn
        shrinkVals i sp
        setSize i sp
        growCur length
        setPos (i + 1) (← nextPos i)
        setPos (i + 2) (← nextPos (i + 1))
        shiftUp (i + 3) length
        M.pure (i + 1)
      else do
        assignFrom (i + 2) i 0 sp
        setSize (i + 2) sp
        eraseVals i 0 sp
        setSize i sn
        let b' ← getB i
        swapB i (i + 2)
        setPos i b'.pos
        growCur length
        setPos (i + 1) (← nextPos i)
        setPos (i + 2) (← nextPos (i + 1))
        shiftUp (i + 3) length
        M.pure (i + 1)

/-! ### append, resize, clear -/

/-- `push_back_impl` 726-759 (`emplace_back_impl` 761-795 stores a value built from the arguments in the
same way). -/
def pushBack (ty : Ty) (x : α) : M α Nat := do
  let n ← nBlocks
  let cur ← curSize
  match n with
  | 0 => do
    pushB ⟨cur, 1, none⟩
    createNewBlockWithNewCell 0 ty x
    growCur 1
    M.pure 0
  | j + 1 => do
    let b ← getB j
    if b.ty = some ty then do
      appendVals j ty [x]
      addSize j 1
      growCur 1
      M.pure j
    else do
      pushB ⟨cur, 1, none⟩
      createNewBlockWithNewCell (j + 1) ty x
      growCur 1
      M.pure (j + 1)

/-- `append_empty` 3631-3662: true when a block was added. -/
def appendEmpty (len : Nat) : M α Bool := do
  let n ← nBlocks
  match n with
  | 0 => do
    pushB ⟨0, len, none⟩
    setCurSize len
    M.pure true
  | j + 1 => do
    let b ← getB j
    match b.data with
    | none => do
      addSize j len
      growCur len
      M.pure false
    | some _ => do
      let cur ← curSize
      pushB ⟨cur, len, none⟩
      growCur len
      M.pure true

/-- `push_back_empty` 797-813. -/
def pushBackEmpty : M α Nat := do
  let n ← nBlocks
  let added ← appendEmpty 1
  if added then M.pure n else if n = 0 then ub_ else M.pure (n - 1)

/-- `clear` 4270-4276. -/
def clear : M α Unit := do
  let n ← nBlocks
  deleteElementBlocks 0 n
  delB 0 n
  setCurSize 0

/-- The shrinking of the last kept block in `resize_impl` 4353-4367; the offset given to
`overwrite_values` is the position `new_end_row + 1` here too (finding M4). -/
def resizeCut (newSize i : Nat) : M α Unit := do
  let b ← getB i
  if newSize < b.pos + b.size then
    match b.data with
    | some _ => do
      overwrite i newSize (b.pos + b.size - newSize)
      shrinkVals i (newSize - b.pos)
      setSize i (newSize - b.pos)
    | none => setSize i (newSize - b.pos)
  else M.pure ()

/-- `resize_impl` 4325-4374. -/
def resize (newSize : Nat) : M α Unit := do
  let cur ← curSize
  if newSize = cur then M.pure ()
  else if newSize = 0 then clear
  else if newSize > cur then do
    let _ ← appendEmpty (newSize - cur)
    M.pure ()
  else do
    let i ← getBlockPosition (newSize - 1) 0
    let n ← nBlocks
    if i = n then throw_ .outOfRange
    else do
      resizeCut newSize i
      deleteElementBlocks (i + 1) (n - (i + 1))
      delB (i + 1) (n - (i + 1))
      setCurSize newSize

/-! ### Public calls -/

/-- `get_block_position(pos)` or `get_block_position(pos_hint->__private_data, pos)`. -/
def lookup : At → Nat → M α Nat
  | none, pos => getBlockPosition pos 0
  | some h, pos => getBlockPositionHint h pos

/-- `set(pos, value)` 348-382 and the hinted 384-419. -/
def set (h : At) (pos : Nat) (ty : Ty) (x : α) : M α Nat := do
  let i ← lookup h pos
  let n ← nBlocks
  if i = n then throw_ .outOfRange
  else setImpl pos i ty x

/-- `set(pos, it_begin, it_end)` 605-647 and the hinted 649-662, which does not check the found block
index. -/
def setRange (h : At) (pos : Nat) (ty : Ty) (vs : List α) : M α Nat := do
  let cur ← curSize
  let n ← nBlocks
  if vs.length = 0 then M.pure n
  else if cur ≤ pos + vs.length - 1 then throw_ .outOfRange
  else do
    let i ← lookup h pos
    if h = none ∧ i = n then throw_ .outOfRange
    else setCellsImpl pos (pos + vs.length - 1) i ty vs

/-- `insert(pos, it_begin, it_end)` 815-852 and the hinted 854-891. -/
def insert (h : At) (pos : Nat) (ty : Ty) (vs : List α) : M α Nat := do
  let i ← lookup h pos
  let n ← nBlocks
  if i = n then throw_ .outOfRange
  else insertCellsImpl pos i ty vs

/-- `set_empty(start_pos, end_pos)` 1889-1899 and the hinted 1901-1911. -/
def setEmpty (h : At) (row endRow : Nat) : M α Nat := do
  let i ← lookup h row
  let n ← nBlocks
  if i = n then throw_ .outOfRange
  else setEmptyImpl row endRow i true

/-- `release_range(start_pos, end_pos)` 1650-1660 and the hinted 1662-1672. -/
def releaseRange (h : At) (row endRow : Nat) : M α Nat := do
  let i ← lookup h row
  let n ← nBlocks
  if i = n then throw_ .outOfRange
  else setEmptyImpl row endRow i false

/-- `insert_empty(pos, length)` 3020-3057 and the hinted 3059-3097. -/
def insertEmpty (h : At) (pos length : Nat) : M α Nat := do
  let n ← nBlocks
  if length = 0 then M.pure n
  else do
    let i ← lookup h pos
    if i = n then throw_ .outOfRange
    else insertEmptyImpl pos i length

/-- `release_impl` 581-603. -/
def releaseImpl (pos i : Nat) (ty : Ty) : M α (Option α × Nat) := do
  let b ← getB i
  match b.data with
  | none => M.pure (none, i)
  | some d => do
    let v ← getValue d (pos - b.pos) ty
    let r ← setEmptySingle pos pos i false
    M.pure (some v, r)

/-- `release(pos)` 1592-1604, `release(pos, value)` 1606-1616 and the hinted 1618-1629. -/
def release (h : At) (pos : Nat) (ty : Ty) : M α (Option α × Nat) := do
  let i ← lookup h pos
  let n ← nBlocks
  if i = n then throw_ .outOfRange
  else releaseImpl pos i ty

/-- One block of the loop in `release()` 1637-1643; the pointer is not reset. -/
def releaseBlock (i : Nat) : M α Unit := do
  let b ← getB i
  match b.data with
  | none => M.pure ()
  | some _ => do
    shrinkVals i 0
    let d ← deref i
    released d
    deleteBlock (some d)

/-- The loop 1634-1644. -/
def releaseBlocks (start : Nat) : Nat → M α Unit
  | 0 => M.pure ()
  | n + 1 => do
    releaseBlock start
    releaseBlocks (start + 1) n

/-- `release()` 1631-1648. -/
def releaseAll : M α Unit := do
  let n ← nBlocks
  releaseBlocks 0 n
  delB 0 n
  setCurSize 0

/-- `get(pos)` / `get(pos, value)` 1557-1590. -/
def get (pos : Nat) (ty : Ty) : M α (Option α) := do
  let i ← getBlockPosition pos 0
  let n ← nBlocks
  if i = n then throw_ .outOfRange
  else do
    let b ← getB i
    match b.data with
    | none => M.pure none
    | some d => do
      let v ← getValue d (pos - b.pos) ty
      M.pure (some v)

/-- `get_type(pos)` 1863-1876. -/
def getType (pos : Nat) : M α (Option Ty) := do
  let i ← getBlockPosition pos 0
  let n ← nBlocks
  if i = n then throw_ .outOfRange
  else do
    let b ← getB i
    M.pure b.ty

/-- `is_empty(pos)` 1878-1887. -/
def isEmpty (pos : Nat) : M α Bool := do
  let i ← getBlockPosition pos 0
  let n ← nBlocks
  if i = n then throw_ .outOfRange
  else do
    let b ← getB i
    M.pure b.data.isNone

/-- `position(pos)` 1674-1693, 1716-1737 and the hinted 1695-1714, 1739-1758. -/
def position (h : At) (pos : Nat) : M α (Nat × Nat) := do
  let cur ← curSize
  let n ← nBlocks
  if pos = cur then M.pure (n, 0)
  else do
    let i ← lookup h pos
    if i = n then throw_ .outOfRange
    else do
      let b ← getB i
      M.pure (i, pos - b.pos)

/-- `next_position(pos)` 70-86, 95-112. -/
def nextPosition (p : Nat × Nat) : M α (Nat × Nat) := do
  let b ← getB p.1
  if p.2 + 1 < b.size then M.pure (p.1, p.2 + 1) else M.pure (p.1 + 1, 0)

/-- `logical_position(pos)` 121-126. -/
def logicalPosition (p : Nat × Nat) : M α Nat := do
  let b ← getB p.1
  M.pure (b.pos + p.2)

/-- `get<_Blk>(pos)` 128-133. -/
def getAt (p : Nat × Nat) (ty : Ty) : M α α := do
  let b ← getB p.1
  match b.data with
  | none => ub_
  | some d => getValue d p.2 ty

/-- The loop of `operator==` 4479-4512: sizes, and element blocks where there are any; positions are not
compared. -/
def equalsLoop [DecidableEq α] : List (Blk α) → List (Blk α) → Bool
  | b :: bs, c :: cs =>
    if b.size ≠ c.size then false
    else
      match b.data, c.data with
      | some d, some e => if d.ty = e.ty ∧ d.vals = e.vals then equalsLoop bs cs else false
      | none, none => equalsLoop bs cs
      | _, _ => false
  | _, _ => true

/-- `operator==` 4464-4515 on two different containers (a container equals itself, 4467-4469). -/
def equals [DecidableEq α] (s t : St α) : Bool :=
  if s.blocks.length ≠ t.blocks.length then false
  else if s.cur ≠ t.cur then false
  else equalsLoop s.blocks t.blocks

/-! ### Construction -/

/-- Default constructor 219-229. -/
def mk0 : St α := ⟨[], 0, [], [], 0⟩

/-- `multi_type_vector(init_size)` 231-239. -/
def mkSize (n : Nat) : St α := if n = 0 then mk0 else ⟨[⟨0, n, none⟩], n, [], [], 0⟩

/-- `multi_type_vector(init_size, it_begin, it_end)` 254-270 (throws `invalid_arg_error` when the lengths
differ); with `List.replicate n x` this is the constructor 241-252 from one value. -/
def mkRange (n : Nat) (ty : Ty) (vs : List α) : Outcome (St α) :=
  if n = 0 then .ok mk0
  else if n ≠ vs.length then .err .invalidArg
  else .ok ⟨[⟨0, n, some ⟨0, ty, vs⟩⟩], n, [], [.acq 0], 1⟩

/-- The destructor 336-340: `delete_element_blocks` over all blocks. -/
def destroy : M α Unit := do
  let n ← nBlocks
  deleteElementBlocks 0 n

end Mdds.Aos
