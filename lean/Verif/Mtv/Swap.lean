import Verif.Mtv.Transfer
/-!
# multi_type_vector: exchanging element ranges of two containers

`swap(start_pos, end_pos, other, other_pos)` and `swap(other)` of `soa/main_def.inl`.  The two
containers are different objects and both own their blocks (`detach_impl` does nothing).  Line
numbers are those of `include/mdds/multi_type_vector/soa/main_def.inl`.

Element blocks travel between the containers as values (`EB`, or a list of slots for
`blocks_type`): the local variables and smart pointers of the code that hold a block which
belongs to neither container.  A block that is emptied (`resize_block(.., 0)`) before its smart
pointer destroys it leaves no trace.
-/

namespace Mdds.Mtv

variable {α : Type}

/-- `exchange_elements` for a range within one block, 4811-4960, on the container that gives its
elements away.  `vs` are the `len` values of type `ty` that the code reads from
`src_data[src_offset, src_offset + len)`; that block is not changed here, so reading them first
makes no difference.  Callers pass a block with data (the code asserts it). -/
def exchangeOne (ty : Ty) (vs : List α) (j off len : Nat) : M α (EB α) := do
  let b ← getB j
  let d ← deref j
  let blkNext ← isNextOfType j (some ty)
  if off = 0 then do
    let blkPrev ← isPrevOfType j (some ty)
    if b.size = len then do
      released d
      setData j none
      if blkPrev then do
        appendVals (j - 1) ty vs
        addSize (j - 1) len
        if blkNext then do
          appendBlock (j - 1) (j + 1)
          let nb ← getB (j + 1)
          addSize (j - 1) nb.size
          deleteElementBlock (j + 1)
          delB j 2
          M.pure d
        else do
          delB j 1
          M.pure d
      else if blkNext then do
        prependVals (j + 1) ty vs
        subPos (j + 1) len
        addSize (j + 1) len
        delB j 1
        M.pure d
      else do
        newBlockAt j ty vs
        M.pure d
    else do
      let ws ← rangeOf j 0 len d.ty
      let data ← newEB d.ty ws
      eraseVals j 0 len
      addPos j len
      subSize j len
      if blkPrev then do
        appendVals (j - 1) ty vs
        addSize (j - 1) len
        M.pure data
      else do
        insB j [⟨b.pos, len, none⟩]
        newBlockAt j ty vs
        M.pure data
  else do
    let ws ← rangeOf j off len d.ty
    let data ← newEB d.ty ws
    if off + len = b.size then do
      shrinkVals j off
      setSize j off
      if blkNext then do
        prependVals (j + 1) ty vs
        subPos (j + 1) len
        addSize (j + 1) len
        M.pure data
      else do
        insB (j + 1) [⟨b.pos + off, len, none⟩]
        newBlockAt (j + 1) ty vs
        M.pure data
    else do
      let k ← setNewBlockToMiddle j off len false
      newBlockAt k ty vs
      M.pure data

/-- 1824-1887, the container's own side of `swap_single_block` after the exchange, when only a
part of block `i` is replaced by `data`. -/
def takeIn (i off len tail : Nat) (data : EB α) : M α Unit := do
  if off = 0 then do
    eraseVals i 0 len
    addPos i len
    subSize i len
    let blkPrev ← isPrevOfType i (some data.ty)
    if blkPrev then do
      appendVals (i - 1) data.ty data.vals
      addSize (i - 1) len
    else do
      let b ← getB i
      insB i [⟨b.pos - len, len, none⟩]
      receive i data
  else if tail = 0 then do
    shrinkVals i off
    setSize i off
    let blkNext ← isNextOfType i (some data.ty)
    if blkNext then
      if len ≤ data.vals.length then do
        prependVals (i + 1) data.ty (data.vals.take len)
        addSize (i + 1) len
        subPos (i + 1) len
      else ub_
    else do
      insB (i + 1) [⟨0, len, none⟩]
      calcPos (i + 1)
      receive (i + 1) data
  else do
    let k ← setNewBlockToMiddle i off len false
    receive k data

/-- `swap_single_block` 1748-1887. -/
def swapSingle (a e dpos i j : Nat) : M2 α Unit := do
  let b ← onSrc (getB i)
  let c ← onDst (getB j)
  let len := e - a + 1
  let off := a - b.pos
  let doff := dpos - c.pos
  let tail := b.size - off - len
  match b.data, c.data with
  | none, none => M2.pure ()
  | none, some _ => do
    let _ ← flipM (transferSingle dpos (dpos + e - a) j a)
    M2.pure ()
  | some _, none => do
    let _ ← transferSingle a e i dpos
    M2.pure ()
  | some d, some f =>
    if d.ty = f.ty then do
      -- block_funcs::swap_values
      let vs ← onSrc (rangeOf i off len d.ty)
      let ws ← onDst (rangeOf j doff len d.ty)
      onSrc (setVals i off d.ty ws)
      onDst (setVals j doff d.ty vs)
    else do
      let vs ← onSrc (rangeOf i off len d.ty)
      if off = 0 ∧ tail = 0 then do
        onSrc (released d)
        let data ← onDst (exchangeOne d.ty vs j doff len)
        onSrc (receive i data)
        let _ ← onSrc (mergeWithAdjacent i)
        M2.pure ()
      else do
        let data ← onDst (exchangeOne d.ty vs j doff len)
        onSrc (takeIn i off len tail data)

/-- 2768-2775: the `n` slots from `i` on, whose blocks leave the container. -/
def collect : Nat → Nat → M α (List (Blk α))
  | _, 0 => M.pure []
  | i, n + 1 => do
    let b ← getB i
    (match b.data with
    | some d => released d
    | none => M.pure ())
    let bs ← collect (i + 1) n
    M.pure (b :: bs)

/-- 2719-2737: the part of block `i` from `off` on, copied out. -/
def copyLower (i off : Nat) : M α (Blk α) := do
  let b ← getB i
  let n := b.size - off
  match b.data with
  | some d => do
    let vs ← rangeOf i off n d.ty
    let f ← newEB d.ty vs
    shrinkVals i off
    setSize i off
    M.pure ⟨0, n, some f⟩
  | none => do
    setSize i off
    M.pure ⟨0, n, none⟩

/-- 2743-2761: the first `n` elements of block `i`, copied out. -/
def copyUpper (i n : Nat) : M α (Blk α) := do
  let b ← getB i
  match b.data with
  | some d => do
    let vs ← rangeOf i 0 n d.ty
    let f ← newEB d.ty vs
    eraseVals i 0 n
    addPos i n
    subSize i n
    M.pure ⟨0, n, some f⟩
  | none => do
    addPos i n
    subSize i n
    M.pure ⟨0, n, none⟩

/-- `prepare_blocks_to_transfer` 2698-2781: takes the range from offset `off1` of block `i1` to
offset `off2` of block `i2` out of the container.  Gives the index where it was and the blocks.
`bucket.insert_index` is `index_begin` in both cases; the `block_first`, `block_last` that are
made have a size (`off1` is inside its block), so the tests of their sizes say whether they were
made. -/
def prepare (i1 off1 i2 off2 : Nat) : M α (Nat × List (Blk α)) := do
  let first ← (if off1 = 0 then M.pure [] else do
    let f ← copyLower i1 off1
    M.pure [f])
  let b2 ← getB i2
  let last ← (if off2 = b2.size - 1 then M.pure [] else do
    let f ← copyUpper i2 (off2 + 1)
    M.pure [f])
  let beg := if off1 = 0 then i1 else i1 + 1
  let end_ := if off2 = b2.size - 1 then i2 + 1 else i2
  let mid ← collect beg (end_ - beg)
  delB beg (end_ - beg)
  M.pure (beg, first ++ (mid ++ last))

/-- 2684-2693: consecutive positions for the blocks, and one event for each that has data. -/
def layOut : Nat → List (Blk α) → M α (List (Blk α))
  | _, [] => M.pure []
  | position, b :: bs => do
    (match b.data with
    | some d => acquired d
    | none => M.pure ())
    let rest ← layOut (position + b.size) bs
    M.pure (⟨position, b.size, b.data⟩ :: rest)

/-- `insert_blocks_at` 2681-2697. -/
def insertBlocksAt (position i : Nat) (bs : List (Blk α)) : M α Unit := do
  let bs ← layOut position bs
  insB i bs

/-- `exchange_elements` for a range over several blocks, 4963-4995; `vs` as in `exchangeOne`. -/
def exchangeMany (ty : Ty) (vs : List α) (j1 off1 j2 off2 len : Nat) : M α (List (Blk α)) := do
  let bucket ← prepare j1 off1 j2 off2
  insB bucket.1 [⟨0, len, none⟩]
  if bucket.1 > 0 then calcPos bucket.1 else M.pure ()
  newBlockAt bucket.1 ty vs
  let _ ← mergeWithAdjacent bucket.1
  M.pure bucket.2

/-- The blocks put in before index `i`, and the boundaries merged (1951-1954, 1984-1986,
2018-2023, 2031-2036). -/
def placeBlocks (position i : Nat) (bs : List (Blk α)) : M α Unit := do
  insertBlocksAt position i bs
  let _ ← mergeWithNext (i + bs.length - 1)
  if i > 0 then do
    let _ ← mergeWithNext (i - 1)
    M.pure ()
  else M.pure ()

/-- `swap_single_to_multi_blocks` 1889-1987. -/
def swapSingleMulti (a e dpos i j1 j2 : Nat) : M2 α Unit := do
  let b ← onSrc (getB i)
  let c1 ← onDst (getB j1)
  let c2 ← onDst (getB j2)
  let len := e - a + 1
  match b.data with
  | none => do
    let _ ← flipM (transferMulti dpos (dpos + len - 1) j1 j2 a)
    M2.pure ()
  | some d => do
    let off := a - b.pos
    let doff1 := dpos - c1.pos
    let doff2 := dpos + len - 1 - c2.pos
    let tail := b.size - off - len
    let vs ← onSrc (rangeOf i off len d.ty)
    let bs ← onDst (exchangeMany d.ty vs j1 doff1 j2 doff2 len)
    if bs = [] then throw2 .general
    else if off = 0 then do
      (if tail = 0 then onSrc (do
          shrinkVals i 0
          deleteElementBlock i
          delB i 1)
        else onSrc (do
          eraseVals i 0 len
          subSize i len
          addPos i len))
      onSrc (placeBlocks b.pos i bs)
    else do
      (if tail = 0 then onSrc (do
          shrinkVals i off
          setSize i off)
        else onSrc (do
          let _ ← setNewBlockToMiddle i off len false
          deleteElementBlock (i + 1)
          delB (i + 1) 1))
      let b' ← onSrc (getB i)
      onSrc (placeBlocks (b'.pos + b'.size) (i + 1) bs)

/-- End of block `i - 1`, where the blocks go (2012-2017, 2025-2030). -/
def gapPosition (i : Nat) : M α Nat :=
  match i with
  | 0 => M.pure 0
  | k + 1 => do
    let b ← getB k
    M.pure (b.pos + b.size)

/-- `swap_multi_to_multi_blocks` 1989-2037. -/
def swapMultiMulti (a e dpos i1 i2 j1 j2 : Nat) : M2 α Unit := do
  let b1 ← onSrc (getB i1)
  let b2 ← onSrc (getB i2)
  let c1 ← onDst (getB j1)
  let c2 ← onDst (getB j2)
  let len := e - a + 1
  let src ← onSrc (prepare i1 (a - b1.pos) i2 (e - b2.pos))
  let dst ← onDst (prepare j1 (dpos - c1.pos) j2 (dpos + len - 1 - c2.pos))
  let p ← onSrc (gapPosition src.1)
  onSrc (placeBlocks p src.1 dst.2)
  let q ← onDst (gapPosition dst.1)
  onDst (placeBlocks q dst.1 src.2)

/-- `swap_impl` 1713-1747. -/
def swapImpl (a e dpos i1 i2 j1 j2 : Nat) : M2 α Unit :=
  if i1 = i2 then
    if j1 = j2 then swapSingle a e dpos i1 j1
    else swapSingleMulti a e dpos i1 j1 j2
  else if j1 = j2 then flipM (swapSingleMulti dpos (dpos + (e - a + 1) - 1) a j1 i1 i2)
  else swapMultiMulti a e dpos i1 i2 j1 j2

/-- `swap(start_pos, end_pos, other, other_pos)` 5438-5505.  The sum that gives the end of the
range in `other` does not wrap in the model; in the code a wrapped sum passes the comparison with
the size, and the look-up of `other_pos` then throws the same exception. -/
def swapRange (a e dpos : Nat) : M2 α Unit := do
  if a > e then throw2 .outOfRange
  else do
    let n ← onSrc curSize
    let m ← onDst curSize
    if e ≥ n ∨ dpos + e - a ≥ m then throw2 .outOfRange
    else do
      let i1 ← onSrc (getBlockPosition a 0)
      let k ← onSrc nBlocks
      if i1 = k then throw2 .outOfRange
      else do
        let i2 ← onSrc (getBlockPosition e i1)
        if i2 = k then throw2 .outOfRange
        else do
          let j1 ← onDst (getBlockPosition dpos 0)
          let l ← onDst nBlocks
          if j1 = l then throw2 .outOfRange
          else do
            let j2 ← onDst (getBlockPosition (dpos + e - a) j1)
            if j2 = l then throw2 .outOfRange
            else swapImpl a e dpos i1 i2 j1 j2

/-- `swap(other)` 5427-5436: sizes, block stores and event handlers change places.  The
destroyed objects are counted for both containers together, so the record of them may stay or
move; it moves here with the handler. -/
def swapAll : M2 α Unit := fun s t => .ok () t s

end Mdds.Mtv
