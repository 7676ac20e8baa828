import Verif.Aos.Model
import Verif.Mtv.Swap
/-!
# multi_type_vector, array-of-structures layout: two containers

`transfer` and `swap` of `include/mdds/multi_type_vector/aos/main_def.inl`; line numbers are those of that
file.  The conventions are those of `Verif.Mtv.Transfer` and `Verif.Mtv.Swap`.
-/

namespace Mdds.Aos
open Mdds Mdds.Mtv

variable {α : Type}

/-! ### transfer -/

/-- 1967-2018: make a block of size `len` at `dpos` in the empty block `j` of the destination. -/
def slotFor (j dpos len : Nat) : M α Nat := do
  let b ← getB j
  let off := dpos - b.pos
  if off = 0 then
    if len < b.size then do
      addPos j len
      subSize j len
      insB j [⟨b.pos, len, none⟩]
      M.pure j
    else M.pure j
  else if off + len - 1 = b.size - 1 then do
    subSize j len
    let p ← nextPos j
    insB (j + 1) [⟨p, len, none⟩]
    M.pure (j + 1)
  else do
    insZ (j + 1) 2
    setSize j off
    setSize (j + 1) len
    setSize (j + 2) (b.size - off - len)
    setPos (j + 1) (← nextPos j)
    setPos (j + 2) (← nextPos (j + 1))
    M.pure (j + 1)

/-- Put an element block into block `j` and tell the event handler. -/
def receive (j : Nat) (d : EB α) : M α Unit := do
  setData j (some d)
  acquired d

/-- Tell the event handler that an element block leaves, and forget the pointer. -/
def handOver (i : Nat) (d : EB α) : M α Unit := do
  released d
  setData i none

/-- `transfer_single_block` 1946-2053. -/
def transferSingle (a e i1 dpos : Nat) : M2 α Nat := do
  let len := e - a + 1
  let b1 ← onSrc (getB i1)
  let r ← onDst (setEmpty none dpos (dpos + len - 1))
  match b1.data with
  | none => M2.pure i1
  | some d => do
    let j ← onDst (slotFor r dpos len)
    let off := a - b1.pos
    if off = 0 ∧ len = b1.size then do
      onDst (receive j d)
      onSrc (handOver i1 d)
      let _ ← onDst (mergeWithAdjacent j)
      let o ← onSrc (mergeWithAdjacent i1)
      M2.pure (if o = 0 then i1 else i1 - 1)
    else do
      let vs ← onSrc (rangeOf i1 off len d.ty)
      onDst (newBlockAt j d.ty vs)
      let _ ← onDst (mergeWithAdjacent j)
      onSrc (setEmptySingle a e i1 false)

/-- 2072-2129: make `n` blocks of size zero for `len` elements at `dpos` in the empty block `j` of the
destination; gives the index of the first one. -/
def slotsFor (j dpos len n : Nat) : M α Nat := do
  let b ← getB j
  let off := dpos - b.pos
  if off = 0 then
    if len < b.size then do
      subSize j len
      addPos j len
      insZ j n
      M.pure j
    else do
      deleteElementBlock j
      setSize j 0
      if n > 1 then do
        insZ j (n - 1)
        M.pure j
      else M.pure j
  else if off + len - 1 = b.size - 1 then do
    insZ (j + 1) n
    subSize j len
    M.pure (j + 1)
  else do
    insZ (j + 1) (n + 1)
    setSize j off
    let p ← nextPos j
    setPos (j + n + 1) (p + len)
    setSize (j + n + 1) (b.size - off - len)
    M.pure (j + 1)

/-- `dest.m_blocks[j] = blk` and the position of 2169-2171, 2240-2242 (`index > 0 ? ... : 0`). -/
def placeCopy (j : Nat) (b : Blk α) : M α Unit := do
  putB j b
  match j with
  | 0 => setPos 0 0
  | k + 1 => do
    let p ← nextPos k
    setPos (k + 1) p

/-- The element block of block `i` of the source, already copied to the destination, leaves (2173-2178,
2198-2203, 2244-2249). -/
def movePointer (i : Nat) : Option (EB α) → M2 α Unit
  | none => M2.pure ()
  | some d => do
    onDst (acquired d)
    onSrc (handOver i d)

/-- 2135-2181: the first block.  Gives whether the block stays in the source. -/
def moveFirst (a i1 j : Nat) : M2 α Bool := do
  let b ← onSrc (getB i1)
  let off := a - b.pos
  if off = 0 then do
    onDst (placeCopy j b)
    movePointer i1 b.data
    onSrc (setSize i1 0)
    M2.pure false
  else do
    onDst (do
      setSize j (b.size - off)
      match j with
      | 0 => M.pure ()
      | k + 1 => do
        let p ← nextPos k
        setPos (k + 1) p)
    (match b.data with
    | none => M2.pure ()
    | some d => do
      let vs ← onSrc (rangeOf i1 off (b.size - off) d.ty)
      onDst (newBlockAt j d.ty vs)
      onSrc (shrinkVals i1 off))
    onSrc (setSize i1 off)
    M2.pure true

/-- 2183-2205: `n` whole blocks from `i` on, to the blocks from `j` on. -/
def moveMid : Nat → Nat → Nat → Nat → M2 α Unit
  | _, _, 0, _ => M2.pure ()
  | i, j, n + 1, position => do
    let b ← onSrc (getB i)
    onDst (do
      putB j b
      setPos j position)
    onSrc (setSize i 0)
    movePointer i b.data
    moveMid (i + 1) (j + 1) n (position + b.size)

/-- 2207-2252: the last block.  Gives whether the block stays in the source. -/
def moveLast (e i2 j : Nat) : M2 α Bool := do
  let b ← onSrc (getB i2)
  let k := e - b.pos + 1
  if k < b.size then do
    onDst (do
      (match j with
      | 0 => ub_
      | l + 1 => do
        let p ← nextPos l
        setPos (l + 1) p)
      setSize j k)
    (match b.data with
    | none => M2.pure ()
    | some d => do
      let vs ← onSrc (rangeOf i2 0 k d.ty)
      onDst (newBlockAt j d.ty vs)
      onSrc (eraseVals i2 0 k))
    onSrc (do
      addPos i2 k
      subSize i2 k)
    M2.pure true
  else do
    onDst (placeCopy j b)
    movePointer i2 b.data
    onSrc (setSize i2 0)
    M2.pure false

/-- 2297-2345: the blocks `del1` to `del2` hold nothing any more; replace them with one empty block of size
`len`. -/
def fillGap (del1 del2 len : Nat) : M α Nat := do
  let prevEmpty ← (match del1 with
    | 0 => M.pure false
    | k + 1 => do
      let b ← getB k
      M.pure (b.data.isNone))
  let del1 ← (if prevEmpty then do
      addSize (del1 - 1) len
      M.pure del1
    else do
      setSize del1 len
      M.pure (del1 + 1))
  if del2 ≥ del1 then delB del1 (del2 - del1 + 1) else M.pure ()
  let _ ← mergeWithAdjacent (del1 - 1)
  (match del1 - 1 with
  | 0 => setPos 0 0
  | k + 1 => do
    let p ← nextPos k
    setPos (k + 1) p)
  M.pure (del1 - 1)

/-- 2260-2345: close the gap in the source; `keep1`, `keep2` tell whether the first and the last block
stay. -/
def closeGap (i1 i2 len : Nat) (keep1 keep2 : Bool) : M α Nat := do
  let del1 := if keep1 then i1 + 1 else i1
  let del2 := if keep2 then i2 - 1 else i2
  if del2 < del1 then do
    let b1 ← getB i1
    let b2 ← getB i2
    match b1.data, b2.data with
    | none, _ => do
      addSize i1 len
      M.pure i1
    | some _, none => do
      addSize i2 len
      subPos i2 len
      M.pure i2
    | some _, some _ => do
      let p ← nextPos i1
      insB i2 [⟨p, len, none⟩]
      M.pure i2
  else fillGap del1 del2 len

/-- `transfer_multi_blocks` 2055-2346. -/
def transferMulti (a e i1 i2 dpos : Nat) : M2 α Nat := do
  let len := e - a + 1
  let n := i2 - i1 + 1
  let r ← onDst (setEmpty none dpos (dpos + len - 1))
  let j ← onDst (slotsFor r dpos len n)
  let keep1 ← moveFirst a i1 j
  let position ← onDst (nextPos j)
  moveMid (i1 + 1) (j + 1) (n - 2) position
  let keep2 ← moveLast e i2 (j + n - 1)
  onDst (do
    let _ ← mergeWithAdjacent (j + n - 1)
    let _ ← mergeWithAdjacent j
    M.pure ())
  onSrc (closeGap i1 i2 len keep1 keep2)

/-- `transfer_impl` 1913-1944. -/
def transferImpl (a e i1 dpos : Nat) : M2 α Nat := do
  if a > e then throw2 .outOfRange
  else do
    let i2 ← onSrc (getBlockPosition e i1)
    let n ← onSrc nBlocks
    if i2 = n then throw2 .outOfRange
    else do
      let len := e - a + 1
      let dsize ← onDst curSize
      if dpos + len - 1 ≥ dsize then throw2 .outOfRange
      else if i1 = i2 then transferSingle a e i1 dpos
      else transferMulti a e i1 i2 dpos

/-- `transfer(start_pos, end_pos, dest, dest_pos)` 1760-1811 and the hinted 1813-1861, on two different
containers. -/
def transfer (h : At) (a e dpos : Nat) : M2 α Nat := do
  let i1 ← onSrc (lookup h a)
  let n ← onSrc nBlocks
  if i1 = n then throw2 .outOfRange
  else transferImpl a e i1 dpos

/-- `transfer` with the container itself as the destination.  The overload without a hint throws (1764-1765);
the hinted one (1813-1861) has no such test and goes on with `transfer_impl` 1913-1944 and
`transfer_single_block` 1946-1963 on one and the same object.  Only the way to the return of 1963 is modelled, and
only when `set_empty` leaves the number of blocks as it was (else the pointer of 1954 may dangle); `none` stands for
everything else. -/
def transferSelf (h : At) (a e dpos : Nat) : M α (Option Nat) :=
  match h with
  | none => throw_ .invalidArg
  | some hint => do
    let i1 ← getBlockPositionHint hint a
    let n ← nBlocks
    if i1 = n then throw_ .outOfRange
    else if a > e then throw_ .outOfRange
    else do
      let i2 ← getBlockPosition e i1
      let cur ← curSize
      if i2 = n then throw_ .outOfRange
      else if dpos + (e - a + 1) - 1 ≥ cur then throw_ .outOfRange
      else if i1 = i2 then do
        let _ ← setEmpty none dpos (dpos + (e - a + 1) - 1)
        let n' ← nBlocks
        if n' ≠ n then M.pure none
        else do
          let b ← getB i1
          match b.data with
          | none => M.pure (some i1)
          | some _ => M.pure none
      else M.pure none

/-! ### swap -/

/-- `exchange_elements` for a range within one block, 3470-3629, on the container that gives its elements away;
`vs` are the values the code reads from `src_data`.  Callers pass a block with data. -/
def exchangeOne (ty : Ty) (vs : List α) (j off len : Nat) : M α (EB α) := do
  let b ← getB j
  let d ← deref j
  let blkNext ← isNextOfType j (some ty)
  if off = 0 then do
    let blkPrev ← isPrevOfType j (some ty)
    if b.size = len then do
      released d
      setData j none
      if blkPrev then do
        appendVals (j - 1) ty vs
        addSize (j - 1) len
        if blkNext then do
          appendBlock (j - 1) (j + 1)
          let nb ← getB (j + 1)
          addSize (j - 1) nb.size
          deleteElementBlock (j + 1)
          delB j 2
          M.pure d
        else do
          delB j 1
          M.pure d
      else if blkNext then do
        prependVals (j + 1) ty vs
        subPos (j + 1) len
        addSize (j + 1) len
        delB j 1
        M.pure d
      else do
        newBlockAt j ty vs
        M.pure d
    else do
      let ws ← rangeOf j 0 len d.ty
      let data ← newEB d.ty ws
      eraseVals j 0 len
      addPos j len
      subSize j len
      if blkPrev then do
        appendVals (j - 1) ty vs
        addSize (j - 1) len
        M.pure data
      else do
        insB j [⟨b.pos, len, none⟩]
        newBlockAt j ty vs
        M.pure data
  else do
    let ws ← rangeOf j off len d.ty
    let data ← newEB d.ty ws
    if off + len = b.size then do
      shrinkVals j off
      setSize j off
      if blkNext then do
        prependVals (j + 1) ty vs
        subPos (j + 1) len
        addSize (j + 1) len
        M.pure data
      else do
        insB (j + 1) [⟨b.pos + off, len, none⟩]
        newBlockAt (j + 1) ty vs
        M.pure data
    else do
      let k ← setNewBlockToMiddle j off len false
      newBlockAt k ty vs
      M.pure data

/-- 2498-2563, the container's own side of `swap_single_block` after the exchange, when only a part of
block `i` is replaced by `data`. -/
def takeIn (i off len tail : Nat) (data : EB α) : M α Unit := do
  if off = 0 then do
    eraseVals i 0 len
    addPos i len
    subSize i len
    let blkPrev ← isPrevOfType i (some data.ty)
    if blkPrev then do
      appendVals (i - 1) data.ty data.vals
      addSize (i - 1) len
    else do
      let b ← getB i
      insB i [⟨b.pos - len, len, none⟩]
      receive i data
  else if tail = 0 then do
    shrinkVals i off
    setSize i off
    let blkNext ← isNextOfType i (some data.ty)
    if blkNext then
      if len ≤ data.vals.length then do
        prependVals (i + 1) data.ty (data.vals.take len)
        addSize (i + 1) len
        subPos (i + 1) len
      else ub_
    else do
      let p ← nextPos i
      insB (i + 1) [⟨p, len, none⟩]
      receive (i + 1) data
  else do
    let k ← setNewBlockToMiddle i off len false
    receive k data

/-- `swap_single_block` 2426-2564. -/
def swapSingle (a e dpos i j : Nat) : M2 α Unit := do
  let b ← onSrc (getB i)
  let c ← onDst (getB j)
  let len := e - a + 1
  let off := a - b.pos
  let doff := dpos - c.pos
  let tail := b.size - off - len
  match b.data, c.data with
  | none, none => M2.pure ()
  | none, some _ => do
    let _ ← flipM (transferSingle dpos (dpos + e - a) j a)
    M2.pure ()
  | some _, none => do
    let _ ← transferSingle a e i dpos
    M2.pure ()
  | some d, some f =>
    if d.ty = f.ty then do
      -- block_funcs::swap_values
      let vs ← onSrc (rangeOf i off len d.ty)
      let ws ← onDst (rangeOf j doff len d.ty)
      onSrc (setVals i off d.ty ws)
      onDst (setVals j doff d.ty vs)
    else do
      let vs ← onSrc (rangeOf i off len d.ty)
      if off = 0 ∧ tail = 0 then do
        onSrc (released d)
        let data ← onDst (exchangeOne d.ty vs j doff len)
        onSrc (receive i data)
        let _ ← onSrc (mergeWithAdjacent i)
        M2.pure ()
      else do
        let data ← onDst (exchangeOne d.ty vs j doff len)
        onSrc (takeIn i off len tail data)

/-- 2791-2795: the `n` blocks from `i` on, which leave the container. -/
def collect : Nat → Nat → M α (List (Blk α))
  | _, 0 => M.pure []
  | i, n + 1 => do
    let b ← getB i
    (match b.data with
    | some d => released d
    | none => M.pure ())
    let bs ← collect (i + 1) n
    M.pure (b :: bs)

/-- 2747-2760: the part of block `i` from `off` on, copied out. -/
def copyLower (i off : Nat) : M α (Blk α) := do
  let b ← getB i
  let n := b.size - off
  match b.data with
  | some d => do
    let vs ← rangeOf i off n d.ty
    let f ← newEB d.ty vs
    shrinkVals i off
    setSize i off
    M.pure ⟨0, n, some f⟩
  | none => do
    setSize i off
    M.pure ⟨0, n, none⟩

/-- 2771-2784: the first `n` elements of block `i`, copied out. -/
def copyUpper (i n : Nat) : M α (Blk α) := do
  let b ← getB i
  match b.data with
  | some d => do
    let vs ← rangeOf i 0 n d.ty
    let f ← newEB d.ty vs
    eraseVals i 0 n
    addPos i n
    subSize i n
    M.pure ⟨0, n, some f⟩
  | none => do
    addPos i n
    subSize i n
    M.pure ⟨0, n, none⟩

/-- `prepare_blocks_to_transfer` 2722-2802: takes the range from offset `off1` of block `i1` to offset
`off2` of block `i2` out of the container; gives the index where it was and the blocks. -/
def prepare (i1 off1 i2 off2 : Nat) : M α (Nat × List (Blk α)) := do
  let first ← (if off1 = 0 then M.pure [] else do
    let f ← copyLower i1 off1
    M.pure [f])
  let b2 ← getB i2
  let last ← (if off2 = b2.size - 1 then M.pure [] else do
    let f ← copyUpper i2 (off2 + 1)
    M.pure [f])
  let beg := if off1 = 0 then i1 else i1 + 1
  let end_ := if off2 = b2.size - 1 then i2 + 1 else i2
  let mid ← collect beg (end_ - beg)
  delB beg (end_ - beg)
  M.pure (beg, first ++ (mid ++ last))

/-- 2711-2717: consecutive positions for the blocks, and one event for each that has data. -/
def layOut : Nat → List (Blk α) → M α (List (Blk α))
  | _, [] => M.pure []
  | position, b :: bs => do
    (match b.data with
    | some d => acquired d
    | none => M.pure ())
    let rest ← layOut (position + b.size) bs
    M.pure (⟨position, b.size, b.data⟩ :: rest)

/-- `insert_blocks_at` 2708-2720. -/
def insertBlocksAt (position i : Nat) (bs : List (Blk α)) : M α Unit := do
  let bs ← layOut position bs
  insB i bs

/-- `exchange_elements` for a range over several blocks, 3683-3706. -/
def exchangeMany (ty : Ty) (vs : List α) (j1 off1 j2 off2 len : Nat) : M α (List (Blk α)) := do
  let bucket ← prepare j1 off1 j2 off2
  insB bucket.1 [⟨0, len, none⟩]
  (match bucket.1 with
  | 0 => M.pure ()
  | k + 1 => do
    let p ← nextPos k
    setPos (k + 1) p)
  newBlockAt bucket.1 ty vs
  let _ ← mergeWithAdjacent bucket.1
  M.pure bucket.2

/-- The blocks put in before index `i`, and the boundaries merged (2628-2631, 2661-2663, 2691-2696,
2700-2705). -/
def placeBlocks (position i : Nat) (bs : List (Blk α)) : M α Unit := do
  insertBlocksAt position i bs
  let _ ← mergeWithNext (i + bs.length - 1)
  if i > 0 then do
    let _ ← mergeWithNext (i - 1)
    M.pure ()
  else M.pure ()

/-- `swap_single_to_multi_blocks` 2566-2664. -/
def swapSingleMulti (a e dpos i j1 j2 : Nat) : M2 α Unit := do
  let b ← onSrc (getB i)
  let c1 ← onDst (getB j1)
  let c2 ← onDst (getB j2)
  let len := e - a + 1
  match b.data with
  | none => do
    let _ ← flipM (transferMulti dpos (dpos + len - 1) j1 j2 a)
    M2.pure ()
  | some d => do
    let off := a - b.pos
    let doff1 := dpos - c1.pos
    let doff2 := dpos + len - 1 - c2.pos
    let tail := b.size - off - len
    let vs ← onSrc (rangeOf i off len d.ty)
    let bs ← onDst (exchangeMany d.ty vs j1 doff1 j2 doff2 len)
    if bs = [] then throw2 .general
    else if off = 0 then do
      (if tail = 0 then onSrc (do
          shrinkVals i 0
          deleteElementBlock i
          delB i 1)
        else onSrc (do
          eraseVals i 0 len
          subSize i len
          addPos i len))
      onSrc (placeBlocks b.pos i bs)
    else do
      (if tail = 0 then onSrc (do
          shrinkVals i off
          setSize i off)
        else onSrc (do
          let _ ← setNewBlockToMiddle i off len false
          deleteElementBlock (i + 1)
          delB (i + 1) 1))
      let p ← onSrc (nextPos i)
      onSrc (placeBlocks p (i + 1) bs)

/-- End of block `i - 1`, where the blocks go (2689-2690, 2698-2699). -/
def gapPosition (i : Nat) : M α Nat :=
  match i with
  | 0 => M.pure 0
  | k + 1 => nextPos k

/-- `swap_multi_to_multi_blocks` 2666-2706. -/
def swapMultiMulti (a e dpos i1 i2 j1 j2 : Nat) : M2 α Unit := do
  let b1 ← onSrc (getB i1)
  let b2 ← onSrc (getB i2)
  let c1 ← onDst (getB j1)
  let c2 ← onDst (getB j2)
  let len := e - a + 1
  let src ← onSrc (prepare i1 (a - b1.pos) i2 (e - b2.pos))
  let dst ← onDst (prepare j1 (dpos - c1.pos) j2 (dpos + len - 1 - c2.pos))
  let p ← onSrc (gapPosition src.1)
  onSrc (placeBlocks p src.1 dst.2)
  let q ← onDst (gapPosition dst.1)
  onDst (placeBlocks q dst.1 src.2)

/-- `swap_impl` 2391-2424. -/
def swapImpl (a e dpos i1 i2 j1 j2 : Nat) : M2 α Unit :=
  if i1 = i2 then
    if j1 = j2 then swapSingle a e dpos i1 j1
    else swapSingleMulti a e dpos i1 j1 j2
  else if j1 = j2 then flipM (swapSingleMulti dpos (dpos + (e - a + 1) - 1) a j1 i1 i2)
  else swapMultiMulti a e dpos i1 i2 j1 j2

/-- `swap(start_pos, end_pos, other, other_pos)` 4384-4449. -/
def swapRange (a e dpos : Nat) : M2 α Unit := do
  if a > e then throw2 .outOfRange
  else do
    let n ← onSrc curSize
    let m ← onDst curSize
    if e ≥ n ∨ dpos + e - a ≥ m then throw2 .outOfRange
    else do
      let i1 ← onSrc (getBlockPosition a 0)
      let k ← onSrc nBlocks
      if i1 = k then throw2 .outOfRange
      else do
        let i2 ← onSrc (getBlockPosition e i1)
        if i2 = k then throw2 .outOfRange
        else do
          let j1 ← onDst (getBlockPosition dpos 0)
          let l ← onDst nBlocks
          if j1 = l then throw2 .outOfRange
          else do
            let j2 ← onDst (getBlockPosition (dpos + e - a) j1)
            if j2 = l then throw2 .outOfRange
            else swapImpl a e dpos i1 i2 j1 j2

/-- `swap(other)` 4376-4382. -/
def swapAll : M2 α Unit := fun s t => .ok () t s

end Mdds.Aos
