import Verif.Mtv.Api
/-!
# multi_type_vector: moving elements between two containers

`transfer` of `soa/main_def.inl`: member functions of one container (the source) that also
work on another one (the destination).  The two are different objects: the public member
throws when they are the same, which is decided before anything else happens and is a flag
here.  Both own their blocks (`detach_impl` does nothing).  Addresses of new element blocks are
drawn per container; no address of one container is compared with one of the other.
-/

namespace Mdds.Mtv

variable {α β γ : Type}

/-- Result of a function that works on two containers. -/
inductive Res2 (α β : Type) where
  | ok (r : β) (s t : St α)
  | err (e : Err) (s t : St α)
  | ub
  deriving DecidableEq, Repr

/-- A function that works on two containers. -/
@[reducible] def M2 (α β : Type) : Type := St α → St α → Res2 α β

def Res2.bind (x : Res2 α β) (f : β → M2 α γ) : Res2 α γ :=
  match x with
  | .ok r s t => f r s t
  | .err e s t => .err e s t
  | .ub => .ub

namespace M2
def pure (b : β) : M2 α β := fun s t => .ok b s t
def bind (x : M2 α β) (f : β → M2 α γ) : M2 α γ := fun s t => (x s t).bind f
instance : Monad (M2 α) where
  pure := M2.pure
  bind := M2.bind
end M2

def throw2 (e : Err) : M2 α β := fun s t => .err e s t

/-- Work on the first container (`this`). -/
def onSrc (x : M α β) : M2 α β := fun s t =>
  match x s with
  | .ok (b, s') => .ok b s' t
  | .err e s' => .err e s' t
  | .ub => .ub

/-- Work on the second container (`dest`, `other`). -/
def onDst (x : M α β) : M2 α β := fun s t =>
  match x t with
  | .ok (b, t') => .ok b s t'
  | .err e t' => .err e s t'
  | .ub => .ub

/-- A member function of the second container that works on the first one too: the roles of
the two are exchanged. -/
def flipM (x : M2 α β) : M2 α β := fun s t =>
  match x t s with
  | .ok r t s => .ok r s t
  | .err e t s => .err e s t
  | .ub => .ub

/-! ### transfer -/

/-- 4482-4525: make a slot of size `len` at `dpos` in the empty block `j` of the destination. -/
def slotFor (j dpos len : Nat) : M α Nat := do
  let b ← getB j
  let off := dpos - b.pos
  if off = 0 then
    if len < b.size then do
      addPos j len
      subSize j len
      insB j [⟨b.pos, len, none⟩]
      M.pure j
    else M.pure j
  else if off + len - 1 = b.size - 1 then do
    subSize j len
    insB (j + 1) [⟨0, len, none⟩]
    calcPos (j + 1)
    M.pure (j + 1)
  else do
    insZ (j + 1) 2
    setSize j off
    setSize (j + 1) len
    setSize (j + 2) (b.size - off - len)
    calcPos (j + 1)
    calcPos (j + 2)
    M.pure (j + 1)

/-- Put an element block into slot `j` and tell the event handler. -/
def receive (j : Nat) (d : EB α) : M α Unit := do
  setData j (some d)
  acquired d

/-- Tell the event handler that an element block leaves, and forget the pointer. -/
def handOver (i : Nat) (d : EB α) : M α Unit := do
  released d
  setData i none

/-- `transfer_single_block` 4464-4564. -/
def transferSingle (a e i1 dpos : Nat) : M2 α Nat := do
  let len := e - a + 1
  let b1 ← onSrc (getB i1)
  let r ← onDst (setEmpty none dpos (dpos + len - 1))
  match b1.data with
  | none => M2.pure i1
  | some d => do
    let j ← onDst (slotFor r dpos len)
    let off := a - b1.pos
    if off = 0 ∧ len = b1.size then do
      onDst (receive j d)
      onSrc (handOver i1 d)
      let _ ← onDst (mergeWithAdjacent j)
      let o ← onSrc (mergeWithAdjacent i1)
      M2.pure (if o = 0 then i1 else i1 - 1)
    else do
      let vs ← onSrc (rangeOf i1 off len d.ty)
      onDst (newBlockAt j d.ty vs)
      let _ ← onDst (mergeWithAdjacent j)
      onSrc (setEmptySingle a e i1 false)

/-- 5165-5213: make `n` slots of size zero for `len` elements at `dpos` in the empty block `j`
of the destination; gives the index of the first one. -/
def slotsFor (j dpos len n : Nat) : M α Nat := do
  let b ← getB j
  let off := dpos - b.pos
  if off = 0 then
    if len < b.size then do
      subSize j len
      addPos j len
      insZ j n
      M.pure j
    else do
      deleteElementBlock j
      setSize j 0
      if n > 1 then do
        insZ j (n - 1)
        M.pure j
      else M.pure j
  else if off + len - 1 = b.size - 1 then do
    insZ (j + 1) n
    subSize j len
    M.pure (j + 1)
  else do
    insZ (j + 1) (n + 1)
    setSize j off
    let b' ← getB j
    setPos (j + n + 1) (b'.pos + b'.size + len)
    setSize (j + n + 1) (b.size - off - len)
    M.pure (j + 1)

/-- The pointer of slot `i` of the source goes to slot `j` of the destination (5250-5258,
5281-5287, 5330-5336). -/
def movePointer (i j : Nat) (d : Option (EB α)) : M2 α Unit := do
  onDst (setData j d)
  match d with
  | none => M2.pure ()
  | some d => do
    onDst (acquired d)
    onSrc (handOver i d)

/-- 5221-5261: the first block.  Gives whether the block stays in the source. -/
def moveFirst (a i1 j : Nat) : M2 α Bool := do
  let b ← onSrc (getB i1)
  let off := a - b.pos
  if off = 0 then do
    onDst (do
      setSize j b.size
      calcPos j)
    movePointer i1 j b.data
    onSrc (setSize i1 0)
    M2.pure false
  else do
    onDst (do
      setSize j (b.size - off)
      if j > 0 then calcPos j else M.pure ())
    (match b.data with
    | none => M2.pure ()
    | some d => do
      let vs ← onSrc (rangeOf i1 off (b.size - off) d.ty)
      onDst (newBlockAt j d.ty vs)
      onSrc (shrinkVals i1 off))
    onSrc (setSize i1 off)
    M2.pure true

/-- 5265-5289: `n` whole blocks from slot `i` on, to the slots from `j` on. -/
def moveMid : Nat → Nat → Nat → Nat → M2 α Unit
  | _, _, 0, _ => M2.pure ()
  | i, j, n + 1, position => do
    let b ← onSrc (getB i)
    onDst (do
      setSize j b.size
      setPos j position)
    onSrc (setSize i 0)
    movePointer i j b.data
    moveMid (i + 1) (j + 1) n (position + b.size)

/-- 5292-5341: the last block.  Gives whether the block stays in the source. -/
def moveLast (e i2 j : Nat) : M2 α Bool := do
  let b ← onSrc (getB i2)
  let k := e - b.pos + 1
  if k < b.size then do
    onDst (do
      calcPos j
      setSize j k)
    (match b.data with
    | none => M2.pure ()
    | some d => do
      let vs ← onSrc (rangeOf i2 0 k d.ty)
      onDst (newBlockAt j d.ty vs)
      onSrc (eraseVals i2 0 k))
    onSrc (do
      addPos i2 k
      subSize i2 k)
    M2.pure true
  else do
    onDst (do
      setSize j b.size
      calcPos j)
    movePointer i2 j b.data
    onSrc (setSize i2 0)
    M2.pure false

/-- 5385-5424: the slots `del1` to `del2` hold nothing any more; replace them with one empty
block of size `len`. -/
def fillGap (del1 del2 len : Nat) : M α Nat := do
  let prevEmpty ← (match del1 with
    | 0 => M.pure false
    | k + 1 => do
      let b ← getB k
      M.pure (b.data.isNone))
  let del1 ← (if prevEmpty then do
      addSize (del1 - 1) len
      M.pure del1
    else do
      setSize del1 len
      M.pure (del1 + 1))
  if del2 ≥ del1 then delB del1 (del2 - del1 + 1) else M.pure ()
  let _ ← mergeWithAdjacent (del1 - 1)
  calcPos (del1 - 1)
  M.pure (del1 - 1)

/-- 5349-5424: close the gap in the source; `keep1`, `keep2` tell whether the first and the last
block stay. -/
def closeGap (i1 i2 len : Nat) (keep1 keep2 : Bool) : M α Nat := do
  let del1 := if keep1 then i1 + 1 else i1
  let del2 := if keep2 then i2 - 1 else i2
  if del2 < del1 then do
    let b1 ← getB i1
    let b2 ← getB i2
    match b1.data, b2.data with
    | none, _ => do
      addSize i1 len
      M.pure i1
    | some _, none => do
      addSize i2 len
      subPos i2 len
      M.pure i2
    | some _, some _ => do
      insB i2 [⟨0, len, none⟩]
      calcPos i2
      M.pure i2
  else fillGap del1 del2 len

/-- `transfer_multi_blocks` 5141-5425. -/
def transferMulti (a e i1 i2 dpos : Nat) : M2 α Nat := do
  let len := e - a + 1
  let n := i2 - i1 + 1
  let r ← onDst (setEmpty none dpos (dpos + len - 1))
  let j ← onDst (slotsFor r dpos len n)
  let keep1 ← moveFirst a i1 j
  let position ← onDst (do
    let b ← getB j
    M.pure (b.pos + b.size))
  moveMid (i1 + 1) (j + 1) (n - 2) position
  let keep2 ← moveLast e i2 (j + n - 1)
  onDst (do
    let _ ← mergeWithAdjacent (j + n - 1)
    let _ ← mergeWithAdjacent j
    M.pure ())
  onSrc (closeGap i1 i2 len keep1 keep2)

/-- `transfer_impl` 4430-4462. -/
def transferImpl (a e i1 dpos : Nat) : M2 α Nat := do
  if a > e then throw2 .outOfRange
  else do
    let i2 ← onSrc (getBlockPosition e i1)
    let n ← onSrc nBlocks
    if i2 = n then throw2 .outOfRange
    else do
      let len := e - a + 1
      let dsize ← onDst curSize
      if dpos + len - 1 ≥ dsize then throw2 .outOfRange
      else if i1 = i2 then transferSingle a e i1 dpos
      else transferMulti a e i1 i2 dpos

/-- `transfer(start_pos, end_pos, dest, dest_pos)` 778-835 and the hinted 837-896.  `same` tells
whether `dest` is the container itself. -/
def transfer (same : Bool) (h : At) (a e dpos : Nat) : M2 α Nat := do
  if same then throw2 .invalidArg
  else do
    let i1 ← onSrc (lookup h a)
    let n ← onSrc nBlocks
    if i1 = n then throw2 .outOfRange
    else transferImpl a e i1 dpos

end Mdds.Mtv
