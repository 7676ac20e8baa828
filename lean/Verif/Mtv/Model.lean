import Verif.Common
/-!
Model of `mdds::mtv::soa::multi_type_vector`
(`include/mdds/multi_type_vector/soa/main_def.inl`, structure-of-arrays layout).

Conventions.
* The three parallel arrays `positions`, `sizes`, `element_blocks` of
  `blocks_type` (soa/main.hpp) are one list of records; every operation of
  `blocks_type` changes the three arrays in lockstep.
* An element block is a record with an identity (its address), the element type
  and the stored values.  Element types carry a flag telling whether the block
  type is a *managed* one (owns heap objects, `types.hpp` managed_element_block).
* `overwrite_values`, `delete_block` record the destroyed values, with the type of
  the block they were in, in `freed`.  For managed blocks this is the destruction
  of the objects; for other blocks the C++ functions do nothing observable and the
  entry has no meaning.
* `element_block_acquired` / `element_block_released` record the block identity in
  the event log `evs`.
* Any access outside an array, dereference of a null block pointer or use of a
  block as the wrong type is undefined behaviour (`ub`).  Unsigned subtraction
  that would wrap is reported as `ub` as well.
* `assert`s are not modelled (they vanish in release builds).  Sizes are unbounded
  natural numbers.  The element store is `std::vector` or an equivalent container.
* Returned iterators are represented by their block index.
* A value given to the container is an element type plus a payload.
-/
namespace Mdds.Mtv
open Mdds

/-- Element type: numeric id and whether the block manages (owns) its objects. -/
structure Ty where
  cat : Nat
  managed : Bool
  deriving DecidableEq, Repr

/-- Element block (`base_element_block` and derived, types.hpp). -/
structure EB (α : Type) where
  id : Nat
  ty : Ty
  vals : List α
  deriving DecidableEq, Repr

/-- One slot of `blocks_type` (soa/main.hpp): position, size, element block
pointer (`none` = nullptr, an empty block). -/
structure Blk (α : Type) where
  pos : Nat
  size : Nat
  data : Option (EB α)
  deriving DecidableEq, Repr

/-- Event handler calls. -/
inductive Ev where
  | acq (id : Nat)
  | rel (id : Nat)
  deriving DecidableEq, Repr

/-- Container state: block store, `m_cur_size`, and the observation logs. `next` is
the address the next created element block gets. -/
structure St (α : Type) where
  blocks : List (Blk α)
  cur : Nat
  freed : List (Ty × α)
  evs : List Ev
  next : Nat
  deriving DecidableEq, Repr

variable {α : Type} {β γ : Type}

/-- What a member function does: it returns a result and the new state, or throws
(leaving the state as it is at that point), or its behaviour is undefined. -/
inductive Res (α β : Type) where
  | ok (p : β × St α)
  | err (e : Err) (s : St α)
  | ub
  deriving DecidableEq, Repr

def Res.bind (x : Res α β) (f : β × St α → Res α γ) : Res α γ :=
  match x with
  | .ok p => f p
  | .err e s => .err e s
  | .ub => .ub

/-- The state after a call that did not end in undefined behaviour. -/
def Res.state : Res α β → Option (St α)
  | .ok p => some p.2
  | .err _ s => some s
  | .ub => none

/-- A member function: takes the state, may throw or be undefined, returns a
result and the new state. -/
@[reducible] def M (α β : Type) : Type := St α → Res α β

namespace M
def pure (b : β) : M α β := fun s => .ok (b, s)
def bind (x : M α β) (f : β → M α γ) : M α γ := fun s => (x s).bind fun p => f p.1 p.2
instance : Monad (M α) where
  pure := M.pure
  bind := M.bind
end M

def throw_ (e : Err) : M α β := fun s => .err e s
def ub_ : M α β := fun _ => .ub

/-! ### Block store primitives (soa/main_def.inl 181-300) -/

/-- `positions[i]`, `sizes[i]`, `element_blocks[i]`. -/
def getB (i : Nat) : M α (Blk α) := fun s =>
  match s.blocks[i]? with
  | some b => .ok (b, s)
  | none => .ub

/-- Assignment to fields of slot `i`. -/
def putB (i : Nat) (b : Blk α) : M α Unit := fun s =>
  if i < s.blocks.length then .ok ((), { s with blocks := s.blocks.set i b }) else .ub

/-- `positions.size()`. -/
def nBlocks : M α Nat := fun s => .ok (s.blocks.length, s)

/-- `m_cur_size`. -/
def curSize : M α Nat := fun s => .ok (s.cur, s)
def setCurSize (n : Nat) : M α Unit := fun s => .ok ((), { s with cur := n })

/-- `sizes[i] = n`. -/
def setSize (i n : Nat) : M α Unit := do let b ← getB i; putB i { b with size := n }
/-- `sizes[i] += n`. -/
def addSize (i n : Nat) : M α Unit := do let b ← getB i; putB i { b with size := b.size + n }
/-- `sizes[i] -= n` (wrapping is `ub`). -/
def subSize (i n : Nat) : M α Unit := do
  let b ← getB i
  if n ≤ b.size then putB i { b with size := b.size - n } else ub_
/-- `positions[i] = n`. -/
def setPos (i n : Nat) : M α Unit := do let b ← getB i; putB i { b with pos := n }
/-- `positions[i] += n`. -/
def addPos (i n : Nat) : M α Unit := do let b ← getB i; putB i { b with pos := b.pos + n }
/-- `positions[i] -= n` (wrapping is `ub`). -/
def subPos (i n : Nat) : M α Unit := do
  let b ← getB i
  if n ≤ b.pos then putB i { b with pos := b.pos - n } else ub_
/-- `element_blocks[i] = p`. -/
def setData (i : Nat) (d : Option (EB α)) : M α Unit := do
  let b ← getB i; putB i { b with data := d }

/-- `l` with `xs` inserted before index `i`. -/
def insAt {τ : Type} (l : List τ) (i : Nat) (xs : List τ) : List τ := l.take i ++ xs ++ l.drop i
/-- `l` without the `n` elements from index `i`. -/
def delAt {τ : Type} (l : List τ) (i n : Nat) : List τ := l.take i ++ l.drop (i + n)
/-- `f` applied to the elements from index `i` on. -/
def mapFrom {τ : Type} (f : τ → τ) (i : Nat) (l : List τ) : List τ := l.take i ++ (l.drop i).map f

/-- `blocks_type::insert(index, pos, size, data)` 205-212 (also the
`positions.emplace(begin(), ..)` triples and `push_back(pos, size, data)`). -/
def insB (i : Nat) (bs : List (Blk α)) : M α Unit := fun s =>
  if i ≤ s.blocks.length then .ok ((), { s with blocks := insAt s.blocks i bs }) else .ub
/-- `blocks_type::insert(index, size)` 197-203: `n` slots with position 0, size 0
and no data. -/
def insZ (i n : Nat) : M α Unit := insB i (List.replicate n ⟨0, 0, none⟩)
/-- `blocks_type::push_back(pos, size, data)`. -/
def pushB (b : Blk α) : M α Unit := do let n ← nBlocks; insB n [b]
/-- `blocks_type::erase(index, size)` 189-195 and `erase(index)` 181-187. -/
def delB (i n : Nat) : M α Unit := fun s =>
  if i + n ≤ s.blocks.length then .ok ((), { s with blocks := delAt s.blocks i n }) else .ub
/-- `blocks_type::pop_back()`. -/
def popB : M α Unit := do
  let n ← nBlocks
  if n = 0 then ub_ else delB (n - 1) 1

/-- `blocks_type::calc_block_position` 223-234. -/
def calcPos (i : Nat) : M α Unit :=
  match i with
  | 0 => setPos 0 0
  | j + 1 => do let p ← getB j; setPos (j + 1) (p.pos + p.size)

/-- `blocks_type::swap(index1, index2)` 243-250. -/
def swapB (i j : Nat) : M α Unit := do
  let a ← getB i
  let b ← getB j
  putB i b
  putB j a

/-- `adjust_block_positions_func{}(m_block_store, start, delta)` with a
non-negative delta; `Verif.Mtv.Kernels` proves that every kernel does exactly
this. -/
def shiftUp (i d : Nat) : M α Unit := fun s =>
  .ok ((), { s with blocks := mapFrom (fun b => { b with pos := b.pos + d }) i s.blocks })
/-- The same with delta `-d`; a position that would wrap below zero is `ub`. -/
def shiftDown (i d : Nat) : M α Unit := fun s =>
  if (s.blocks.drop i).all (fun b => decide (d ≤ b.pos)) then
    .ok ((), { s with blocks := mapFrom (fun b => { b with pos := b.pos - d }) i s.blocks })
  else .ub

/-- Dereference of the block pointer in slot `i`. -/
def deref (i : Nat) : M α (EB α) := do
  let b ← getB i
  match b.data with
  | some d => M.pure d
  | none => ub_

/-- Replace the values of the element block slot `i` points to. -/
def putVals (i : Nat) (vs : List α) : M α Unit := do
  let b ← getB i
  match b.data with
  | some d => putB i { b with data := some { d with vals := vs } }
  | none => ub_

/-! ### Block functions (`block_funcs.hpp`, `types.hpp`) -/

/-- Destruction of values (see the header comment). -/
def free (ty : Ty) (xs : List α) : M α Unit := fun s =>
  .ok ((), { s with freed := s.freed ++ xs.map (fun v => (ty, v)) })
/-- `m_hdl_event.element_block_acquired(data)`. -/
def acquired (d : EB α) : M α Unit := fun s => .ok ((), { s with evs := s.evs ++ [.acq d.id] })
/-- `m_hdl_event.element_block_released(data)`. -/
def released (d : EB α) : M α Unit := fun s => .ok ((), { s with evs := s.evs ++ [.rel d.id] })

/-- `block_funcs::create_new_block(cat, 0)` followed by filling with `vs`; a fresh
block. -/
def newEB (ty : Ty) (vs : List α) : M α (EB α) := fun s =>
  .ok (⟨s.next, ty, vs⟩, { s with next := s.next + 1 })

/-- `block_funcs::delete_block(p)`: destroys the block with everything in it; null
is ignored. -/
def deleteBlock : Option (EB α) → M α Unit
  | none => M.pure ()
  | some d => free d.ty d.vals

/-- `block_funcs::overwrite_values(*data, pos, len)`: for managed blocks deletes the
objects in `[pos, pos+len)`, outside the block is undefined; no effect for other
blocks. -/
def overwrite (i off len : Nat) : M α Unit := do
  let d ← deref i
  if off + len ≤ d.vals.length then free d.ty ((d.vals.drop off).take len)
  else if d.ty.managed then ub_ else M.pure ()

/-- `block_funcs::erase(*data, pos, len)`. -/
def eraseVals (i off len : Nat) : M α Unit := do
  let d ← deref i
  if off + len ≤ d.vals.length then putVals i (delAt d.vals off len) else ub_

/-- `block_funcs::resize_block(*data, n)` where `n` is not larger than the block;
growing would create default values and is not done by the modelled code (`ub`). -/
def shrinkVals (i n : Nat) : M α Unit := do
  let d ← deref i
  if n ≤ d.vals.length then putVals i (d.vals.take n) else ub_

/-- `mdds_mtv_set_value(s)(*data, pos, v ...)`. -/
def setVals (i off : Nat) (ty : Ty) (vs : List α) : M α Unit := do
  let d ← deref i
  if d.ty = ty ∧ off + vs.length ≤ d.vals.length then
    putVals i (d.vals.take off ++ vs ++ d.vals.drop (off + vs.length)) else ub_

/-- `mdds_mtv_append_value(s)`. -/
def appendVals (i : Nat) (ty : Ty) (vs : List α) : M α Unit := do
  let d ← deref i
  if d.ty = ty then putVals i (d.vals ++ vs) else ub_

/-- `mdds_mtv_prepend_value(s)`. -/
def prependVals (i : Nat) (ty : Ty) (vs : List α) : M α Unit := do
  let d ← deref i
  if d.ty = ty then putVals i (vs ++ d.vals) else ub_

/-- `mdds_mtv_insert_values(*data, pos, ..)`. -/
def insertVals (i off : Nat) (ty : Ty) (vs : List α) : M α Unit := do
  let d ← deref i
  if d.ty = ty ∧ off ≤ d.vals.length then putVals i (insAt d.vals off vs) else ub_

/-- `mdds_mtv_assign_values`. -/
def assignVals (i : Nat) (ty : Ty) (vs : List α) : M α Unit := do
  let d ← deref i
  if d.ty = ty then putVals i vs else ub_

/-- The range `[begin, begin+len)` of block `j`'s values, as read by the
`*_from_block` functions; outside the block is undefined. -/
def rangeOf (j begin len : Nat) (ty : Ty) : M α (List α) := do
  let d ← deref j
  if d.ty = ty ∧ begin + len ≤ d.vals.length then M.pure ((d.vals.drop begin).take len) else ub_

/-- `block_funcs::assign_values_from_block(*blocks[i], *blocks[j], begin, len)`. -/
def assignFrom (i j begin len : Nat) : M α Unit := do
  let d ← deref i
  let vs ← rangeOf j begin len d.ty
  putVals i vs
/-- `block_funcs::append_values_from_block`. -/
def appendFrom (i j begin len : Nat) : M α Unit := do
  let d ← deref i
  let vs ← rangeOf j begin len d.ty
  putVals i (d.vals ++ vs)
/-- `block_funcs::prepend_values_from_block`. -/
def prependFrom (i j begin len : Nat) : M α Unit := do
  let d ← deref i
  let vs ← rangeOf j begin len d.ty
  putVals i (vs ++ d.vals)
/-- `block_funcs::append_block(*blocks[i], *blocks[j])`. -/
def appendBlock (i j : Nat) : M α Unit := do
  let d ← deref i
  let e ← deref j
  if d.ty = e.ty then putVals i (d.vals ++ e.vals) else ub_

/-! ### Helper member functions -/

/-- Type of a block for comparisons: `none` is the empty type. -/
def Blk.ty (b : Blk α) : Option Ty := b.data.map EB.ty

/-- `delete_element_block(i)` 639-650. -/
def deleteElementBlock (i : Nat) : M α Unit := do
  let b ← getB i
  match b.data with
  | none => M.pure ()
  | some d => do
    released d
    deleteBlock (some d)
    setData i none

/-- `delete_element_blocks(start, end)` 652-657. -/
def deleteElementBlocks (start : Nat) : Nat → M α Unit
  | 0 => M.pure ()
  | n + 1 => do
    deleteElementBlock start
    deleteElementBlocks (start + 1) n

/-- `is_previous_block_of_type` 4781-4793; `cat = none` is `element_type_empty`. -/
def isPrevOfType (i : Nat) (cat : Option Ty) : M α Bool :=
  match i with
  | 0 => M.pure false
  | j + 1 => do let b ← getB j; M.pure (decide (cat = b.ty))

/-- `is_next_block_of_type` 4795-4809. -/
def isNextOfType (i : Nat) (cat : Option Ty) : M α Bool := do
  let n ← nBlocks
  if i + 1 = n then M.pure false
  else do let b ← getB (i + 1); M.pure (decide (cat = b.ty))

/-- `create_new_block_with_new_cell` 4265-4285 (and `_with_emplace_back`
4287-4307). -/
def createNewBlockWithNewCell (i : Nat) (ty : Ty) (x : α) : M α Unit := do
  let b ← getB i
  match b.data with
  | some d => do
    released d
    deleteBlock (some d)
    let e ← newEB ty []
    setData i (some e)
    acquired e
    appendVals i ty [x]
  | none => do
    let e ← newEB ty []
    setData i (some e)
    acquired e
    appendVals i ty [x]

/-- `append_cell_to_block` 4309-4315. -/
def appendCellToBlock (i : Nat) (ty : Ty) (x : α) : M α Unit := do
  addSize i 1
  appendVals i ty [x]

/-- `set_new_block_to_middle` 4700-4779: splits block `i` into upper part, a hole of
`n` empty elements and lower part; returns the index of the hole. -/
def setNewBlockToMiddle (i offset n : Nat) (doOverwrite : Bool) : M α Nat := do
  let b ← getB i
  if offset + n ≤ b.size then do
    let lower := b.size - offset - n
    insZ (i + 1) 2
    setSize (i + 1) n
    setSize (i + 2) lower
    match b.data with
    | some d => do
      let lowerStart := offset + n
      let e ← newEB d.ty []
      setData (i + 2) (some e)
      acquired e
      if offset > lower then do
        assignFrom (i + 2) i lowerStart lower
        if doOverwrite then overwrite i offset n else M.pure ()
        shrinkVals i offset
        setSize i offset
        setSize (i + 2) lower
        calcPos (i + 1)
        calcPos (i + 2)
        M.pure (i + 1)
      else do
        assignFrom (i + 2) i 0 offset
        setSize (i + 2) offset
        if doOverwrite then overwrite i offset n else M.pure ()
        eraseVals i 0 lowerStart
        setSize i lower
        setSize (i + 2) offset
        let b' ← getB i
        swapB i (i + 2)
        setPos i b'.pos
        calcPos (i + 1)
        calcPos (i + 2)
        M.pure (i + 1)
    | none => do
      setSize i offset
      calcPos (i + 1)
      calcPos (i + 2)
      M.pure (i + 1)
  else ub_

/-- `set_cell_to_middle_of_block` 4377-4387. -/
def setCellToMiddle (i off : Nat) (ty : Ty) (x : α) : M α Nat := do
  let j ← setNewBlockToMiddle i off 1 true
  createNewBlockWithNewCell j ty x
  M.pure j

/-- `set_cell_to_top_of_data_block` 4389-4408. -/
def setCellToTop (i : Nat) (ty : Ty) (x : α) : M α Unit := do
  subSize i 1
  let b ← getB i
  addPos i 1
  match b.data with
  | some _ => do
    overwrite i 0 1
    eraseVals i 0 1
    insB i [⟨b.pos, 1, none⟩]
    createNewBlockWithNewCell i ty x
  | none => do
    insB i [⟨b.pos, 1, none⟩]
    createNewBlockWithNewCell i ty x

/-- `set_cell_to_bottom_of_data_block` 4410-4429. -/
def setCellToBottom (i : Nat) (ty : Ty) (x : α) : M α Unit := do
  let b ← getB i
  match b.data with
  | some _ =>
    if 1 ≤ b.size then do
      overwrite i (b.size - 1) 1
      eraseVals i (b.size - 1) 1
      subSize i 1
      insB (i + 1) [⟨0, 1, none⟩]
      calcPos (i + 1)
      createNewBlockWithNewCell (i + 1) ty x
    else ub_
  | none => do
    subSize i 1
    insB (i + 1) [⟨0, 1, none⟩]
    calcPos (i + 1)
    createNewBlockWithNewCell (i + 1) ty x

/-! ### set (single element) -/

/-- `set_cell_to_empty_block` 3280-3615, `block_index == 0` part 3287-3415. -/
def setCellToEmptyBlockTop (off : Nat) (ty : Ty) (x : α) : M α Nat := do
  let n ← nBlocks
  let b ← getB 0
  if n = 1 then do
    let cur ← curSize
    if cur = 1 then do
      createNewBlockWithNewCell 0 ty x
      M.pure 0
    else if off = 0 then do
      subSize 0 1
      insB 0 [⟨0, 1, none⟩]
      createNewBlockWithNewCell 0 ty x
      setPos 1 1
      M.pure 0
    else if off + 1 = b.size then do
      subSize 0 1
      let b' ← getB 0
      pushB ⟨b'.size, 1, none⟩
      createNewBlockWithNewCell 1 ty x
      let n' ← nBlocks
      M.pure (n' - 1)
    else setCellToMiddle 0 off ty x
  else if off = 0 then
    if b.size = 1 then do
      let nx ← isNextOfType 0 (some ty)
      if nx then do
        deleteElementBlock 0
        delB 0 1
        addSize 0 1
        subPos 0 1
        prependVals 0 ty [x]
        M.pure 0
      else do
        createNewBlockWithNewCell 0 ty x
        M.pure 0
    else do
      subSize 0 1
      setPos 0 1
      insB 0 [⟨0, 1, none⟩]
      createNewBlockWithNewCell 0 ty x
      M.pure 0
  else if off + 1 = b.size then do
    let nx ← isNextOfType 0 (some ty)
    if nx then do
      subSize 0 1
      addSize 1 1
      subPos 1 1
      prependVals 1 ty [x]
      M.pure 1
    else do
      subSize 0 1
      insZ 1 1
      calcPos 1
      setSize 1 1
      createNewBlockWithNewCell 1 ty x
      M.pure 1
  else setCellToMiddle 0 off ty x

/-- `set_cell_to_empty_block`, part below a block (`block_index = j + 1`)
3417-3615. -/
def setCellToEmptyBlockBelow (j off : Nat) (ty : Ty) (x : α) : M α Nat := do
  let n ← nBlocks
  let b ← getB (j + 1)
  if off = 0 then do
    let pd ← deref j
    if pd.ty = ty then
      if b.size = 1 then
        if j + 1 + 1 = n then do
          deleteElementBlock (j + 1)
          popB
          appendCellToBlock j ty x
          M.pure j
        else do
          let nx ← isNextOfType (j + 1) (some pd.ty)
          if nx then do
            let pb ← getB j
            let nb ← getB (j + 2)
            if pb.size < nb.size then do
              addSize (j + 2) 1
              prependVals (j + 2) ty [x]
              prependFrom (j + 2) j 0 pb.size
              addSize (j + 2) pb.size
              setPos (j + 2) pb.pos
              shrinkVals j 0
              let pd' ← deref j
              released pd'
              deleteBlock b.data
              deleteBlock (some pd')
              delB j 2
              M.pure j
            else do
              addSize j (1 + nb.size)
              appendVals j ty [x]
              appendBlock j (j + 2)
              shrinkVals (j + 2) 0
              let nd ← deref (j + 2)
              released nd
              deleteBlock b.data
              deleteBlock (some nd)
              delB (j + 1) 2
              M.pure j
          else do
            deleteElementBlock (j + 1)
            delB (j + 1) 1
            appendCellToBlock j ty x
            M.pure j
      else do
        subSize (j + 1) 1
        addPos (j + 1) 1
        appendCellToBlock j ty x
        M.pure j
    else
      if b.size = 1 then
        if j + 1 + 1 = n then do
          createNewBlockWithNewCell (j + 1) ty x
          M.pure (j + 1)
        else do
          let nx ← isNextOfType (j + 1) (some ty)
          if nx then do
            addSize (j + 2) 1
            subPos (j + 2) 1
            prependVals (j + 2) ty [x]
            deleteElementBlock (j + 1)
            delB (j + 1) 1
            M.pure (j + 1)
          else do
            createNewBlockWithNewCell (j + 1) ty x
            M.pure (j + 1)
      else do
        setSize (j + 1) 1
        createNewBlockWithNewCell (j + 1) ty x
        insB (j + 2) [⟨b.pos + 1, b.size - 1, none⟩]
        M.pure (j + 1)
  else if off + 1 = b.size then
    if j + 1 + 1 = n then do
      subSize (j + 1) 1
      pushB ⟨0, 1, none⟩
      calcPos (j + 2)
      createNewBlockWithNewCell (j + 2) ty x
      let n' ← nBlocks
      M.pure (n' - 1)
    else do
      let nx ← isNextOfType (j + 1) (some ty)
      if nx then do
        subSize (j + 1) 1
        addSize (j + 2) 1
        subPos (j + 2) 1
        prependVals (j + 2) ty [x]
        M.pure (j + 2)
      else do
        subSize (j + 1) 1
        insB (j + 2) [⟨0, 1, none⟩]
        calcPos (j + 2)
        createNewBlockWithNewCell (j + 2) ty x
        M.pure (j + 2)
  else setCellToMiddle (j + 1) off ty x

/-- `set_cell_to_empty_block` 3280-3615. -/
def setCellToEmptyBlock (i off : Nat) (ty : Ty) (x : α) : M α Nat :=
  match i with
  | 0 => setCellToEmptyBlockTop off ty x
  | j + 1 => setCellToEmptyBlockBelow j off ty x

/-- `set_cell_to_non_empty_block_of_size_one` 3617-3794. -/
def setCellToSizeOne (i : Nat) (ty : Ty) (x : α) : M α Nat :=
  match i with
  | 0 => do
    let n ← nBlocks
    if 1 = n then do
      createNewBlockWithNewCell 0 ty x
      M.pure 0
    else do
      let nx ← isNextOfType 0 (some ty)
      if !nx then do
        createNewBlockWithNewCell 0 ty x
        M.pure 0
      else do
        addSize 1 1
        subPos 1 1
        prependVals 1 ty [x]
        deleteElementBlock 0
        delB 0 1
        M.pure 0
  | j + 1 => do
    let n ← nBlocks
    if j + 1 + 1 = n then do
      let pb ← getB j
      if pb.ty = some ty then do
        appendVals j ty [x]
        addSize j 1
        deleteElementBlock (j + 1)
        delB (j + 1) 1
        let n' ← nBlocks
        M.pure (n' - 1)
      else do
        createNewBlockWithNewCell (j + 1) ty x
        let n' ← nBlocks
        M.pure (n' - 1)
    else do
      let pb ← getB j
      let nb ← getB (j + 2)
      match pb.data, nb.data with
      | none, none => do
        createNewBlockWithNewCell (j + 1) ty x
        M.pure (j + 1)
      | none, some nd =>
        if nd.ty = ty then do
          deleteElementBlock (j + 1)
          delB (j + 1) 1
          addSize (j + 1) 1
          subPos (j + 1) 1
          prependVals (j + 1) ty [x]
          M.pure (j + 1)
        else do
          createNewBlockWithNewCell (j + 1) ty x
          M.pure (j + 1)
      | some pd, none =>
        if pd.ty = ty then do
          addSize j 1
          appendVals j ty [x]
          deleteElementBlock (j + 1)
          delB (j + 1) 1
          M.pure j
        else do
          createNewBlockWithNewCell (j + 1) ty x
          M.pure (j + 1)
      | some pd, some nd =>
        if pd.ty = nd.ty then
          if pd.ty = ty then do
            addSize j (1 + nb.size)
            appendVals j ty [x]
            appendBlock j (j + 2)
            shrinkVals (j + 2) 0
            deleteElementBlock (j + 1)
            deleteElementBlock (j + 2)
            delB (j + 1) 2
            M.pure j
          else do
            createNewBlockWithNewCell (j + 1) ty x
            M.pure (j + 1)
        else if pd.ty = ty then do
          addSize j 1
          appendVals j ty [x]
          deleteElementBlock (j + 1)
          delB (j + 1) 1
          M.pure j
        else if nd.ty = ty then do
          addSize (j + 2) 1
          subPos (j + 2) 1
          prependVals (j + 2) ty [x]
          deleteElementBlock (j + 1)
          delB (j + 1) 1
          M.pure (j + 1)
        else do
          createNewBlockWithNewCell (j + 1) ty x
          M.pure (j + 1)

/-- Common tail of `set_impl` 1649-1656 and 1679-1686: move the last element of
block `i` out and prepend the new value to the next block. -/
def setAtEndIntoNext (i : Nat) (ty : Ty) (x : α) : M α Nat := do
  let b ← getB i
  overwrite i (b.size - 1) 1
  eraseVals i (b.size - 1) 1
  subSize i 1
  prependVals (i + 1) ty [x]
  addSize (i + 1) 1
  subPos (i + 1) 1
  M.pure (i + 1)

/-- `set_impl` 1552-1687. -/
def setImpl (pos i : Nat) (ty : Ty) (x : α) : M α Nat := do
  let b ← getB i
  if b.pos ≤ pos then
    let off := pos - b.pos
    match b.data with
    | none => setCellToEmptyBlock i off ty x
    | some d =>
      if d.ty = ty then do
        overwrite i off 1
        setVals i off ty [x]
        M.pure i
      else if pos = b.pos then
        if b.size = 1 then setCellToSizeOne i ty x
        else do
          let pv ← isPrevOfType i (some ty)
          if pv then do
            subSize i 1
            addPos i 1
            overwrite i 0 1
            eraseVals i 0 1
            addSize (i - 1) 1
            appendVals (i - 1) ty [x]
            M.pure (i - 1)
          else do
            setCellToTop i ty x
            M.pure i
      else if pos + 1 < b.pos + b.size then setCellToMiddle i off ty x
      else do
        let n ← nBlocks
        if i = 0 then
          if n = 1 then do
            setCellToBottom 0 ty x
            let n' ← nBlocks
            M.pure (n' - 1)
          else do
            let nx ← isNextOfType i (some ty)
            if !nx then do
              setCellToBottom 0 ty x
              M.pure 1
            else setAtEndIntoNext i ty x
        else if i + 1 = n then do
          setCellToBottom i ty x
          let n' ← nBlocks
          M.pure (n' - 1)
        else do
          let nx ← isNextOfType i (some ty)
          if !nx then do
            setCellToBottom i ty x
            M.pure (i + 1)
          else setAtEndIntoNext i ty x
  else ub_

/-! ### Block lookup -/

/-- `std::lower_bound` over the (sorted) positions from index `start`: index of the
first block whose position is not less than `row`.  Specification of the standard
algorithm, as a linear search. -/
def lowerBound (bs : List (Blk α)) (row : Nat) : Nat := bs.findIdx (fun b => decide (row ≤ b.pos))

/-- The search part of `get_block_position` 4213-4227: block index found by the lower
bound, or the one before it.  Stepping back before the start block is reported as
`ub` (the assertion in the code forbids it). -/
def searchFrom (row start : Nat) : M α Nat := fun s =>
  let k := lowerBound (s.blocks.drop start) row
  match (s.blocks.drop start)[k]? with
  | some b =>
    if b.pos ≠ row then
      if k = 0 then .ub else .ok (k - 1 + start, s)
    else .ok (k + start, s)
  | none => if k = 0 then .ub else .ok (k - 1 + start, s)

/-- `get_block_position(row, start_block_index)` 4205-4228. -/
def getBlockPosition (row start : Nat) : M α Nat := do
  let cur ← curSize
  let n ← nBlocks
  if row ≥ cur ∨ start ≥ n then M.pure n else searchFrom row start

/-- The backward walk of the hinted lookup 4246-4256: `some i` when a block starting
at or before `row` is found below index `i`. -/
def walkBack (row : Nat) : Nat → M α (Option Nat)
  | 0 => M.pure none
  | i + 1 => do
    let b ← getB i
    if row ≥ b.pos then M.pure (some i) else walkBack row i

/-- `get_block_position(pos_data, row)` 4230-4263; `hint` is `none` when the iterator
belongs to another container. -/
def getBlockPositionHint (hint : Option Nat) (row : Nat) : M α Nat := do
  let n ← nBlocks
  let bi := match hint with
    | some h => if h < n then h else 0
    | none => 0
  let b ← getB bi
  if row < b.pos then
    if row > b.pos / 2 then do
      let r ← walkBack row bi
      match r with
      | some i => M.pure i
      | none => getBlockPosition row 0
    else getBlockPosition row 0
  else getBlockPosition row bi

end Mdds.Mtv
