import Verif.Mtv.PairSpec
/-!
# multi_type_vector: copies, moves and copy-on-write sharing

Any number of containers of one type, over a heap of element blocks.  Unlike in the model of a
single container the slots hold addresses, so that two containers can point to the same block,
and a dangling pointer can be seen: reading or deleting a block that is not in the heap is
undefined behaviour.  Line numbers are those of `soa/main_def.inl`.

Simplifications.
* A copied or cloned element block holds equal values: for a managed block `α` is the content of
  an object, not its address; the copy constructor or `clone_value` of the element type is user
  code.  The only exceptions of copying are those for block types that cannot be copied or cloned.
* A modifying call on a container that owns its blocks is the call of the single-container model,
  run on the blocks read from the heap; afterwards the old blocks are deleted and the resulting
  blocks are put at new addresses.  (In the code blocks the call leaves alone keep their addresses.)
* Addresses are never used again, so that no dangling pointer becomes valid by chance.
* Arguments are values; a reference to an element of the container itself is not considered.
* Return values are left out.
-/

namespace Mdds.Mtv.Cow

variable {α β : Type}

/-- What the traits class and the block types decide: `Traits::enable_cow`, and which block types
`block_funcs::is_copyable` and `clone_block` accept (block_funcs.hpp 54-85, types.hpp 195-290). -/
structure Traits where
  cow : Bool
  copyable : Ty → Bool
  clonable : Ty → Bool
  /-- A copyable block is cloned by its copy constructor (types.hpp 213-223). -/
  clone_copy : ∀ ty, copyable ty = true → clonable ty = true

/-- One slot of `m_block_store`; the element block is an address, `none` is null. -/
structure Slot where
  pos : Nat
  size : Nat
  addr : Option Nat
  deriving DecidableEq, Repr

/-- A container: `m_block_store`, `m_cur_size`, what its event handler was told, and
`m_cow_store` (soa/main.hpp 1573-1586). -/
structure Ctr where
  slots : List Slot
  cur : Nat
  evs : List Ev
  holder : Option Nat
  deriving DecidableEq, Repr

/-- `shared_element_blocks` (soa/main.hpp 1551-1561) with the reference count of the
`shared_ptr`s to it. -/
structure Holder where
  blocks : List Nat
  refs : Nat
  deriving DecidableEq, Repr

/-- The element blocks that exist. -/
abbrev Heap (α : Type) := Nat → Option (Ty × List α)

/-- Containers and shared holders are named by their index; `none` is a destroyed one.  `logs`
are the event logs of destroyed containers. -/
structure World (α : Type) where
  heap : Heap α
  holders : List (Option Holder)
  ctrs : List (Option Ctr)
  next : Nat
  logs : List (List Ev)

/-- Nothing exists. -/
def World.init : World α := ⟨fun _ => none, [], [], 0, []⟩

/-- What a step does. -/
inductive Out (α : Type) where
  | ok (w : World α)
  | err (e : Err) (w : World α)
  | ub

def Out.bind (x : Out α) (f : World α → Out α) : Out α :=
  match x with
  | .ok w => f w
  | .err e w => .err e w
  | .ub => .ub

/-- The container named `i`. -/
def World.get (w : World α) (i : Nat) : Option Ctr := w.ctrs[i]?.join

def World.put (w : World α) (i : Nat) (c : Option Ctr) : World α := { w with ctrs := w.ctrs.set i c }

def upd (h : Heap α) (a : Nat) (x : Option (Ty × List α)) : Heap α := fun b => if b = a then x else h b

/-- The non-null block pointers of a container. -/
def addrs (xs : List Slot) : List Nat := xs.filterMap Slot.addr

/-- Read the blocks the slots point to; `none` if one of them does not exist. -/
def loadBlocks (h : Heap α) : List Slot → Option (List (Blk α))
  | [] => some []
  | x :: xs =>
    match x.addr with
    | none => (loadBlocks h xs).map (⟨x.pos, x.size, none⟩ :: ·)
    | some a =>
      match h a with
      | none => none
      | some (ty, vs) => (loadBlocks h xs).map (⟨x.pos, x.size, some ⟨a, ty, vs⟩⟩ :: ·)

/-- The container as a state of the single-container model. -/
def load (w : World α) (c : Ctr) : Option (St α) :=
  (loadBlocks w.heap c.slots).map fun bs => ⟨bs, c.cur, [], c.evs, w.next⟩

/-- `delete_block` of several blocks; `none` if one of them does not exist. -/
def freeAll : List Nat → Heap α → Option (Heap α)
  | [], h => some h
  | a :: as, h => if (h a).isSome then freeAll as (upd h a none) else none

/-- Create element blocks with the given values, and the slots that point to them. -/
def allocAll : List (Blk α) → Nat → Heap α → List Slot × Nat × Heap α
  | [], n, h => ([], n, h)
  | b :: bs, n, h =>
    match b.data with
    | none =>
      let r := allocAll bs n h
      (⟨b.pos, b.size, none⟩ :: r.1, r.2)
    | some d =>
      let r := allocAll bs (n + 1) (upd h n (some (d.ty, d.vals)))
      (⟨b.pos, b.size, some n⟩ :: r.1, r.2)

/-- The blocks of container `i` after a call of the single-container model that left `s'`. -/
def storeBack (i : Nat) (s' : St α) (w : World α) : Out α :=
  match w.get i with
  | none => .ub
  | some c =>
    match freeAll (addrs c.slots) w.heap with
    | none => .ub
    | some h =>
      let r := allocAll s'.blocks w.next h
      .ok { w with
        heap := r.2.2
        next := r.2.1
        ctrs := w.ctrs.set i (some { c with slots := r.1, cur := s'.cur, evs := s'.evs }) }

/-- A call of the single-container model on container `i`. -/
def runOwned (i : Nat) (m : M α β) (w : World α) : Out α :=
  match (w.get i).bind (load w) with
  | none => .ub
  | some s =>
    match m s with
    | .ok (_, s') => storeBack i s' w
    | .err e s' => (storeBack i s' w).bind fun w => .err e w
    | .ub => .ub

/-- A call of the two-container model on the containers `i` and `j`. -/
def runOwned2 (i j : Nat) (m : M2 α β) (w : World α) : Out α :=
  match (w.get i).bind (load w), (w.get j).bind (load w) with
  | some s, some t =>
    match m s t with
    | .ok _ s' t' => (storeBack i s' w).bind (storeBack j t')
    | .err e s' t' => ((storeBack i s' w).bind (storeBack j t')).bind fun w => .err e w
    | .ub => .ub
  | _, _ => .ub

/-! ### Shared holders -/

/-- One more `shared_ptr` to holder `h`. -/
def addRef (h : Nat) (w : World α) : Out α :=
  match w.holders[h]?.join with
  | none => .ub
  | some k => .ok { w with holders := w.holders.set h (some { k with refs := k.refs + 1 }) }

/-- One `shared_ptr` to holder `h` less; the last one runs `~shared_element_blocks`
(soa/main.hpp 1555-1559), which deletes the blocks. -/
def dropRef (h : Nat) (w : World α) : Out α :=
  match w.holders[h]?.join with
  | none => .ub
  | some k =>
    if k.refs = 0 then .ub
    else if k.refs = 1 then
      match freeAll k.blocks w.heap with
      | none => .ub
      | some hp => .ok { w with heap := hp, holders := w.holders.set h none }
    else .ok { w with holders := w.holders.set h (some { k with refs := k.refs - 1 }) }

/-- `share` 551-565. -/
def share (i : Nat) (w : World α) : Out α :=
  match w.get i with
  | none => .ub
  | some c =>
    match c.holder with
    | some _ => .ok w
    | none => .ok { w with
        holders := w.holders ++ [some ⟨addrs c.slots, 1⟩]
        ctrs := w.ctrs.set i (some { c with holder := some w.holders.length }) }

/-- Whether all blocks have types that satisfy `p`. -/
def allTypes (p : Ty → Bool) (bs : List (Blk α)) : Bool :=
  bs.all fun b => (b.data.map fun d => p d.ty).getD true

/-- 468-477, 500-509: the new container borrows the blocks of container `i`, and its handler is
told of each. -/
def borrow (i : Nat) (w : World α) : Out α :=
  (share i w).bind fun w =>
    match w.get i with
    | none => .ub
    | some c =>
      match c.holder with
      | none => .ub
      | some h => (addRef h w).bind fun w =>
          .ok { w with ctrs := w.ctrs ++ [some { c with evs := (addrs c.slots).map Ev.acq }] }

/-- The new container gets copies of the blocks `bs` (134-176, 477-481, 506-511). -/
def pushOwned (bs : List (Blk α)) (cur : Nat) (evs : List Nat → List Ev) (w : World α) : World α :=
  let r := allocAll bs w.next w.heap
  { w with heap := r.2.2, next := r.2.1, ctrs := w.ctrs ++ [some ⟨r.1, cur, evs (addrs r.1), none⟩] }

/-- `detach_impl` 575-621. -/
def detach (T : Traits) (i : Nat) (w : World α) : Out α :=
  match w.get i with
  | none => .ub
  | some c =>
    match c.holder with
    | none => .ok w
    | some h =>
      match loadBlocks w.heap c.slots with
      | none => .ub
      | some bs =>
        if allTypes T.clonable bs then
          let r := allocAll bs w.next w.heap
          let c' : Ctr := ⟨r.1, c.cur, c.evs ++
            ((addrs c.slots).zip (addrs r.1)).flatMap (fun p => [Ev.rel p.1, Ev.acq p.2]), none⟩
          dropRef h { w with heap := r.2.2, next := r.2.1, ctrs := w.ctrs.set i (some c') }
        else .err .elementBlock w

/-! ### Constructors, assignment, destructor -/

/-- The constructors 380-455. -/
def construct (k : Ctor α) (w : World α) : Out α :=
  match k.run with
  | .ok s => .ok (pushOwned s.blocks s.cur (fun _ => s.evs) w)
  | .err e => .err e w
  | .ub => .ub

/-- The copy constructor 486-515.  Without copy-on-write the blocks are copied one after the
other; if one cannot be copied, those copied so far are deleted (`copy_blocks` 36-78). -/
def copyCtor (T : Traits) (i : Nat) (w : World α) : Out α :=
  match w.get i with
  | none => .ub
  | some c =>
    match loadBlocks w.heap c.slots with
    | none => .ub
    | some bs =>
      if allTypes T.copyable bs then
        if T.cow then borrow i w else .ok (pushOwned bs c.cur (·.map Ev.acq) w)
      else .err .elementBlock w

/-- `clone` 623-637 with the constructor 457-484. -/
def cloneCtor (T : Traits) (i : Nat) (w : World α) : Out α :=
  match w.get i with
  | none => .ub
  | some c =>
    if T.cow then borrow i w
    else
      match loadBlocks w.heap c.slots with
      | none => .ub
      | some bs =>
        if allTypes T.clonable bs then .ok (pushOwned bs c.cur (·.map Ev.acq) w)
        else .err .elementBlock w

/-- The move constructor 517-527: `m_cur_size` of the source keeps its value. -/
def moveCtor (i : Nat) (w : World α) : Out α :=
  match w.get i with
  | none => .ub
  | some c => .ok { w with ctrs := w.ctrs.set i (some ⟨[], c.cur, [], none⟩) ++ [some c] }

/-- `swap(other)` 5427-5437. -/
def swapCtrs (i j : Nat) (w : World α) : Out α :=
  match w.get i, w.get j with
  | some c, some d => .ok { w with ctrs := (w.ctrs.set i (some d)).set j (some c) }
  | _, _ => .ub

/-- The destructor 530-548, with the destruction of `m_cow_store`. -/
def destroy (i : Nat) (w : World α) : Out α :=
  match w.get i with
  | none => .ub
  | some c =>
    let w' : World α := { w with
      ctrs := w.ctrs.set i none
      logs := w.logs ++ [c.evs ++ (addrs c.slots).map Ev.rel] }
    match c.holder with
    | some h => dropRef h w'
    | none =>
      match freeAll (addrs c.slots) w.heap with
      | none => .ub
      | some hp => .ok { w' with heap := hp }

/-- 5535-5537, 5546-5548: exchange with the local container made last, and destroy that one. -/
def swapWithLast (i n : Nat) (w : World α) : Out α :=
  ((swapCtrs i n w).bind (destroy n)).bind fun w => .ok { w with ctrs := w.ctrs.take n }

/-- `operator=(const multi_type_vector&)` 5530-5538: container `i` is assigned container `j`. -/
def assign (T : Traits) (i j : Nat) (w : World α) : Out α :=
  (copyCtor T j w).bind (swapWithLast i w.ctrs.length)

/-- `operator=(multi_type_vector&&)` 5540-5549. -/
def moveAssign (i j : Nat) (w : World α) : Out α :=
  (moveCtor j w).bind (swapWithLast i w.ctrs.length)

/-! ### Calls -/

/-- `clear` 1508-1533. -/
def clearOn (i : Nat) (w : World α) : Out α :=
  match w.get i with
  | none => .ub
  | some c =>
    match c.holder with
    | some h => dropRef h (w.put i (some ⟨[], 0, c.evs ++ (addrs c.slots).map Ev.rel, none⟩))
    | none => runOwned i (Call.run (.clear : Call α)) w

/-- The calls of the family `release`. -/
def isRelease : Call α → Bool
  | .release .. | .releaseRange .. | .releaseAll => true
  | _ => false

/-- The tests made before `detach_impl`: `some none` when the call returns at once, `some (some
e)` when it throws (range `set` 989-992, 1039-1041; `erase` 1390-1391; `insert_empty` 1426-1428,
1470-1472). -/
def early (cur : Nat) : Call α → Option (Option Err)
  | .setRange _ pos _ vs =>
    if vs.length = 0 then some none
    else if cur ≤ pos + vs.length - 1 then some (some .outOfRange) else none
  | .erase first last => if first > last then some (some .outOfRange) else none
  | .insertEmpty _ _ n => if n = 0 then some none else none
  | _ => none

/-- A modifying call on container `i`.  `release` refuses to work on shared blocks (3845-3849,
3890-3894, 3937-3941, 3980-3984, 4028-4032, 4049-4053). -/
def callOn (T : Traits) (i : Nat) (c : Call α) (w : World α) : Out α :=
  match w.get i with
  | none => .ub
  | some k =>
    match c with
    | .clear => clearOn i w
    | c =>
      if isRelease c then
        if k.holder.isSome then .err .sharedBlock w else runOwned i c.run w
      else
        match early k.cur c with
        | some none => .ok w
        | some (some e) => .err e w
        | none => (detach T i w).bind (runOwned i c.run)

/-- `transfer` 776-896. -/
def transferOn (T : Traits) (i j : Nat) (h : At) (first last dest : Nat) (w : World α) : Out α :=
  if i = j then .err .invalidArg w
  else ((detach T i w).bind (detach T j)).bind (runOwned2 i j (transfer false h first last dest))

/-- Range `swap` 5438-5480 of two different containers.  The blocks are looked up before
`detach_impl` in the code; positions and sizes are the same afterwards. -/
def swapOn (T : Traits) (i j : Nat) (first last dest : Nat) (w : World α) : Out α :=
  match w.get i, w.get j with
  | some c, some d =>
    if first > last ∨ last ≥ c.cur ∨ dest + last - first ≥ d.cur then .err .outOfRange w
    else ((detach T i w).bind (detach T j)).bind (runOwned2 i j (swapRange first last dest))
  | _, _ => .ub

end Mdds.Mtv.Cow
