import Verif.Ddv.Model

/-!
# Element blocks of multi_type_vector

Source: `/repo/include/mdds/multi_type_vector/types.hpp` (`types`), `block_funcs.hpp` (`bf`), `types_util.hpp`,
`delayed_delete_vector.hpp` (through `Verif/Ddv/Model.lean`).

The models of multi_type_vector take an element block to be a list.  Here an element block is what the code has: an
object of one of the registered block classes, with a store (`std::vector` or `delayed_delete_vector`) that holds values
or pointers to objects owned by the block, reached through the dispatcher `element_block_funcs` or through the static
functions of the class.

Simplifications for the whole file:
* one type `V` of values for all classes.  A plain block stores values, a managed block pointers to objects that hold
  values.  A cell of the wrong sort does not compile; here it is undefined;
* objects and blocks have numbers as addresses, and no address is used twice;
* memory never runs out.  Exceptions come from copying elements: a call that copies elements takes the number of the copy
  that throws;
* the capacity of a store is an arbitrary function of the store, and `reserve` does not change it;
* `assert`s are not there (release build);
* `get` does not check the class (types 447-473), so a block of another class is undefined;
* `print_block`, and `clone_value` with an `exec_policy`, are not modelled.
-/
namespace Mdds.Elem
open Mdds

variable {V : Type}

/-- What a store holds: a value, or an owning pointer (`none` is null). -/
inductive Cell (V : Type) where
  | val (v : V)
  | ptr (p : Option Nat)
  deriving DecidableEq, Repr

/-! ### stores -/

/-- `StoreT` (types 279-283): `std::vector` or `delayed_delete_vector`. -/
inductive Store (α : Type) where
  | vec (l : List α)
  | ddv (d : Ddv.DDV α)
  deriving DecidableEq, Repr

namespace Store
variable {α : Type}

def ofList (delayed : Bool) (l : List α) : Store α := if delayed then .ddv (Ddv.ofRange l) else .vec l

def mapD (r : Outcome (Ddv.DDV α)) : Outcome (Store α) :=
  match r with
  | .ok d => .ok (.ddv d)
  | .err e => .err e
  | .ub => .ub

def mapV (r : Outcome (List α)) : Outcome (Store α) :=
  match r with
  | .ok d => .ok (.vec d)
  | .err e => .err e
  | .ub => .ub

def size : Store α → Outcome Nat
  | .vec l => .ok l.length
  | .ddv d => Ddv.size d

/-- `begin()` to `end()`. -/
def toList : Store α → Outcome (List α)
  | .vec l => .ok l
  | .ddv d => Ddv.toList d

/-- `rbegin()` to `rend()`. -/
def toListRev : Store α → Outcome (List α)
  | .vec l => .ok l.reverse
  | .ddv d => Ddv.toListRev d

/-- Number of elements that the copy constructor of the store copies. -/
def copied : Store α → Nat
  | .vec l => l.length
  | .ddv d => d.vec.length

def at_ : Store α → Nat → Outcome α
  | .vec l, i => match l[i]? with | some x => .ok x | none => .err .outOfRange
  | .ddv d, i => Ddv.at_ d i

/-- `operator[]`, or `*(begin() + i)`. -/
def idx : Store α → Nat → Outcome α
  | .vec l, i => Outcome.ofOption l[i]?
  | .ddv d, i => Ddv.idx d i

def setIdx : Store α → Nat → α → Outcome (Store α)
  | .vec l, i, v => if i < l.length then .ok (.vec (l.set i v)) else .ub
  | .ddv d, i, v => mapD (Ddv.setIdx d i v)

def push : Store α → α → Store α
  | .vec l, v => .vec (l ++ [v])
  | .ddv d, v => .ddv (Ddv.pushBack d v)

/-- `insert(begin() + i, first, last)`. -/
def insert : Store α → Nat → List α → Outcome (Store α)
  | .vec l, i, vs => mapV (Ddv.vecInsert l i vs)
  | .ddv d, i, vs => mapD (Ddv.insert d (Ddv.begin_ d + i) vs)

/-- `insert(end(), first, last)`. -/
def insertEnd : Store α → List α → Outcome (Store α)
  | .vec l, vs => mapV (Ddv.vecInsert l l.length vs)
  | .ddv d, vs => mapD (Ddv.insert d (Ddv.end_ d) vs)

/-- `erase(begin() + i)`. -/
def erase1 : Store α → Nat → Outcome (Store α)
  | .vec l, i => if i < l.length then mapV (Ddv.vecErase l i (i + 1)) else .ub
  | .ddv d, i => match Ddv.erase1 d (Ddv.begin_ d + i) with
    | .ok r => .ok (.ddv r.1)
    | .err e => .err e
    | .ub => .ub

/-- `erase(begin() + i, begin() + j)`. -/
def erase2 : Store α → Nat → Nat → Outcome (Store α)
  | .vec l, i, j => mapV (Ddv.vecErase l i j)
  | .ddv d, i, j => match Ddv.erase2 d (Ddv.begin_ d + i) (Ddv.begin_ d + j) with
    | .ok r => .ok (.ddv r.1)
    | .err e => .err e
    | .ub => .ub

def resize (dflt : α) : Store α → Nat → Outcome (Store α)
  | .vec l, n => .ok (.vec (l.take n ++ List.replicate (n - l.length) dflt))
  | .ddv d, n => mapD (Ddv.resize dflt d n)

def reserve : Store α → Nat → Outcome (Store α)
  | .vec l, _ => .ok (.vec l)
  | .ddv d, n => mapD (Ddv.reserve d n)

def shrink : Store α → Outcome (Store α)
  | .vec l => .ok (.vec l)
  | .ddv d => mapD (Ddv.shrinkToFit d)

def assign : Store α → List α → Outcome (Store α)
  | .vec _, vs => .ok (.vec vs)
  | .ddv d, vs => mapD (Ddv.assign d vs)

/-- `get_iterator_pair` (types 673-682): the elements from `pos`, `len` of them; iterators outside the store are
undefined. -/
def range (s : Store α) (pos len : Nat) : Outcome (List α) :=
  match s.toList with
  | .ok l => if pos + len ≤ l.length then .ok ((l.drop pos).take len) else .ub
  | .err e => .err e
  | .ub => .ub

end Store

/-- `delayed_delete_vector::at` (delayed_delete_vector 102-110) with `size_type` of 64 bits: the sum wraps. -/
def at64 (d : Ddv.DDV α) (pos : Nat) : Outcome α :=
  match d.vec[(pos + d.off) % 2 ^ 64]? with
  | some x => .ok x
  | none => .err .outOfRange

/-! ### block classes -/

/-- The three templates: `default_element_block` (types 775-808), `managed_element_block` (814-872) and
`noncopyable_managed_element_block` (879-944).  The last may come with a `clone_value` (types 158-176): a function object
that may remember the values it cloned before; it gives the value of the clone, or throws. -/
inductive Kind (V : Type) where
  | plain
  | managed
  | noncopyable (clone : Option (List V → V → Option V))

/-- A registered block class. -/
structure Class (V : Type) where
  /-- `block_type` (types 284). -/
  id : Int
  kind : Kind V
  /-- the store is a `delayed_delete_vector` -/
  delayed : Bool

/-- The registered classes (`Ts`), the value-initialised value, and the capacity of stores. -/
structure Cfg (V : Type) where
  classes : List (Class V)
  init : V
  capacity : Store (Cell V) → Nat

/-- An element block: its class (an index into `classes`) and `m_array` (types 287). -/
structure Blk (V : Type) where
  cls : Nat
  store : Store (Cell V)
  deriving DecidableEq, Repr

structure World (V : Type) where
  blks : Nat → Option (Blk V)
  objs : Nat → Option V
  nextB : Nat
  nextO : Nat

def World.empty : World V := ⟨fun _ => none, fun _ => none, 0, 0⟩

def World.setBlk (w : World V) (b : Nat) (x : Blk V) : World V :=
  { w with blks := fun i => if i = b then some x else w.blks i }

def World.delBlk (w : World V) (b : Nat) : World V :=
  { w with blks := fun i => if i = b then none else w.blks i }

/-- `new Self(…)`. -/
def World.addBlk (w : World V) (x : Blk V) : World V := { w.setBlk w.nextB x with nextB := w.nextB + 1 }

/-- `new ValueT(v)`. -/
def World.addObj (w : World V) (v : V) : World V :=
  { w with objs := fun o => if o = w.nextO then some v else w.objs o, nextO := w.nextO + 1 }

/-- Deleting what the cells point to, in order (`std::default_delete`); a null pointer is allowed, an object that does
not exist is undefined. -/
def delCells (w : World V) : List (Cell V) → Outcome (World V)
  | [] => .ok w
  | .ptr none :: r => delCells w r
  | .ptr (some o) :: r =>
    if (w.objs o).isSome then delCells { w with objs := fun i => if i = o then none else w.objs i } r else .ub
  | .val _ :: _ => .ub

/-- What the program is told. -/
inductive Ans (V : Type) where
  | unit
  | bool (b : Bool)
  | num (n : Nat)
  | cell (c : Cell V)
  | cells (l : List (Cell V))
  | threw (e : Err)
  /-- an element's copy constructor or `clone_value` threw -/
  | threwUser
  deriving DecidableEq, Repr

abbrev Result (V : Type) := Outcome (World V × Ans V)

/-- Cells that a class can store. -/
def Kind.fits : Kind V → Cell V → Bool
  | .plain, .val _ => true
  | .managed, .ptr _ => true
  | .noncopyable _, .ptr _ => true
  | _, _ => false

/-- Value-initialised cell. -/
def Cfg.dflt (cfg : Cfg V) : Kind V → Cell V
  | .plain => .val cfg.init
  | _ => .ptr none

/-- `find_func` (bf 28-38): the maps hold the first class with each id. -/
def Cfg.find (cfg : Cfg V) (id : Int) : Option Nat := cfg.classes.findIdx? fun c => c.id == id

/-- `get_block_type` (types 766-769): the id of the block's class. -/
def Cfg.idOf (cfg : Cfg V) (x : Blk V) : Option Int := (cfg.classes[x.cls]?).map (·.id)

/-- Call of a function of class `c` on block `b`: `get` (types 447-473). -/
def cast (cfg : Cfg V) (w : World V) (c b : Nat) (f : Class V → Blk V → Result V) : Result V :=
  match w.blks b, cfg.classes[c]? with
  | some x, some k => if x.cls = c then f k x else .ub
  | _, _ => .ub

/-- Call through the dispatcher: the class is looked up by the block's type. -/
def dispatch (cfg : Cfg V) (w : World V) (b : Nat) (f : Class V → Blk V → Result V) : Result V :=
  match w.blks b with
  | none => .ub
  | some x => match cfg.idOf x with
    | none => .ub
    | some id => match cfg.find id with
      | none => .ok (w, .threw .general)
      | some c => cast cfg w c b f

/-- Replace the store of a block. -/
def World.store (w : World V) (b : Nat) (x : Blk V) : Outcome (Store (Cell V)) → Result V
  | .ok s => .ok (w.setBlk b ⟨x.cls, s⟩, .unit)
  | .err e => .err e
  | .ub => .ub

/-- An answer that does not change anything; exceptions of `at` reach the caller. -/
def World.tell (w : World V) (f : α → Ans V) : Outcome α → Result V
  | .ok a => .ok (w, f a)
  | .err e => .ok (w, .threw e)
  | .ub => .ub

/-- `then` for stores. -/
def chain (r : Outcome (Store (Cell V))) (f : Store (Cell V) → Outcome (Store (Cell V))) : Outcome (Store (Cell V)) :=
  match r with
  | .ok s => f s
  | .err e => .err e
  | .ub => .ub

/-- Loop of the copy constructor of `managed_element_block` (types 830-835); copy number `fail` throws.
Returns the pointers made so far and whether it threw. -/
def copyLoop (fail : Option Nat) : World V → List (Cell V) → Outcome (World V × List (Cell V) × Bool)
  | w, [] => .ok (w, [], false)
  | w, .ptr (some o) :: r =>
    match w.objs o with
    | none => .ub
    | some v =>
      if fail = some 0 then .ok (w, [], true)
      else match copyLoop (fail.map (· - 1)) (w.addObj v) r with
        | .ok (w', l, t) => .ok (w', .ptr (some w.nextO) :: l, t)
        | .err e => .err e
        | .ub => .ub
  | _, _ :: _ => .ub

/-- Loop of `clone_block` (types 267-271) with the values cloned before. -/
def cloneLoop (f : List V → V → Option V) : List V → World V → List (Cell V) →
    Outcome (World V × List (Cell V) × Bool)
  | _, w, [] => .ok (w, [], false)
  | before, w, .ptr (some o) :: r =>
    match w.objs o with
    | none => .ub
    | some v => match f before v with
      | none => .ok (w, [], true)
      | some v' => match cloneLoop f (before ++ [v]) (w.addObj v') r with
        | .ok (w', l, t) => .ok (w', .ptr (some w.nextO) :: l, t)
        | .err e => .err e
        | .ub => .ub
  | _, _, _ :: _ => .ub

/-- Copy construction of a block (types 710-714, 748-751, 830-835).  A plain block copies its store; if an element throws, the
vector cleans up.  The constructor of a managed block that throws has not finished, so the destructor is not run and the
objects made so far stay. -/
def copyBlk (w : World V) (k : Class V) (x : Blk V) (fail : Option Nat) : Result V :=
  match k.kind with
  | .plain =>
    match fail with
    | some n => if n < x.store.copied then .ok (w, .threwUser) else .ok (w.addBlk x, .num w.nextB)
    | none => .ok (w.addBlk x, .num w.nextB)
  | .managed =>
    match x.store.toList with
    | .ok l => match copyLoop fail w l with
      | .ok (w', _, true) => .ok (w', .threwUser)
      | .ok (w', l', false) => .ok (w'.addBlk ⟨x.cls, .ofList k.delayed l'⟩, .num w.nextB)
      | .err e => .err e
      | .ub => .ub
    | .err e => .err e
    | .ub => .ub
  | .noncopyable _ => .ok (w, .threw .elementBlock)

/-- `clone_block` (types 716-719, 753-756 with 194-276).  The new block is complete before the first element is cloned,
so when `clone_value` throws the block's destructor deletes the clones. -/
def cloneBlk (w : World V) (k : Class V) (x : Blk V) (fail : Option Nat) : Result V :=
  match k.kind with
  | .noncopyable none => .ok (w, .threw .elementBlock)
  | .noncopyable (some f) =>
    match x.store.toList with
    | .ok l => match cloneLoop f [] w l with
      | .ok (w', l', true) => match delCells w' l' with
        | .ok w'' => .ok (w'', .threwUser)
        | .err e => .err e
        | .ub => .ub
      | .ok (w', l', false) => .ok (w'.addBlk ⟨x.cls, .ofList k.delayed l'⟩, .num w.nextB)
      | .err e => .err e
      | .ub => .ub
    | .err e => .err e
    | .ub => .ub
  | _ => copyBlk w k x fail

/-- `delete_block` (types 513-516) with the destructors (types 841-844, 900-903). -/
def deleteBlk (w : World V) (b : Nat) (k : Class V) (x : Blk V) : Result V :=
  match k.kind with
  | .plain => .ok (w.delBlk b, .unit)
  | _ => match x.store.toList with
    | .ok l => match delCells w l with
      | .ok w' => .ok (w'.delBlk b, .unit)
      | .err e => .err e
      | .ub => .ub
    | .err e => .err e
    | .ub => .ub

/-- `resize_block` (types 518-527). -/
def resizeStore (cfg : Cfg V) (k : Kind V) (s : Store (Cell V)) (n : Nat) : Outcome (Store (Cell V)) :=
  chain (s.resize (cfg.dflt k) n) fun s => if n < cfg.capacity s / 2 then s.shrink else .ok s

/-- `swap_values` (types 591-608): the loop, on two blocks or within one. -/
def swapLoop (w : World V) (b1 b2 : Nat) : Nat → Nat → Nat → Result V
  | _, _, 0 => .ok (w, .unit)
  | p1, p2, n + 1 =>
    match w.blks b1, w.blks b2 with
    | some x1, some x2 =>
      match x1.store.idx p1, x2.store.idx p2 with
      | .ok v1, .ok v2 =>
        match x1.store.setIdx p1 v2 with
        | .ok s1 =>
          match (w.setBlk b1 ⟨x1.cls, s1⟩).blks b2 with
          | some y2 => match y2.store.setIdx p2 v1 with
            | .ok s2 => swapLoop ((w.setBlk b1 ⟨x1.cls, s1⟩).setBlk b2 ⟨y2.cls, s2⟩) b1 b2 (p1 + 1) (p2 + 1) n
            | _ => .ub
          | none => .ub
        | _ => .ub
      | _, _ => .ub
    | _, _ => .ub

/-- The comparison of `noncopyable_managed_element_block::equal_block` (types 940-942): the objects, up to the first
difference. -/
def equalObjs [DecidableEq V] (w : World V) : List (Cell V) → List (Cell V) → Outcome Bool
  | [], [] => .ok true
  | .ptr (some a) :: l, .ptr (some b) :: r =>
    match w.objs a, w.objs b with
    | some x, some y => if x = y then equalObjs w l r else .ok false
    | _, _ => .ub
  | _, _ => .ub

/-- `equal_block` of a class (types 610-613 with 347-350 for plain and managed blocks, 932-943).  Stores of pointers
compare the pointers. -/
def equalBlk [DecidableEq V] (w : World V) (k : Class V) (x y : Blk V) : Result V :=
  match x.store.toList, y.store.toList with
  | .ok l, .ok r =>
    match k.kind with
    | .noncopyable _ =>
      if l.length = r.length then w.tell .bool (equalObjs w l r) else .ok (w, .bool false)
    | _ => .ok (w, .bool (decide (l = r)))
  | _, _ => .ub

/-- `set_values` (types 615-623): writing one element after the other. -/
def setLoop (s : Store (Cell V)) : Nat → List (Cell V) → Outcome (Store (Cell V))
  | _, [] => .ok s
  | i, c :: r => match s.setIdx i c with
    | .ok s' => setLoop s' (i + 1) r
    | .err e => .err e
    | .ub => .ub

/-- The calls of a program.  `b`, `d`, `s` are addresses of blocks, `c` a class. -/
inductive Cmd (V : Type) where
  | newObj (v : V)
  -- the dispatcher
  | create (ty : Int) (n : Nat)
  | copy (b : Nat) (fail : Option Nat)
  | clone (b : Nat) (fail : Option Nat)
  | isCopyable (b : Nat)
  | delete (b : Option Nat)
  | resize (b n : Nat)
  | erase (b pos : Nat)
  | eraseN (b pos n : Nat)
  | appendBlock (d s : Nat)
  | appendFrom (d s pos len : Nat)
  | assignFrom (d s pos len : Nat)
  | prependFrom (d s pos len : Nat)
  | swapValues (b1 b2 p1 p2 len : Nat)
  | equal (l r : Nat)
  | overwrite (b pos len : Nat)
  | shrink (b : Nat)
  | size (b : Nat)
  -- functions of a class
  | createWith (c n : Nat) (x : Cell V)
  | createFrom (c : Nat) (xs : List (Cell V))
  | at_ (c b pos : Nat)
  | get (c b pos : Nat)
  | set (c b pos : Nat) (x : Cell V)
  | push (c b : Nat) (x : Cell V)
  | prepend (c b : Nat) (x : Cell V)
  | setMany (c b pos : Nat) (xs : List (Cell V))
  | pushMany (c b : Nat) (xs : List (Cell V))
  | prependMany (c b : Nat) (xs : List (Cell V))
  | assignMany (c b : Nat) (xs : List (Cell V))
  | insertMany (c b pos : Nat) (xs : List (Cell V))
  | values (c b : Nat)
  | valuesRev (c b : Nat)

/-- Cells go into a block only if the class stores such cells. -/
def ifFits (k : Class V) (xs : List (Cell V)) (r : Result V) : Result V := if xs.all k.kind.fits then r else .ub

/-- The source of a call with two blocks: `get(src)` (types 558-559).  Inserting a part of a vector into the vector
itself is undefined. -/
def source (w : World V) (d s : Nat) (x : Blk V) (f : Store (Cell V) → Result V) : Result V :=
  match w.blks s with
  | some y => if d ≠ s ∧ y.cls = x.cls then f y.store else .ub
  | none => .ub

/-- `append_values_from_block` (types 562-570). -/
def appendFromStore (d s : Store (Cell V)) (pos len : Nat) : Outcome (Store (Cell V)) :=
  match s.range pos len, d.size with
  | .ok l, .ok n => chain (d.reserve (n + len)) fun d => d.insertEnd l
  | _, _ => .ub

/-- `assign_values_from_block` (types 572-579). -/
def assignFromStore (d s : Store (Cell V)) (pos len : Nat) : Outcome (Store (Cell V)) :=
  match s.range pos len with
  | .ok l => d.assign l
  | .err e => .err e
  | .ub => .ub

/-- `prepend_values_from_block` (types 581-589). -/
def prependFromStore (d s : Store (Cell V)) (pos len : Nat) : Outcome (Store (Cell V)) :=
  match s.range pos len, d.size with
  | .ok l, .ok n => chain (d.reserve (n + len)) fun d => d.insert 0 l
  | _, _ => .ub

/-- `append_block` (types 555-560). -/
def appendStore (d s : Store (Cell V)) : Outcome (Store (Cell V)) :=
  match s.toList with
  | .ok l => d.insertEnd l
  | .err e => .err e
  | .ub => .ub

/-- `overwrite_values` (types 804-807, 865-871, 924-930). -/
def overwriteBlk (w : World V) (k : Class V) (x : Blk V) (pos len : Nat) : Result V :=
  match k.kind with
  | .plain => .ok (w, .unit)
  | _ => match x.store.range pos len with
    | .ok l => match delCells w l with
      | .ok w' => .ok (w', .unit)
      | .err e => .err e
      | .ub => .ub
    | .err e => .err e
    | .ub => .ub

/-- `create_block_with_value` (types 793-796, 846-857, 905-916). -/
def createWithBlk (w : World V) (c : Nat) (k : Class V) (n : Nat) (x : Cell V) : Result V :=
  match k.kind with
  | .plain => .ok (w.addBlk ⟨c, .ofList k.delayed (List.replicate n x)⟩, .num w.nextB)
  | _ =>
    if n > 1 then .ok (w, .threw .general)
    else if n = 1 then
      match (Store.ofList k.delayed [Cell.ptr none]).setIdx 0 x with
      | .ok s => .ok (w.addBlk ⟨c, s⟩, .num w.nextB)
      | .err e => .err e
      | .ub => .ub
    else .ok (w.addBlk ⟨c, .ofList k.delayed []⟩, .num w.nextB)

/-- One call. -/
def step [DecidableEq V] (cfg : Cfg V) (w : World V) : Cmd V → Result V
  | .newObj v => .ok (w.addObj v, .num w.nextO)
  -- bf 45-52
  | .create ty n => match cfg.find ty with
    | none => .ok (w, .threw .general)
    | some c => match cfg.classes[c]? with
      | none => .ub
      | some k => .ok (w.addBlk ⟨c, .ofList k.delayed (List.replicate n (cfg.dflt k.kind))⟩, .num w.nextB)
  -- bf 54-70
  | .copy b fail => dispatch cfg w b fun k x => copyBlk w k x fail
  | .clone b fail => dispatch cfg w b fun k x => cloneBlk w k x fail
  -- bf 72-83
  | .isCopyable b => dispatch cfg w b fun k _ => .ok (w, .bool (match k.kind with | .noncopyable _ => false | _ => true))
  -- bf 85-97
  | .delete none => .ok (w, .unit)
  | .delete (some b) => dispatch cfg w b fun k x => deleteBlk w b k x
  -- bf 99-106
  | .resize b n => dispatch cfg w b fun k x => w.store b x (resizeStore cfg k.kind x.store n)
  -- bf 117-133
  | .erase b pos => dispatch cfg w b fun _ x => w.store b x (x.store.erase1 pos)
  | .eraseN b pos n => dispatch cfg w b fun _ x => w.store b x (x.store.erase2 pos (pos + n))
  -- bf 135-175
  | .appendBlock d s => dispatch cfg w d fun _ x => source w d s x fun y => w.store d x (appendStore x.store y)
  | .appendFrom d s pos len =>
    dispatch cfg w d fun _ x => source w d s x fun y => w.store d x (appendFromStore x.store y pos len)
  | .assignFrom d s pos len =>
    dispatch cfg w d fun _ x => source w d s x fun y => w.store d x (assignFromStore x.store y pos len)
  | .prependFrom d s pos len =>
    dispatch cfg w d fun _ x => source w d s x fun y => w.store d x (prependFromStore x.store y pos len)
  -- bf 177-189
  | .swapValues b1 b2 p1 p2 len => dispatch cfg w b1 fun _ x => match w.blks b2 with
    | some y => if y.cls = x.cls then swapLoop w b1 b2 p1 p2 len else .ub
    | none => .ub
  -- bf 191-202
  | .equal l r => match w.blks l, w.blks r with
    | some x, some y =>
      if cfg.idOf x ≠ cfg.idOf y then .ok (w, .bool false)
      else dispatch cfg w l fun k x => if y.cls = x.cls then equalBlk w k x y else .ub
    | _, _ => .ub
  -- bf 204-229
  | .overwrite b pos len => dispatch cfg w b fun k x => overwriteBlk w k x pos len
  | .shrink b => dispatch cfg w b fun _ x => w.store b x x.store.shrink
  | .size b => dispatch cfg w b fun _ x => w.tell .num x.store.size
  -- types 793-802, 846-863, 905-922
  | .createWith c n x => match cfg.classes[c]? with
    | none => .ub
    | some k => ifFits k [x] (createWithBlk w c k n x)
  | .createFrom c xs => match cfg.classes[c]? with
    | none => .ub
    | some k => ifFits k xs (.ok (w.addBlk ⟨c, .ofList k.delayed xs⟩, .num w.nextB))
  -- types 357-365, 475-506
  | .at_ c b pos => cast cfg w c b fun _ x => w.tell .cell (x.store.at_ pos)
  | .get c b pos => cast cfg w c b fun _ x => w.tell .cell (x.store.idx pos)
  | .set c b pos v => cast cfg w c b fun k x => ifFits k [v] (w.store b x (x.store.setIdx pos v))
  | .push c b v => cast cfg w c b fun k x => ifFits k [v] (w.store b x (.ok (x.store.push v)))
  | .prepend c b v => cast cfg w c b fun k x => ifFits k [v] (w.store b x (x.store.insert 0 [v]))
  -- types 615-652
  | .setMany c b pos vs => cast cfg w c b fun k x => ifFits k vs (w.store b x (setLoop x.store pos vs))
  | .pushMany c b vs => cast cfg w c b fun k x => ifFits k vs (w.store b x (x.store.insertEnd vs))
  | .prependMany c b vs => cast cfg w c b fun k x => ifFits k vs (w.store b x (x.store.insert 0 vs))
  | .assignMany c b vs => cast cfg w c b fun k x => ifFits k vs (w.store b x (x.store.assign vs))
  | .insertMany c b pos vs => cast cfg w c b fun k x => ifFits k vs (w.store b x (x.store.insert pos vs))
  -- types 377-435
  | .values c b => cast cfg w c b fun _ x => w.tell .cells x.store.toList
  | .valuesRev c b => cast cfg w c b fun _ x => w.tell .cells x.store.toListRev

/-- A program. -/
def run [DecidableEq V] (cfg : Cfg V) (w : World V) : List (Cmd V) → Outcome (World V × List (Ans V))
  | [] => .ok (w, [])
  | c :: cs => match step cfg w c with
    | .ok (w', a) => match run cfg w' cs with
      | .ok (w'', as) => .ok (w'', a :: as)
      | .err e => .err e
      | .ub => .ub
    | .err e => .err e
    | .ub => .ub

end Mdds.Elem
