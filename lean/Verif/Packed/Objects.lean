import Verif.Packed.Results

/-!
# packed_trie_map: several maps, kept search results and node handles

Source: `/repo/include/mdds/trie_map_def.inl` (`tm.inl`), `trie_map_itr.hpp` (`itr.hpp`), `trie_map.hpp` (`tm.hpp`).

A program has several `packed_trie_map` objects, which it constructs, copies, moves, assigns, swaps and destroys, and
variables of the types `search_results` and `const_node_type`.  Both types hold a pointer to the value store, which is a
member of the map object, and a pointer to a cell, which lies in the buffer of the map's vector of cells.

Simplifications for the whole file:
* buffers of cells have an identity of their own (a number that is never used twice); moving and swapping vectors hands
  the buffers over, so a pointer to a cell names the buffer and the position; a pointer to a value store names the object;
* the object that `operator=` receives by value and its temporary are not visible to the program: only what is left of
  them is modelled;
* results of searches are constructed in their variables, they are not copied or assigned (see `Results.lean`);
* the loop over a result is one call;
* exceptions of the value type and of memory allocation are not modelled; `m_packed` of a handle is used in debug mode
  only and left out.
-/
namespace Mdds.Packed.Obj
open Mdds.Trie

variable {V : Type}

/-- `packed_trie_map` (`tm.hpp` 846-847): the buffer of `m_packed`, and `m_value_store`. -/
structure Object (V : Type) where
  buf : Nat
  vals : List V
  deriving DecidableEq, Repr

/-- `const value_store_type*`. -/
inductive Store where
  | null
  | of (c : Nat)
  | dead
  deriving DecidableEq, Repr

/-- `const pack_value_type*`. -/
inductive Pos where
  | null
  | cell (a off : Nat)
  | dead
  deriving DecidableEq, Repr

/-- `search_results` (`itr.hpp` 738-757, with the key buffer) and `const_node_type` (`tm.hpp` 602-610, without). -/
structure Var where
  store : Store
  pos : Pos
  search : Option Key
  deriving DecidableEq, Repr

structure World (V : Type) where
  cells : Nat → Option (List Nat)
  objs : Nat → Option (Object V)
  vars : Nat → Option Var
  next : Nat

def World.empty : World V := ⟨fun _ => none, fun _ => none, fun _ => none, 0⟩

/-- A new buffer; its identity is `w.next`. -/
def World.alloc (w : World V) (pk : List Nat) : World V :=
  { w with cells := fun b => if b = w.next then some pk else w.cells b, next := w.next + 1 }

def World.setObj (w : World V) (c : Nat) (o : Option (Object V)) : World V :=
  { w with objs := fun d => if d = c then o else w.objs d }

/-- A new map, or new contents of a map. -/
def World.fresh (w : World V) (c : Nat) (p : Packed V) : World V := (w.alloc p.pk).setObj c (some ⟨w.next, p.vals⟩)

def Pos.mark (a : Nat) : Pos → Pos
  | .cell b off => if b = a then .dead else .cell b off
  | p => p

/-- A buffer is released. -/
def World.free (w : World V) (a : Nat) : World V :=
  { w with
    cells := fun b => if b = a then none else w.cells b
    vars := fun i => (w.vars i).map fun x => { x with pos := x.pos.mark a } }

def Store.mark (c : Nat) : Store → Store
  | .of d => if d = c then .dead else .of d
  | s => s

/-- An object ceases to exist. -/
def World.drop (w : World V) (c : Nat) : World V :=
  { w.setObj c none with vars := fun i => (w.vars i).map fun x => { x with store := x.store.mark c } }

def World.put (w : World V) (i : Nat) (x : Var) : World V := { w with vars := fun j => if j = i then some x else w.vars j }

/-- The members of an object. -/
def World.map? (w : World V) (c : Nat) : Option (Nat × Packed V) :=
  match w.objs c with
  | some o => (w.cells o.buf).map fun pk => (o.buf, ⟨pk, o.vals⟩)
  | none => none

/-- The value store behind a pointer. -/
def World.store? (w : World V) : Store → Option (List V)
  | .of c => (w.objs c).map Object.vals
  | _ => none

inductive Cmd (V : Type) where
  | make (c : Nat)
  | pack (c : Nat) (l : List (Key × V))
  | copyNew (c d : Nat)
  | moveNew (c d : Nat)
  | destroy (c : Nat)
  | assign (c d : Nat)
  | assignMove (c d : Nat)
  | swap (c d : Nat)
  | size (c : Nat)
  | search (i c : Nat) (pre : Key)
  | rootNode (i c : Nat)
  | child (i j u : Nat)
  | copyNode (i j : Nat)
  | loop (i : Nat)
  | valid (i : Nat)
  | hasChild (i : Nat)
  | hasValue (i : Nat)
  | value (i : Nat)

inductive Ans (V : Type) where
  | unit
  | bool (b : Bool)
  | num (n : Nat)
  | val (v : V)
  | list (l : List (Key × V))
  deriving DecidableEq, Repr

/-- A `trie_map` into which the entries were inserted one after the other. -/
def build (l : List (Key × V)) : Node V := l.foldl (fun t e => Trie.insert e.1 e.2 t) Trie.empty

/-- A question about the node of a `const_node_type`; the question is given the cells, the position and the pointer to
the value store. -/
def World.ask (w : World V) (i : Nat) (dflt : Outcome (Ans V)) (f : List Nat → Nat → Store → Outcome (Ans V)) :
    Outcome (World V × Ans V) :=
  match w.vars i with
  | some ⟨_, .null, none⟩ => dflt.bind fun a => .ok (w, a)
  | some ⟨s, .cell a off, none⟩ => match w.cells a with
    | some pk => (f pk off s).bind fun a => .ok (w, a)
    | none => .ub
  | _ => .ub

/-- One call.  Objects are constructed under unused names; using an object or a variable that does not exist is undefined. -/
def step (cap fuel : Nat) (w : World V) : Cmd V → Outcome (World V × Ans V)
  | .make c => match w.objs c with                    -- `tm.inl` 1294-1302
    | none => .ok (w.fresh c defaultPacked, .unit)
    | some _ => .ub
  | .pack c l => match w.objs c with                  -- `tm.inl` 1342-1346
    | none => (Packed.pack cap (build l)).bind fun p => .ok (w.fresh c p, .unit)
    | some _ => .ub
  | .copyNew c d => match w.objs c, w.map? d with     -- `tm.inl` 1348-1390
    | none, some (_, p) => (copy cap fuel p).bind fun q => .ok (w.fresh c q, .unit)
    | _, _ => .ub
  | .moveNew c d => match w.objs c, w.objs d with     -- `tm.inl` 1391-1398
    | none, some o => .ok ((w.fresh d ⟨[1, 0, 0], []⟩).setObj c (some o), .unit)
    | _, _ => .ub
  | .destroy c => match w.objs c with
    | some o => .ok ((w.free o.buf).drop c, .unit)
    | none => .ub
  | .assign c d => match w.objs c, w.map? d with      -- `tm.inl` 1400-1406 with a copied argument
    | some old, some (_, p) => (copy cap fuel p).bind fun q => .ok ((w.fresh c q).free old.buf, .unit)
    | _, _ => .ub
  | .assignMove c d => match w.objs d with            -- `tm.inl` 1400-1406 with a moved argument
    | some o => match (w.fresh d ⟨[1, 0, 0], []⟩).objs c with
      | some old => .ok (((w.fresh d ⟨[1, 0, 0], []⟩).setObj c (some o)).free old.buf, .unit)
      | none => .ub
    | none => .ub
  | .swap c d => match w.objs c, w.objs d with        -- `tm.inl` 1598-1603
    | some ⟨a, vs⟩, some ⟨b, us⟩ => .ok ((w.setObj c (some ⟨b, us⟩)).setObj d (some ⟨a, vs⟩), .unit)
    | _, _ => .ub
  | .size c => match w.objs c with                    -- `tm.inl` 1586-1590
    | some o => .ok (w, .num o.vals.length)
    | none => .ub
  | .search i c pre => match w.map? c with            -- `tm.inl` 1566-1584
    | some (a, p) => (searchResults p pre).bind fun r =>
      .ok (w.put i ⟨.of c, match r.node with | some n => .cell a n | none => .null, some r.buf⟩, .unit)
    | none => .ub
  | .rootNode i c => match w.map? c with              -- `tm.inl` 1605-1611
    | some (a, p) => (rd p.pk 0).bind fun r => .ok (w.put i ⟨.of c, .cell a r, none⟩, .unit)
    | none => .ub
  | .child i j u => match w.vars j with               -- `tm.inl` 1257-1285
    | some ⟨_, .null, none⟩ => .ok (w.put i ⟨.null, .null, none⟩, .unit)
    | some ⟨s, .cell a off, none⟩ => match w.cells a with
      | some pk => (pChild pk off u).bind fun r => match r with
        | some off' => .ok (w.put i ⟨s, .cell a off', none⟩, .unit)
        | none => .ok (w.put i ⟨.null, .null, none⟩, .unit)
      | none => .ub
    | _ => .ub
  | .copyNode i j => match w.vars j with              -- `tm.hpp` 614, `tm.inl` 1202-1210
    | some ⟨s, p, none⟩ => .ok (w.put i ⟨s, p, none⟩, .unit)
    | _ => .ub
  | .loop i => match w.vars i with                    -- `itr.hpp` 802-833
    | some ⟨_, .null, some _⟩ => .ok (w, .list [])
    | some ⟨s, .cell a off, some buf⟩ => match w.cells a with
      | some pk => (Results.iterate cap fuel pk ⟨w.store? s, some off, buf⟩).bind fun l => .ok (w, .list l)
      | none => .ub
    | _ => .ub
  | .valid i => match w.vars i with                   -- `tm.inl` 1212-1216
    | some ⟨_, p, none⟩ => .ok (w, .bool (decide (p ≠ .null)))
    | _ => .ub
  | .hasChild i => w.ask i (.ok (.bool false)) fun pk off _ =>     -- `tm.inl` 1218-1230
      (rd pk (off + 1)).bind fun n => .ok (.bool (decide (0 < n)))
  | .hasValue i => w.ask i (.ok (.bool false)) fun pk off _ =>     -- `tm.inl` 1232-1243
      (rd pk off).bind fun n => .ok (.bool (decide (n ≠ nullValue cap)))
  | .value i => w.ask i .ub fun pk off s =>                        -- `tm.inl` 1245-1255
      (rd pk off).bind fun n => match w.store? s with
        | some vals => match vals[n]? with
          | some v => .ok (.val v)
          | none => .ub
        | none => .ub

/-- A program. -/
def run (cap fuel : Nat) (w : World V) : List (Cmd V) → Outcome (World V × List (Ans V))
  | [] => .ok (w, [])
  | c :: cs => (step cap fuel w c).bind fun x => (run cap fuel x.1 cs).bind fun y => .ok (y.1, x.2 :: y.2)

/-- The answers alone. -/
def answers (cap fuel : Nat) (p : List (Cmd V)) : Outcome (List (Ans V)) :=
  (run cap fuel World.empty p).bind fun x => .ok x.2

end Mdds.Packed.Obj
