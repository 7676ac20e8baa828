import Verif.Quad.Spec
/-!
Memory model of `mdds::point_quad_tree`: nodes in a heap with reference counts.

All pointers between nodes (`parent` included, quad_node.hpp 101-105), the root pointer of a container and the local
`node_ptr` variables are `boost::intrusive_ptr`s or their replacement in `node.hpp`: they own what they point to.  A node
is deleted when its count drops to zero; its own five pointers are then released.  Using a node that was deleted is
undefined behaviour, as is using a null pointer.

Simplifications: keys are `Int` as in `Model.lean`.  Local `node_ptr`s that only walk down the tree while nothing is
released (`cur_node` in `insert`, `find_node`, `insert_node`, `set_new_root`; the candidates of `find_replacement_node`)
are not counted: they add and take away one on the way and nothing looks at the counts in between.  After an exception
the run ends.  The loops carry a bound on the number of steps that is never reached.
-/
namespace Mdds.Quad

variable {V : Type}

/-- `quad_node_base` with the data of `point_quad_tree::node` (quad_node.hpp 93-117, point_quad_tree.hpp 345-372 of
`node`): `rc` is `refcount`. -/
structure Cell (V : Type) where
  x : Int
  y : Int
  d : V
  rc : Nat
  par : Option Nat
  ne : Option Nat
  nw : Option Nat
  se : Option Nat
  sw : Option Nat
  deriving DecidableEq, Repr

/-- `get_quadrant_node` (quad_node.hpp 198-219). -/
def Cell.kid (c : Cell V) : Quadrant → Option Nat
  | .ne => c.ne
  | .nw => c.nw
  | .se => c.se
  | .sw => c.sw

/-- Overwrite one of the four child pointers. -/
def Cell.setKid (c : Cell V) (q : Quadrant) (p : Option Nat) : Cell V :=
  match q with
  | .ne => { c with ne := p }
  | .nw => { c with nw := p }
  | .se => { c with se := p }
  | .sw => { c with sw := p }

/-- `leaf` (quad_node.hpp 132-135). -/
def Cell.leaf (c : Cell V) : Bool := c.ne.isNone && c.nw.isNone && c.se.isNone && c.sw.isNone

/-- The heap: what lies at each address, and the first address never used so far. -/
structure Mem (V : Type) where
  cell : Nat → Option (Cell V)
  next : Nat

/-- No nodes. -/
def Mem.empty : Mem V := ⟨fun _ => none, 0⟩

/-- Overwrite one address. -/
def Mem.put (m : Mem V) (a : Nat) (c : Option (Cell V)) : Mem V := { m with cell := fun b => if b = a then c else m.cell b }

/-- Follow a pointer. -/
def Mem.get (m : Mem V) (a : Nat) : Outcome (Cell V) := Outcome.ofOption (m.cell a)

/-- Change a node through a pointer. -/
def Mem.upd (m : Mem V) (a : Nat) (f : Cell V → Cell V) : Outcome (Mem V) :=
  (m.get a).bind fun c => .ok (m.put a (some (f c)))

/-- `intrusive_ptr_add_ref` (quad_node.hpp 222-226) for a pointer that may be null. -/
def addRef (p : Option Nat) (m : Mem V) : Outcome (Mem V) :=
  match p with
  | none => .ok m
  | some a => m.upd a fun c => { c with rc := c.rc + 1 }

/-- `intrusive_ptr_release` (quad_node.hpp 228-236) of the pointers of a list, one after the other; when a node is
deleted, its members are destroyed in the reverse order of their declaration before anything else is released. -/
def releaseL : Nat → List (Option Nat) → Mem V → Outcome (Mem V)
  | _, [], m => .ok m
  | 0, _ :: _, _ => .ub
  | f + 1, none :: l, m => releaseL f l m
  | f + 1, some a :: l, m => (m.get a).bind fun c =>
    if c.rc = 1 then releaseL f ([c.sw, c.se, c.nw, c.ne, c.par] ++ l) (m.put a none)
    else releaseL f l (m.put a (some { c with rc := c.rc - 1 }))

/-- A single pointer goes away.  Each deletion adds five pointers, and there are at most `next` deletions. -/
def release (p : Option Nat) (m : Mem V) : Outcome (Mem V) := releaseL (6 * m.next + 12) [p] m

/-- Assignment to a child pointer: the new target gains an owner, the old one loses one. -/
def assignKid (a : Nat) (q : Quadrant) (p : Option Nat) (m : Mem V) : Outcome (Mem V) :=
  (addRef p m).bind fun m => (m.get a).bind fun c => (m.upd a fun c => c.setKid q p).bind (release (c.kid q))

/-- Assignment to a parent pointer. -/
def assignPar (a : Nat) (p : Option Nat) (m : Mem V) : Outcome (Mem V) :=
  (addRef p m).bind fun m => (m.get a).bind fun c => (m.upd a fun c => { c with par := p }).bind (release c.par)

/-- `new node(x, y, data)` (quad_node.hpp 109-117), still without owner. -/
def alloc (x y : Int) (d : V) (m : Mem V) : Nat × Mem V :=
  (m.next, { (m.put m.next (some ⟨x, y, d, 0, none, none, none, none, none⟩)) with next := m.next + 1 })

/-- The walk of `insert`, `find_node`, `find_node_ptr` and `insert_node` (point_quad_tree.hpp 643-692, 1105-1145,
1147-1188, 1383-1440): the node at the point, or the node and the empty quadrant where the walk ends. -/
def walk (x y : Int) : Nat → Nat → Mem V → Outcome (Nat × Option Quadrant)
  | 0, _, _ => .ub
  | f + 1, a, m => (m.get a).bind fun c =>
    if c.x = x ∧ c.y = y then .ok (a, none)
    else match c.kid (getQuadrant c.x c.y x y) with
      | some b => walk x y f b m
      | none => .ok (a, some (getQuadrant c.x c.y x y))

/-- `insert` (point_quad_tree.hpp 624-693): the root pointer afterwards and the heap. -/
def insertH (x y : Int) (d : V) (root : Option Nat) (m : Mem V) : Outcome (Option Nat × Mem V) :=
  match root with
  | none => (addRef (some (alloc x y d m).1) (alloc x y d m).2).bind fun m' => .ok (some (alloc x y d m).1, m')
  | some r => (walk x y (m.next + 1) r m).bind fun w =>
    match w.2 with
    | none => (m.upd w.1 fun c => { c with d := d }).bind fun m => .ok (some r, m)
    | some q =>
      (assignKid w.1 q (some (alloc x y d m).1) (alloc x y d m).2).bind fun m' =>
        (assignPar (alloc x y d m).1 (some w.1) m').bind fun m' => .ok (some r, m')

/-- `disconnect_node_from_parent` (quad_node.hpp 238-264); the argument is passed by value. -/
def disconnect (p : Nat) (m : Mem V) : Outcome (Mem V) :=
  (addRef (some p) m).bind fun m => (m.get p).bind fun c =>
    (show Outcome (Mem V) from match c.par with
    | none => .ok m
    | some b => (m.get b).bind fun pc =>
      if pc.ne = some p then assignKid b .ne none m
      else if pc.nw = some p then assignKid b .nw none m
      else if pc.sw = some p then assignKid b .sw none m
      else if pc.se = some p then assignKid b .se none m
      else .err .general).bind (release (some p))

/-- The loop of `find_candidate_in_quad` (point_quad_tree.hpp 1274-1276). -/
def chainH (q : Quadrant) : Nat → Nat → Mem V → Outcome Nat
  | 0, _, _ => .ub
  | f + 1, a, m => (m.get a).bind fun c => match c.kid q with
    | some b => chainH q f b m
    | none => .ok a

/-- The three running minima of `find_replacement_node`. -/
structure BestH where
  dx : Option (Quadrant × Int × Nat) := none
  dy : Option (Quadrant × Int × Nat) := none
  city : Option (Quadrant × Int × Nat) := none

/-- point_quad_tree.hpp 1289-1295. -/
def improveH (cur : Option (Quadrant × Int × Nat)) (q : Quadrant) (dist : Int) (a : Nat) : Option (Quadrant × Int × Nat) :=
  match cur with
  | none => some (q, dist, a)
  | some x => if x.2.1 > dist then some (q, dist, a) else some x

/-- `find_candidate_in_quad` (point_quad_tree.hpp 1257-1296). -/
def candidateH (x y : Int) (del : Nat) (q : Quadrant) (m : Mem V) (b : BestH) : Outcome BestH :=
  (m.get del).bind fun c => match c.kid q with
    | none => .ok b
    | some k => (chainH (opposite q) (m.next + 1) k m).bind fun a => (m.get a).bind fun r =>
      let dx := if r.x > x then r.x - x else x - r.x
      let dy := if r.y > y then r.y - y else y - r.y
      .ok ⟨improveH b.dx q dx a, improveH b.dy q dy a, improveH b.city q (dx + dy) a⟩

/-- `find_replacement_node` (point_quad_tree.hpp 1190-1255). -/
def replacementH (x y : Int) (del : Nat) (m : Mem V) : Outcome (Option Nat) :=
  (candidateH x y del .ne m {}).bind fun b => (candidateH x y del .nw m b).bind fun b =>
  (candidateH x y del .sw m b).bind fun b => (candidateH x y del .se m b).bind fun b =>
  if b.dx.map (·.2.2) = b.dy.map (·.2.2) ∧ (b.dx.map (·.1) = some .nw ∨ b.dx.map (·.1) = some .se) then .ok (b.dx.map (·.2.2))
  else .ok (b.city.map (·.2.2))

/-- The two children `adjust_quad` goes on with (point_quad_tree.hpp 1324-1343). -/
def dirSides : Dir → Quadrant × Quadrant
  | .east => (.ne, .se)
  | .north => (.ne, .nw)
  | .south => (.se, .sw)
  | .west => (.nw, .sw)

/-- The child pointer of a node in the heap. -/
def kidOf (a : Nat) (q : Quadrant) (m : Mem V) : Outcome (Option Nat) := (m.get a).bind fun c => .ok (c.kid q)

/-- `adjust_quad` (point_quad_tree.hpp 1298-1345); the subtree is passed by value, the list holds owners. -/
def adjustH (xr yr : Int × Int) (dir : Dir) : Nat → Option Nat → List Nat → Mem V → Outcome (List Nat × Mem V)
  | _, none, l, m => .ok (l, m)
  | 0, some _, _, _ => .ub
  | f + 1, some a, l, m =>
    (addRef (some a) m).bind fun m => (m.get a).bind fun c =>
      (show Outcome (List Nat × Mem V) from
      if hatched xr yr c.x c.y then
        (disconnect a m).bind fun m => (assignPar a none m).bind fun m => (addRef (some a) m).bind fun m => .ok (l ++ [a], m)
      else
        (kidOf a (dirSides dir).1 m).bind fun k => (adjustH xr yr dir f k l m).bind fun r =>
        (kidOf a (dirSides dir).2 r.2).bind fun k => adjustH xr yr dir f k r.1 r.2).bind fun r =>
      (release (some a) r.2).bind fun m => .ok (r.1, m)

/-- The two children of each node on the way that `set_new_root` adjusts (point_quad_tree.hpp 1356-1373). -/
def rootSides : Quadrant → (Quadrant × Dir) × (Quadrant × Dir)
  | .ne => ((.se, .east), (.nw, .north))
  | .nw => ((.ne, .north), (.sw, .west))
  | .se => ((.ne, .east), (.sw, .south))
  | .sw => ((.nw, .west), (.se, .south))

/-- `set_new_root` (point_quad_tree.hpp 1347-1378). -/
def newRootH (xr yr : Int × Int) (dir : Quadrant) : Nat → Option Nat → List Nat → Mem V → Outcome (List Nat × Mem V)
  | _, none, l, m => .ok (l, m)
  | 0, some _, _, _ => .ub
  | f + 1, some a, l, m =>
    (kidOf a (rootSides dir).1.1 m).bind fun k => (adjustH xr yr (rootSides dir).1.2 (m.next + 1) k l m).bind fun r =>
    (kidOf a (rootSides dir).2.1 r.2).bind fun k => (adjustH xr yr (rootSides dir).2.2 (m.next + 1) k r.1 r.2).bind fun r =>
    (kidOf a dir r.2).bind fun k => newRootH xr yr dir f k r.1 r.2

/-- `insert_node` (point_quad_tree.hpp 1380-1442). -/
def insertNodeH (dest this : Nat) (m : Mem V) : Outcome (Mem V) :=
  (m.get this).bind fun t => (walk t.x t.y (m.next + 1) dest m).bind fun w =>
    match w.2 with
    | none => .err .general
    | some q => (assignKid w.1 q (some this) m).bind (assignPar this (some w.1))

/-- `reinsert_tree(dest, root)` (point_quad_tree.hpp 1444-1476). -/
def reinsertH : Nat → Nat → Nat → Mem V → Outcome (Mem V)
  | 0, _, _, _ => .ub
  | f + 1, dest, root, m =>
    let side (q : Quadrant) (m : Mem V) : Outcome (Mem V) := (m.get root).bind fun c => match c.kid q with
      | none => .ok m
      | some k => (reinsertH f dest k m).bind (assignKid root q none)
    (side .ne m).bind fun m => (side .nw m).bind fun m => (side .se m).bind fun m => (side .sw m).bind fun m =>
      (assignPar root none m).bind (insertNodeH dest root)

/-- `reinsert_tree(dest, quad, root)` (point_quad_tree.hpp 1478-1526). -/
def reinsertAtH (dest : Nat) (q : Quadrant) (root : Option Nat) (m : Mem V) : Outcome (Mem V) :=
  match root with
  | none => .ok m
  | some r => (m.get dest).bind fun c => match c.kid q with
    | some k => reinsertH (m.next + 1) k r m
    | none => (assignKid dest q (some r) m).bind (assignPar r (some dest))

/-- The loop at the end of `remove` (point_quad_tree.hpp 868-872). -/
def reinsertListH (dest : Nat) : List Nat → Mem V → Outcome (Mem V)
  | [], m => .ok m
  | r :: l, m => (reinsertH (m.next + 1) dest r m).bind (reinsertListH dest l)

/-- Owners in a list go away. -/
def releaseAll : List Nat → Mem V → Outcome (Mem V)
  | [], m => .ok m
  | a :: l, m => (release (some a) m).bind (releaseAll l)

/-- `remove` of a node with children (point_quad_tree.hpp 763-872), with `delete_node` an owner from 731 on. -/
def removeInnerH (del : Nat) (m : Mem V) : Outcome (Mem V) :=
  (m.get del).bind fun c => (replacementH c.x c.y del m).bind fun o => match o with
  | none => .err .general
  | some r =>
    (addRef (some r) m).bind fun m => (m.get r).bind fun rc =>
    let q := getQuadrant c.x c.y rc.x rc.y
    let xr := ordered c.x rc.x
    let yr := ordered c.y rc.y
    (m.get del).bind fun c1 => (adjustH xr yr (adjacent q).1.2 (m.next + 1) (c1.kid (adjacent q).1.1) [] m).bind fun s =>
    (s.2.get del).bind fun c2 => (adjustH xr yr (adjacent q).2.2 (m.next + 1) (c2.kid (adjacent q).2.1) s.1 s.2).bind fun s =>
    (s.2.get del).bind fun c3 => (newRootH xr yr (opposite q) (m.next + 1) (c3.kid q) s.1 s.2).bind fun s =>
    -- the two side subtrees of the replacement
    (s.2.get r).bind fun r1 => (addRef (r1.kid (sides q).1) s.2).bind fun m => (assignKid r (sides q).1 none m).bind fun m =>
    (reinsertAtH del (sides q).1 (r1.kid (sides q).1) m).bind fun m =>
    (m.get r).bind fun r2 => (addRef (r2.kid (sides q).2) m).bind fun m => (release (r1.kid (sides q).1) m).bind fun m =>
    (assignKid r (sides q).2 none m).bind fun m => (reinsertAtH del (sides q).2 (r2.kid (sides q).2) m).bind fun m =>
    (release (r2.kid (sides q).2) m).bind fun m =>
    -- coordinates, data, parent, the quadrant itself
    (m.get r).bind fun r3 => (m.upd del fun c => { c with x := r3.x, y := r3.y, d := r3.d }).bind fun m =>
    (assignPar del r3.par m).bind fun m => (assignPar r none m).bind fun m =>
    (m.get r).bind fun r4 => (assignKid del q (r4.kid q) m).bind fun m => (assignKid r q none m).bind fun m =>
    (reinsertListH del s.1 m).bind fun m => (releaseAll s.1 m).bind fun m => release (some r) m

/-- `remove` (point_quad_tree.hpp 727-873). -/
def removeH (x y : Int) (root : Option Nat) (m : Mem V) : Outcome (Option Nat × Mem V) :=
  match root with
  | none => .ok (none, m)
  | some r => (walk x y (m.next + 1) r m).bind fun w => match w.2 with
    | some _ => .ok (root, m)
    | none => (addRef (some w.1) m).bind fun m => (m.get w.1).bind fun c =>
      if c.leaf then
        if w.1 = r then (release (some r) m).bind fun m => (release (some w.1) m).bind fun m => .ok (none, m)
        else (disconnect w.1 m).bind fun m => (release (some w.1) m).bind fun m => .ok (root, m)
      else (removeInnerH w.1 m).bind fun m => (release (some w.1) m).bind fun m => .ok (root, m)

/-- `disconnect_all_nodes` (quad_node.hpp 266-297); the argument is passed by value. -/
def disconnectAll : Nat → Nat → Mem V → Outcome (Mem V)
  | 0, _, _ => .ub
  | f + 1, p, m =>
    let side (q : Quadrant) (m : Mem V) : Outcome (Mem V) := (m.get p).bind fun c => match c.kid q with
      | none => .ok m
      | some k => (disconnectAll f k m).bind (assignKid p q none)
    (addRef (some p) m).bind fun m =>
    (side .ne m).bind fun m => (side .nw m).bind fun m => (side .se m).bind fun m => (side .sw m).bind fun m =>
      (assignPar p none m).bind (release (some p))

/-- `clear_all_nodes` (point_quad_tree.hpp 1528-1533), called by `clear`, the destructor and the assignment. -/
def clearH (root : Option Nat) (m : Mem V) : Outcome (Mem V) :=
  match root with
  | none => .ok m
  | some r => (disconnectAll (m.next + 1) r m).bind (release (some r))

/-- `get_all_stored_data` (point_quad_tree.hpp 1091-1103). -/
def allDataH : Nat → Option Nat → Mem V → Outcome (List (Pt V))
  | _, none, _ => .ok []
  | 0, some _, _ => .ub
  | f + 1, some a, m => (m.get a).bind fun c =>
    (allDataH f c.ne m).bind fun l1 => (allDataH f c.nw m).bind fun l2 =>
    (allDataH f c.se m).bind fun l3 => (allDataH f c.sw m).bind fun l4 =>
      .ok (⟨c.x, c.y, c.d⟩ :: (l1 ++ l2 ++ l3 ++ l4))

/-- The loop of `insert_data_from` (point_quad_tree.hpp 1047-1054). -/
def insertAllH : List (Pt V) → Option Nat → Mem V → Outcome (Option Nat × Mem V)
  | [], root, m => .ok (root, m)
  | p :: l, root, m => (insertH p.x p.y p.d root m).bind fun r => insertAllH l r.1 r.2

/-- `find` (point_quad_tree.hpp 718-725). -/
def findH (x y : Int) (root : Option Nat) (m : Mem V) : Outcome V :=
  match root with
  | none => .err .dataNotFound
  | some r => (walk x y (m.next + 1) r m).bind fun w => match w.2 with
    | some _ => .err .dataNotFound
    | none => (m.get w.1).bind fun c => .ok c.d

/-! ### Programs with any number of containers -/

/-- The containers of a program: `none` for a name that is not in use, else the root pointer. -/
structure World (V : Type) where
  mem : Mem V
  var : Nat → Option (Option Nat)

/-- At the start. -/
def World.start : World V := ⟨Mem.empty, fun _ => none⟩

/-- Set one name. -/
def setVar {α : Type} (f : Nat → α) (i : Nat) (x : α) : Nat → α := fun j => if j = i then x else f j

/-- What a program does with containers. -/
inductive Call (V : Type) where
  /-- `point_quad_tree t_i;` -/
  | make (i : Nat)
  /-- `point_quad_tree t_i(t_j);` -/
  | copy (i j : Nat)
  | insert (i : Nat) (x y : Int) (d : V)
  | remove (i : Nat) (x y : Int)
  | clear (i : Nat)
  /-- `t_i = t_j` -/
  | assign (i j : Nat)
  | swap (i j : Nat)
  /-- the destructor -/
  | destroy (i : Nat)

/-- The root pointer of a container in use. -/
def World.root (w : World V) (i : Nat) : Outcome (Option Nat) := Outcome.ofOption (w.var i)

/-- One call (point_quad_tree.hpp 606-622 constructors and destructor, 875-887 `swap` and `clear`, 909-917 assignment). -/
def Call.run (w : World V) : Call V → Outcome (World V)
  | .make i => .ok ⟨w.mem, setVar w.var i (some none)⟩
  | .copy i j => (w.root j).bind fun r => (allDataH (w.mem.next + 1) r w.mem).bind fun l =>
      (insertAllH l none w.mem).bind fun s => .ok ⟨s.2, setVar w.var i (some s.1)⟩
  | .insert i x y d => (w.root i).bind fun r => (insertH x y d r w.mem).bind fun s => .ok ⟨s.2, setVar w.var i (some s.1)⟩
  | .remove i x y => (w.root i).bind fun r => (removeH x y r w.mem).bind fun s => .ok ⟨s.2, setVar w.var i (some s.1)⟩
  | .clear i => (w.root i).bind fun r => (clearH r w.mem).bind fun m => .ok ⟨m, setVar w.var i (some none)⟩
  | .assign i j => (w.root i).bind fun r => (clearH r w.mem).bind fun m =>
      (World.root ⟨m, setVar w.var i (some none)⟩ j).bind fun s => (allDataH (m.next + 1) s m).bind fun l =>
      (insertAllH l none m).bind fun s => .ok ⟨s.2, setVar w.var i (some s.1)⟩
  | .swap i j => (w.root i).bind fun r => (w.root j).bind fun s => .ok ⟨w.mem, setVar (setVar w.var i (some s)) j (some r)⟩
  | .destroy i => (w.root i).bind fun r => (clearH r w.mem).bind fun m => .ok ⟨m, setVar w.var i none⟩

/-- A program. -/
def World.run (w : World V) : List (Call V) → Outcome (World V)
  | [] => .ok w
  | c :: l => (c.run w).bind fun w => w.run l

end Mdds.Quad
