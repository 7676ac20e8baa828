import Verif.Common
import Mathlib.Data.List.Sort

/-!
Model of `mdds::point_quad_tree<Key, Value>`
(`include/mdds/point_quad_tree.hpp` and `include/mdds/quad_node.hpp`).

Simplifications.
* Keys are `Int` (unbounded: no overflow in the distance computations).
* The tree of reference-counted nodes is an inductive tree.  A node's `parent`
  pointer is only ever read by `disconnect_node_from_parent`, which asks whether
  the parent it points to has this node as a child; the model keeps that answer
  as the boolean `ok` of the node (the root's own pointer is never consulted).
  `remove` leaves some parent pointers pointing at nodes that no longer lead back;
  those get `ok := false`.
* An exception ends the call with `.err`; the half-modified tree that the C++
  code leaves behind after an exception in `remove` is not represented.
* `m_xrange`/`m_yrange` (only used by the SVG dump), the dump functions and
  `node_access` are not modelled.
-/
namespace Mdds.Quad

/-- A stored point: `node_data`, point_quad_tree.hpp 497-533; `point`, 91-103. -/
structure Pt (V : Type) where
  x : Int
  y : Int
  d : V
  deriving DecidableEq, Repr

/-- `node_quadrant_t`, quad_node.hpp 28-35 (without `quad_unspecified`, which is
never stored in a node). -/
inductive Quadrant where
  | ne | nw | se | sw
  deriving DecidableEq, Repr

/-- `direction_t`, quad_node.hpp 66-72. -/
inductive Dir where
  | north | west | south | east
  deriving DecidableEq, Repr

/-- `opposite`, quad_node.hpp 74-90. -/
def opposite : Quadrant → Quadrant
  | .ne => .sw
  | .nw => .se
  | .se => .nw
  | .sw => .ne

/-- `quad_node_base` 92-117 plus the data member of `point_quad_tree::node`
(point_quad_tree.hpp 345-372).  `ok`: the node's parent pointer refers to the node
that has it as a child (see the header). -/
inductive Tree (V : Type) where
  | nil
  | node (x y : Int) (d : V) (ok : Bool) (ne nw se sw : Tree V)
  deriving DecidableEq, Repr

variable {V : Type}

/-- `get_quadrant`, quad_node.hpp 170-178: where `(ox, oy)` lies seen from `(x, y)`. -/
def getQuadrant (x y ox oy : Int) : Quadrant :=
  if ox < x then (if oy < y then .nw else .sw)
  else (if oy < y then .ne else .se)

/-- A fresh node attached under its parent: point_quad_tree.hpp 654-657 and the
like; at the root, 636. -/
def Tree.leaf (x y : Int) (d : V) : Tree V := .node x y d true .nil .nil .nil .nil

/-- `insert`, point_quad_tree.hpp 624-693. -/
def insertPt (px py : Int) (pd : V) : Tree V → Tree V
  | .nil => Tree.leaf px py pd
  | .node x y d ok ne nw se sw =>
    if x = px ∧ y = py then .node x y pd ok ne nw se sw
    else match getQuadrant x y px py with
      | .ne => .node x y d ok (insertPt px py pd ne) nw se sw
      | .nw => .node x y d ok ne (insertPt px py pd nw) se sw
      | .se => .node x y d ok ne nw (insertPt px py pd se) sw
      | .sw => .node x y d ok ne nw se (insertPt px py pd sw)

/-- `find_node_ptr`, point_quad_tree.hpp 1147-1188 (and `find_node` 1105-1145,
which is the same walk). -/
def findNode (px py : Int) : Tree V → Option V
  | .nil => none
  | .node x y d _ ne nw se sw =>
    if x = px ∧ y = py then some d
    else match getQuadrant x y px py with
      | .ne => findNode px py ne
      | .nw => findNode px py nw
      | .se => findNode px py se
      | .sw => findNode px py sw

/-- `find`, point_quad_tree.hpp 718-725. -/
def find (t : Tree V) (px py : Int) : Outcome V :=
  match findNode px py t with
  | some d => .ok d
  | none => .err .dataNotFound

/-- `search_region_space_t`, quad_node.hpp 44-55. -/
inductive Space where
  | northwest | north | northeast | east | southeast | south | southwest | west | center
  deriving DecidableEq, Repr

/-- `get_search_region_space`, quad_node.hpp 299-349. -/
def searchSpace (x y x1 y1 x2 y2 : Int) : Space :=
  if x < x1 then
    if y < y1 then .northwest else if y1 ≤ y ∧ y ≤ y2 then .west else .southwest
  else if x1 ≤ x ∧ x ≤ x2 then
    if y < y1 then .north else if y1 ≤ y ∧ y ≤ y2 then .center else .south
  else
    if y < y1 then .northeast else if y1 ≤ y ∧ y ≤ y2 then .east else .southeast

/-- `search_region_node`, point_quad_tree.hpp 28-82; both inserters append the
reported point to the result. -/
def searchRegion (x1 y1 x2 y2 : Int) : Tree V → List (Pt V)
  | .nil => []
  | .node x y d _ ne nw se sw =>
    match searchSpace x y x1 y1 x2 y2 with
    | .center =>
      ⟨x, y, d⟩ :: (searchRegion x1 y1 x2 y2 ne ++ searchRegion x1 y1 x2 y2 nw
        ++ searchRegion x1 y1 x2 y2 se ++ searchRegion x1 y1 x2 y2 sw)
    | .east => searchRegion x1 y1 x2 y2 nw ++ searchRegion x1 y1 x2 y2 sw
    | .north => searchRegion x1 y1 x2 y2 se ++ searchRegion x1 y1 x2 y2 sw
    | .northeast => searchRegion x1 y1 x2 y2 sw
    | .northwest => searchRegion x1 y1 x2 y2 se
    | .south => searchRegion x1 y1 x2 y2 ne ++ searchRegion x1 y1 x2 y2 nw
    | .southeast => searchRegion x1 y1 x2 y2 nw
    | .southwest => searchRegion x1 y1 x2 y2 ne
    | .west => searchRegion x1 y1 x2 y2 ne ++ searchRegion x1 y1 x2 y2 se

/-- `count_all_nodes`, point_quad_tree.hpp 1033-1045; `size`, 895-901. -/
def size : Tree V → Nat
  | .nil => 0
  | .node _ _ _ _ ne nw se sw => 1 + size ne + size nw + size se + size sw

/-- `empty`, point_quad_tree.hpp 889-893. -/
def empty : Tree V → Bool
  | .nil => true
  | .node .. => false

/-- `get_all_stored_data`, point_quad_tree.hpp 1091-1103. -/
def allData : Tree V → List (Pt V)
  | .nil => []
  | .node x y d _ ne nw se sw =>
    ⟨x, y, d⟩ :: (allData ne ++ allData nw ++ allData se ++ allData sw)

/-- `insert_data_from`, point_quad_tree.hpp 1047-1054, into the tree `t`. -/
def insertAll (t : Tree V) (l : List (Pt V)) : Tree V :=
  l.foldl (fun t p => insertPt p.x p.y p.d t) t

/-- Copy constructor, point_quad_tree.hpp 612-616. -/
def copy (r : Tree V) : Tree V := insertAll .nil (allData r)

/-- Copy assignment `dst = src` between two of a program's variables (`env` maps
variable names to their trees), point_quad_tree.hpp 909-917: the destination is
cleared before the source is read.  There is no self-assignment check. -/
def assign (env : Nat → Tree V) (dst src : Nat) : Nat → Tree V :=
  let cleared := fun v => if v = dst then .nil else env v
  fun v => if v = dst then insertAll (cleared dst) (allData (cleared src)) else cleared v

/-- `node_data::sorter`, point_quad_tree.hpp 518-532: by x, then y, then data. -/
def ptLt [LT V] [DecidableLT V] (a b : Pt V) : Bool :=
  if a.x ≠ b.x then decide (a.x < b.x)
  else if a.y ≠ b.y then decide (a.y < b.y)
  else decide (a.d < b.d)

/-- `equals`, point_quad_tree.hpp 995-1021.  `std::sort` is represented by an
insertion sort with the same comparison (which of two equivalent elements comes first is
unspecified in C++; the stored points of one tree are pairwise inequivalent). -/
def equalsData [LT V] [DecidableLT V] [DecidableEq V] (v1 v2 : List (Pt V)) : Bool :=
  if v1.length ≠ v2.length then false
  else decide (v1.insertionSort (fun a b => ptLt b a = false)
    = v2.insertionSort (fun a b => ptLt b a = false))

/-- `operator==`, point_quad_tree.hpp 919-926. -/
def equals [LT V] [DecidableLT V] [DecidableEq V] (t u : Tree V) : Bool :=
  equalsData (allData t) (allData u)

/-! ### `remove` -/

/-- `get_quadrant_node`, quad_node.hpp 198-219 (null for the empty tree). -/
def Tree.child (q : Quadrant) : Tree V → Tree V
  | .nil => .nil
  | .node _ _ _ _ ne nw se sw =>
    match q with
    | .ne => ne
    | .nw => nw
    | .se => se
    | .sw => sw

/-- Overwrite one child pointer of a node. -/
def Tree.setChild (t : Tree V) (q : Quadrant) (c : Tree V) : Tree V :=
  match t with
  | .nil => .nil
  | .node x y d ok ne nw se sw =>
    match q with
    | .ne => .node x y d ok c nw se sw
    | .nw => .node x y d ok ne c se sw
    | .se => .node x y d ok ne nw c sw
    | .sw => .node x y d ok ne nw se c

/-- The candidate loop of `find_candidate_in_quad`, point_quad_tree.hpp 1274-1276:
follow the child pointers in direction `oq` to the last node. -/
def chainEnd (oq : Quadrant) : Tree V → Tree V
  | .nil => .nil
  | .node x y d ok ne nw se sw =>
    match oq with
    | .ne => match ne with
      | .nil => .node x y d ok ne nw se sw
      | c => chainEnd .ne c
    | .nw => match nw with
      | .nil => .node x y d ok ne nw se sw
      | c => chainEnd .nw c
    | .se => match se with
      | .nil => .node x y d ok ne nw se sw
      | c => chainEnd .se c
    | .sw => match sw with
      | .nil => .node x y d ok ne nw se sw
      | c => chainEnd .sw c

/-- The three running minima of `find_replacement_node`: quadrant of the candidate
and its distance.  A candidate node is identified by the quadrant it was found in. -/
structure Best where
  dx : Option (Quadrant × Int) := none
  dy : Option (Quadrant × Int) := none
  city : Option (Quadrant × Int) := none
  deriving DecidableEq, Repr

/-- "`!node.node || node.dist > d` then replace", point_quad_tree.hpp 1289-1295. -/
def improve (cur : Option (Quadrant × Int)) (q : Quadrant) (dist : Int) :
    Option (Quadrant × Int) :=
  match cur with
  | none => some (q, dist)
  | some (q0, d0) => if d0 > dist then some (q, dist) else some (q0, d0)

/-- `find_candidate_in_quad`, point_quad_tree.hpp 1257-1296. -/
def findCandidate (x y : Int) (del : Tree V) (q : Quadrant) (b : Best) : Best :=
  match chainEnd (opposite q) (del.child q) with
  | .nil => b
  | .node rx ry _ _ _ _ _ _ =>
    let dx := if rx > x then rx - x else x - rx
    let dy := if ry > y then ry - y else y - ry
    { dx := improve b.dx q dx, dy := improve b.dy q dy, city := improve b.city q (dx + dy) }

/-- `find_replacement_node`, point_quad_tree.hpp 1190-1255: the quadrant whose
candidate replaces the removed node. -/
def findReplacement (x y : Int) (del : Tree V) : Option Quadrant :=
  let b := findCandidate x y del .se <| findCandidate x y del .sw <|
    findCandidate x y del .nw <| findCandidate x y del .ne {}
  let dxq := b.dx.map Prod.fst
  let dyq := b.dy.map Prod.fst
  if dxq = dyq ∧ (dxq = some .nw ∨ dxq = some .se) then dxq
  else b.city.map Prod.fst

/-- The hatched-region test, point_quad_tree.hpp 1312-1313. -/
def hatched (xr yr : Int × Int) (x y : Int) : Bool :=
  decide ((xr.1 ≤ x ∧ x ≤ xr.2) ∨ (yr.1 ≤ y ∧ y ≤ yr.2))

/-- `adjust_quad`, point_quad_tree.hpp 1298-1345, with
`disconnect_node_from_parent`, quad_node.hpp 238-264.  Returns the remaining subtree
and the subtrees cut from it, in the order they were pushed to `insert_list`. -/
def adjustQuad (xr yr : Int × Int) (dir : Dir) : Tree V → Outcome (Tree V × List (Tree V))
  | .nil => .ok (.nil, [])
  | .node x y d ok ne nw se sw =>
    if hatched xr yr x y then
      if ok then .ok (.nil, [.node x y d ok ne nw se sw]) else .err .general
    else match dir with
      | .east => do
        let (ne', l1) ← adjustQuad xr yr .east ne
        let (se', l2) ← adjustQuad xr yr .east se
        pure (.node x y d ok ne' nw se' sw, l1 ++ l2)
      | .north => do
        let (ne', l1) ← adjustQuad xr yr .north ne
        let (nw', l2) ← adjustQuad xr yr .north nw
        pure (.node x y d ok ne' nw' se sw, l1 ++ l2)
      | .south => do
        let (se', l1) ← adjustQuad xr yr .south se
        let (sw', l2) ← adjustQuad xr yr .south sw
        pure (.node x y d ok ne nw se' sw', l1 ++ l2)
      | .west => do
        let (nw', l1) ← adjustQuad xr yr .west nw
        let (sw', l2) ← adjustQuad xr yr .west sw
        pure (.node x y d ok ne nw' se sw', l1 ++ l2)

/-- `set_new_root`, point_quad_tree.hpp 1347-1378: walk from the quadrant's root in
direction `dir`, cutting hatched subtrees off the two side children of every node. -/
def setNewRoot (xr yr : Int × Int) (dir : Quadrant) :
    Tree V → Outcome (Tree V × List (Tree V))
  | .nil => .ok (.nil, [])
  | .node x y d ok ne nw se sw =>
    match dir with
    | .ne => do
      let (se', l1) ← adjustQuad xr yr .east se
      let (nw', l2) ← adjustQuad xr yr .north nw
      let (ne', l3) ← setNewRoot xr yr .ne ne
      pure (.node x y d ok ne' nw' se' sw, l1 ++ l2 ++ l3)
    | .nw => do
      let (ne', l1) ← adjustQuad xr yr .north ne
      let (sw', l2) ← adjustQuad xr yr .west sw
      let (nw', l3) ← setNewRoot xr yr .nw nw
      pure (.node x y d ok ne' nw' se sw', l1 ++ l2 ++ l3)
    | .se => do
      let (ne', l1) ← adjustQuad xr yr .east ne
      let (sw', l2) ← adjustQuad xr yr .south sw
      let (se', l3) ← setNewRoot xr yr .se se
      pure (.node x y d ok ne' nw se' sw', l1 ++ l2 ++ l3)
    | .sw => do
      let (nw', l1) ← adjustQuad xr yr .west nw
      let (se', l2) ← adjustQuad xr yr .south se
      let (sw', l3) ← setNewRoot xr yr .sw sw
      pure (.node x y d ok ne nw' se' sw', l1 ++ l2 ++ l3)

/-- `insert_node`, point_quad_tree.hpp 1380-1442; `this_node` has no children at the
call sites.  Called with an empty destination it would dereference null. -/
def insertNode (p : Pt V) : Tree V → Outcome (Tree V)
  | .nil => .ub
  | .node x y d ok ne nw se sw =>
    if x = p.x ∧ y = p.y then .err .general
    else match getQuadrant x y p.x p.y with
      | .ne => match ne with
        | .nil => .ok (.node x y d ok (Tree.leaf p.x p.y p.d) nw se sw)
        | c => do let c' ← insertNode p c; pure (.node x y d ok c' nw se sw)
      | .nw => match nw with
        | .nil => .ok (.node x y d ok ne (Tree.leaf p.x p.y p.d) se sw)
        | c => do let c' ← insertNode p c; pure (.node x y d ok ne c' se sw)
      | .se => match se with
        | .nil => .ok (.node x y d ok ne nw (Tree.leaf p.x p.y p.d) sw)
        | c => do let c' ← insertNode p c; pure (.node x y d ok ne nw c' sw)
      | .sw => match sw with
        | .nil => .ok (.node x y d ok ne nw se (Tree.leaf p.x p.y p.d))
        | c => do let c' ← insertNode p c; pure (.node x y d ok ne nw se c')

/-- `reinsert_tree(dest, root)`, point_quad_tree.hpp 1444-1476. -/
def reinsertTree (dest : Tree V) : Tree V → Outcome (Tree V)
  | .nil => .ok dest
  | .node x y d _ ne nw se sw => do
    let d1 ← reinsertTree dest ne
    let d2 ← reinsertTree d1 nw
    let d3 ← reinsertTree d2 se
    let d4 ← reinsertTree d3 sw
    insertNode ⟨x, y, d⟩ d4

/-- Set the parent status of a subtree's root. -/
def Tree.setOk (b : Bool) : Tree V → Tree V
  | .nil => .nil
  | .node x y d _ ne nw se sw => .node x y d b ne nw se sw

/-- `reinsert_tree(dest, quad, root)`, point_quad_tree.hpp 1478-1526. -/
def reinsertTreeAt (dest : Tree V) (q : Quadrant) (root : Tree V) : Outcome (Tree V) :=
  match root with
  | .nil => .ok dest
  | _ =>
    match dest.child q with
    | .nil => .ok (dest.setChild q (root.setOk true))
    | c => do let c' ← reinsertTree c root; pure (dest.setChild q c')

/-- The loop at the end of `remove`, point_quad_tree.hpp 868-872. -/
def reinsertList (dest : Tree V) : List (Tree V) → Outcome (Tree V)
  | [] => .ok dest
  | t :: l => do
    let d ← reinsertTree dest t
    reinsertList d l

/-- `ensure_order` on `(a, b)`, point_quad_tree.hpp 21-26. -/
def ordered (a b : Int) : Int × Int := if a > b then (b, a) else (a, b)

/-- The two quadrants adjacent to quadrant `q`, with the directions in which they are
adjusted, in the order of the first `switch` of `remove`, 779-803. -/
def adjacent : Quadrant → (Quadrant × Dir) × (Quadrant × Dir)
  | .ne => ((.nw, .south), (.se, .west))
  | .nw => ((.ne, .south), (.sw, .east))
  | .se => ((.ne, .west), (.sw, .north))
  | .sw => ((.nw, .east), (.se, .north))

/-- The two side quadrants of the replacement node whose subtrees are reinserted
directly, second `switch` of `remove`, 807-835. -/
def sides : Quadrant → Quadrant × Quadrant
  | .ne => (.nw, .se)
  | .sw => (.nw, .se)
  | .nw => (.ne, .sw)
  | .se => (.ne, .sw)

/-- Coordinates and data of the replacement written into the removed node, whose
parent pointer becomes the replacement's (838-844): that node, or the removed node
itself when the replacement was its direct child, never leads back to it. -/
def Tree.overwrite (p : Pt V) : Tree V → Tree V
  | .nil => .nil
  | .node _ _ _ _ ne nw se sw => .node p.x p.y p.d false ne nw se sw

/-- `remove` of a node that has children, point_quad_tree.hpp 763-872, applied to the
subtree rooted at the node to delete.  When the quadrant computed from the
coordinates (768) differs from the one the candidate was found in, the model stops
with `.ub`; theorems show this does not arise. -/
def removeInner (del : Tree V) : Outcome (Tree V) :=
  match del with
  | .nil => .ub
  | .node x y _ _ _ _ _ _ =>
    match findReplacement x y del with
    | none => .err .general
    | some q =>
      match chainEnd (opposite q) (del.child q) with
      | .nil => .ub
      | .node rx ry rd _ _ _ _ _ =>
        if getQuadrant x y rx ry ≠ q then .ub else do
        let xr := ordered x rx
        let yr := ordered y ry
        let ((a1, dir1), (a2, dir2)) := adjacent q
        let (c1, l1) ← adjustQuad xr yr dir1 (del.child a1)
        let (c2, l2) ← adjustQuad xr yr dir2 (del.child a2)
        let (cq, l3) ← setNewRoot xr yr (opposite q) (del.child q)
        let repl := chainEnd (opposite q) cq
        let del1 := (del.setChild a1 c1).setChild a2 c2
        let (s1, s2) := sides q
        let del2 ← reinsertTreeAt del1 s1 (repl.child s1)
        let del3 ← reinsertTreeAt del2 s2 (repl.child s2)
        let del4 := (del3.overwrite ⟨rx, ry, rd⟩).setChild q ((repl.child q).setOk false)
        reinsertList del4 (l1 ++ l2 ++ l3)

/-- `leaf`, quad_node.hpp 132-135. -/
def Tree.isLeaf : Tree V → Bool
  | .node _ _ _ _ .nil .nil .nil .nil => true
  | _ => false

/-- `remove`, point_quad_tree.hpp 727-873, as a walk from a subtree's root.  `top`
says that the subtree is the whole tree. -/
def removeFrom (px py : Int) (top : Bool) : Tree V → Outcome (Tree V)
  | .nil => .ok .nil
  | .node x y d ok ne nw se sw =>
    if x = px ∧ y = py then
      if (Tree.node x y d ok ne nw se sw).isLeaf then
        if top || ok then .ok .nil else .err .general
      else removeInner (.node x y d ok ne nw se sw)
    else match getQuadrant x y px py with
      | .ne => do let c ← removeFrom px py false ne; pure (.node x y d ok c nw se sw)
      | .nw => do let c ← removeFrom px py false nw; pure (.node x y d ok ne c se sw)
      | .se => do let c ← removeFrom px py false se; pure (.node x y d ok ne nw c sw)
      | .sw => do let c ← removeFrom px py false sw; pure (.node x y d ok ne nw se c)

/-- `remove(x, y)`. -/
def removePt (t : Tree V) (px py : Int) : Outcome (Tree V) := removeFrom px py true t

end Mdds.Quad
