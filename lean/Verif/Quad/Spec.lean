import Verif.Quad.Model

/-!
Specification vocabulary for `point_quad_tree`: a finite map from points to data,
the calls a program makes, and the trees such programs reach.
-/
namespace Mdds.Quad

variable {V : Type}

/-- The abstract content of a tree: the datum stored at each point. -/
abbrev PMap (V : Type) := Int → Int → Option V

/-- Nothing stored. -/
def PMap.none : PMap V := fun _ _ => .none

/-- Store `d` at `(px, py)`, replacing what was there. -/
def PMap.put (m : PMap V) (px py : Int) (d : V) : PMap V :=
  fun x y => if x = px ∧ y = py then some d else m x y

/-- Forget what is stored at `(px, py)`. -/
def PMap.del (m : PMap V) (px py : Int) : PMap V :=
  fun x y => if x = px ∧ y = py then .none else m x y

/-- `l` lists the content of `m`: every stored point with its datum, once. -/
def Lists (l : List (Pt V)) (m : PMap V) : Prop :=
  l.Nodup ∧ ∀ x y d, (⟨x, y, d⟩ : Pt V) ∈ l ↔ m x y = some d

/-- The nodes of `t` (however they are arranged) hold exactly the content of `m`. -/
def Holds (t : Tree V) (m : PMap V) : Prop := Lists (allData t) m

/-- A modifying call on one tree. -/
inductive Op (V : Type) where
  | insert (x y : Int) (d : V)
  | remove (x y : Int)
  | clear
  deriving DecidableEq, Repr

/-- Effect of a call on the tree. -/
def Op.run (t : Tree V) : Op V → Outcome (Tree V)
  | .insert x y d => .ok (insertPt x y d t)
  | .remove x y => removePt t x y
  | .clear => .ok .nil

/-- Effect of a call on the abstract content. -/
def Op.spec (m : PMap V) : Op V → PMap V
  | .insert x y d => m.put x y d
  | .remove x y => m.del x y
  | .clear => PMap.none

/-- Run a sequence of calls; an exception stops it. -/
def runOps (t : Tree V) : List (Op V) → Outcome (Tree V)
  | [] => .ok t
  | o :: os => do
    let t' ← o.run t
    runOps t' os

/-- The content after a sequence of calls. -/
def specOps (m : PMap V) (os : List (Op V)) : PMap V := os.foldl Op.spec m

/-- Trees a program can have: any sequence of calls that did not throw, starting from
an empty tree. -/
def Reachable (t : Tree V) : Prop := ∃ os, runOps .nil os = .ok t

/-- The search structure: seen from `(x, y)`, the point lies in quadrant `q`
and is a different point. -/
def Placed (q : Quadrant) (x y : Int) (p : Pt V) : Prop :=
  getQuadrant x y p.x p.y = q ∧ ¬ (x = p.x ∧ y = p.y)

/-- Every node's four subtrees only hold points of the corresponding quadrant. -/
def WF : Tree V → Prop
  | .nil => True
  | .node x y _ _ ne nw se sw =>
    (∀ p ∈ allData ne, Placed .ne x y p) ∧ (∀ p ∈ allData nw, Placed .nw x y p) ∧
    (∀ p ∈ allData se, Placed .se x y p) ∧ (∀ p ∈ allData sw, Placed .sw x y p) ∧
    WF ne ∧ WF nw ∧ WF se ∧ WF sw

/-- Every parent pointer below the root is right. -/
def AllOk : Tree V → Prop
  | .nil => True
  | .node _ _ _ ok ne nw se sw => ok = true ∧ AllOk ne ∧ AllOk nw ∧ AllOk se ∧ AllOk sw

/-- Walk to the node at `(px, py)`. -/
def subtreeAt (px py : Int) : Tree V → Tree V
  | .nil => .nil
  | .node x y d ok ne nw se sw =>
    if x = px ∧ y = py then .node x y d ok ne nw se sw
    else match getQuadrant x y px py with
      | .ne => subtreeAt px py ne
      | .nw => subtreeAt px py nw
      | .se => subtreeAt px py se
      | .sw => subtreeAt px py sw

/-- The node that `remove(px, py)` moves into the place of the removed one (if it has
to move any) is a child of the removed one: in the quadrant `q` of the chosen
candidate, the child has no subtree in the opposite quadrant. -/
def DirectReplacement (t : Tree V) (px py : Int) : Prop :=
  ∀ q, findReplacement px py (subtreeAt px py t) = some q →
    ((subtreeAt px py t).child q).child (opposite q) = .nil

end Mdds.Quad
