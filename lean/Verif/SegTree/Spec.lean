import Verif.SegTree.Model

/-!
# segment_tree: specification

A segment tree is a collection of segments; a stabbing query selects those that contain the point.
-/
namespace Mdds.SegTree
variable {V : Type}

/-- `p` lies in `[start, stop)`. -/
def Seg.contains (s : Seg V) (p : Int) : Bool := decide (s.start ≤ p ∧ p < s.stop)

/-- Stabbing query on a plain list. -/
def stab (segs : List (Seg V)) (p : Int) : List (Seg V) := segs.filter (·.contains p)

variable [DecidableEq V]

/-- The segments that a search result refers to, in the order of the result iterator
(`none`: an index outside the store). -/
def found (st : State V) (p : Int) : Option (List (Seg V)) :=
  (search st p).flatten.mapM (fun i => st.store[i]?)

/-- Reachable containers: any history of calls on a new container. -/
def Reachable (dv : V) (st : State V) : Prop := ∃ ops, run dv mk ops = .ok st

end Mdds.SegTree
